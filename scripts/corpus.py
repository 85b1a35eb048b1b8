#!/usr/bin/env python3
"""Reads the grammars of /repo/tests/grammars and writes their tokens, in the form of Model/Front, to lean/Verif/Corpus/Grammars.lean;
with the argument `run`, also writes /tmp/conformance.lean, which runs the generated code of the model on the inputs of /repo/data/test."""
import re,sys,os,glob
R="/repo/tests/grammars/"
def lex(s):
    """Rust tokens: (kind, value, joint)."""
    out=[];i=0;n=len(s)
    P="=><!&*+?/.:;,|^#-$%@~'"
    while i<n:
        c=s[i]
        if c.isspace(): i+=1; continue
        if s.startswith("//",i):
            while i<n and s[i]!="\n": i+=1
            continue
        m=re.compile(r'r(#*)"').match(s,i)
        if m:
            end='"'+m.group(1); j=s.index(end,m.end()); out.append(("lit",s[m.end():j],False)); i=j+len(end); continue
        if c=='"':
            j=i+1;v=""
            while s[j]!='"':
                if s[j]=="\\":
                    v+={"n":"\n","t":"\t","r":"\r","\\":"\\",'"':'"',"'":"'","0":"\0"}[s[j+1]]; j+=2
                else: v+=s[j]; j+=1
            out.append(("lit",v,False)); i=j+1; continue
        if c=="'" and re.compile(r"'[a-z_]+(?!')").match(s,i) and not re.compile(r"'.'").match(s,i):
            m=re.compile(r"'[a-z_]+").match(s,i); out.append(("life",m.group(0),False)); i=m.end(); continue
        m=re.compile(r"[A-Za-z_][A-Za-z0-9_]*|[0-9]+").match(s,i)
        if m: out.append(("id",m.group(0),False)); i=m.end(); continue
        if c in "()[]{}": out.append((c,c,False)); i+=1; continue
        if c in P:
            out.append(("p",c,i+1<n and s[i+1] in P)); i+=1; continue
        raise Exception("lex %r"%s[i:i+20])
    return out
CL={"(":")","[":"]","{":"}"}
def tree(t,i,end):
    out=[]
    while i<len(t) and t[i][0]!=end:
        if t[i][0] in CL:
            sub,i2=tree(t,i+1,CL[t[i][0]]); out.append((t[i][0],sub)); i=i2+1
        else: out.append(t[i]); i+=1
    return out,i
def text(ts):
    r=""
    for x in ts:
        if x[0] in CL: r+=x[0]+text(x[1])+CL[x[0]]
        elif x[0]=="lit": r+='"'+x[1]+'"'
        else: r+=(" " if r and (r[-1].isalnum() or r[-1]=="_") and x[0] in("id","life") else "")+x[1]
    return r
def isp(x,c): return x[0]=="p" and x[1]==c
def path(ts,i):
    p=[ts[i][1]];i+=1
    while i+2<len(ts) and isp(ts[i],":") and ts[i][2] and isp(ts[i+1],":") and ts[i+2][0]=="id": p.append(ts[i+2][1]); i+=3
    return p,i
def q(s): return '"'+s.replace("\\","\\\\").replace('"','\\"').replace("\n","\\n").replace("\t","\\t").replace("\r","\\r")+'"'
def pl(p): return "["+", ".join(q(x) for x in p)+"]"
def toks(ts):
    out=[];i=0
    while i<len(ts):
        x=ts[i]
        if x[0]=="lit": out.append(".lit "+q(x[1])); i+=1
        elif x[0]=="(": out.append(".paren [%s]"%", ".join(toks(x[1]))); i+=1
        elif x[0]=="[": out.append(".bracket [%s]"%", ".join(toks(x[1]))); i+=1
        elif x[0]=="id" and x[1]=="box": out.append(".box"); i+=1
        elif item_at(ts,i): s,i=item(ts,i); out.append(s)
        elif x[0]=="id":
            p,j=path(ts,i)
            if j<len(ts) and isp(ts[j],"<"):          # generic type: `Box<T>`
                k=j;d=0
                while True:
                    if isp(ts[k],"<"): d+=1
                    if isp(ts[k],">"): d-=1
                    k+=1
                    if d==0: break
                out.append(".rtype "+q(text(ts[i:k]))); i=k
            else: out.append(".path "+pl(p)); i=j
        elif x[0]=="p": out.append(".punct '%s' %s"%(x[1],"true" if x[2] else "false")); i+=1
        else: raise Exception("tok %r"%(x,))
    return out
KW={"fn","pub","use","enum","struct","mod","impl","extern","const","static","trait"}
def item_at(ts,i):
    x=ts[i]
    if isp(x,"#") and i+1<len(ts) and ts[i+1][0]=="[": return True
    if x[0]=="id" and x[1] in KW: return True
    return x[0]=="id" and x[1]=="type" and i+1<len(ts) and ts[i+1][0]=="id"
def item(ts,i):
    j=i
    while isp(ts[j],"#"): j+=2
    if ts[j][0]=="id" and ts[j][1]=="pub": j+=1
    kw=ts[j][1]; k=j
    while not (isp(ts[k],";") or ts[k][0]=="{"): k+=1
    if kw=="fn":
        name=ts[j+1][1]; ret=None
        for a in range(j,k):
            if isp(ts[a],"-") and isp(ts[a+1],">"): ret=text(ts[a+2:k])
        return ".item (.fn ⟨%s, %s⟩)"%(q(name),".default" if ret is None else ".ty "+q(ret)),k+1
    if kw=="type":
        e=[a for a in range(j,k) if isp(ts[a],"=")][0]
        return ".item (.alias %s %s)"%(q(ts[j+1][1]),q(text(ts[e+1:k]))),k+1
    if kw=="use":
        while not isp(ts[k],";"): k+=1
    return ".item (.other %s)"%q(text(ts[i:k+1])),k+1
def grammar(f):
    s=open(f).read(); i=s.index("oak! {")+6
    t=lex(s[i:]) if False else None
    # find the end of the macro by lexing
    d=1;j=i
    body=s[i:]
    l=lex(body[:cut(body)])
    return toks(tree(l,0,None)[0])
def cut(b):
    """offset of the brace that closes the macro."""
    i=0;d=1
    while True:
        if b.startswith("//",i): i=b.index("\n",i); continue
        m=re.compile(r'r(#*)"').match(b,i)
        if m: e='"'+m.group(1); i=b.index(e,m.end())+len(e); continue
        if b[i]=='"':
            i+=1
            while b[i]!='"': i+=2 if b[i]=="\\" else 1
        elif b[i]=="{": d+=1
        elif b[i]=="}":
            d-=1
            if d==0: return i
        i+=1
def wrap(xs):
    out="";line="  "
    for k,x in enumerate(xs):
        x=x+("," if k+1<len(xs) else "")
        if len(line)+len(x)>150: out+=line.rstrip()+"\n"; line="  "
        line+=x+" "
    return out+line.rstrip()
names=sorted(os.path.basename(f)[:-3] for f in glob.glob(R+"*.rs") if not f.endswith("mod.rs"))
out="""import Verif.Model.Front
/-!
The grammars of `tests/grammars/*.rs`, as tokens.  Written by `scripts/corpus.py`; the bodies of the items are not kept.
-/
set_option autoImplicit false

namespace Oak.Corpus
"""
for n in names:
    out+="\n/-- tests/grammars/%s.rs -/\ndef %sGrammar : List Tok := [\n%s]\n"%(n,n,wrap(grammar(R+n+".rs")))
out+="\nend Oak.Corpus\n"
open("/verif/lean/Verif/Corpus/Grammars.lean","w").write(out)
D="/repo/data/test/"
def cases():
    reg=[("ntcc",None,"ntcc"),("type_name",None,"type_names"),("calc",None,"program"),("calc2",None,"program"),("calc3",None,"program")]
    reg+=[("combinators",b,"predicate" if b=="syntactic_predicate" else b) for b in "str_literal sequence any_single_char choice repeat syntactic_predicate optional char_class non_terminal".split()]
    for g,b,r in reg:
        for kind,exp in (("pass",0),("partial",1),("fail",2)):
            if b:
                ls=open(D+"%s/%s.bulk.%s"%(g,b,kind),newline="").read().split("\n")
                if ls and ls[-1]=="": ls.pop()
                for k,l in enumerate(ls): yield g,r,exp,l,"%s.bulk.%s:%d"%(b,kind,k+1)
            else:
                for f in sorted(glob.glob(D+"%s/run-%s/*"%(g,kind))): yield g,r,exp,open(f,newline="").read(),os.path.relpath(f,D)
if len(sys.argv)>1:
    cs=list(cases())
    o="import Verif.Corpus.Run\nopen Oak\n"
    for g in sorted(set(c[0] for c in cs)):
        o+="def %sCases : List (String × String × Nat × String) := [\n%s]\n"%(g,",\n".join("  (%s, %s, %d, %s)"%(q(f),q(r),e,q(i)) for g2,r,e,i,f in cs if g2==g))
        o+="#eval runCases %s Corpus.%sGrammar %sCases\n"%(q(g),g,g)
    # the rules that are commented out, with what the comment says of them
    k=0
    for f in ("well_formedness","useless_chaining"):
        groups=[];cur=[]
        for l in open(R+f+".rs").read().split("oak! {")[1].split("\n"):
            m=re.match(r"\s*//\s*(?://)?\s*([a-z][a-z0-9_]* = .*)$",l)
            if m: cur.append(m.group(1))
            elif cur: groups.append(cur); cur=[]
        for g in groups:
            flat=[];seen=set()
            for l in g:
                rule,_,com=l.partition("//")
                flat.append((rule.strip(),com.strip()))
            if f=="useless_chaining": sets=[flat]
            else:
                sets=[];c=[]
                for rc in flat:
                    name=rc[0].split("=")[0].strip()
                    if c and not name.startswith(c[0][0].split("=")[0].strip()): sets.append(c); c=[]
                    if len(name)>1 and c and name[0]!=c[0][0][0]: sets.append(c); c=[]
                    if c and name[0] in "uv" : sets.append(c); c=[]
                    c.append(rc)
                sets.append(c)
            for c in sets:
                k+=1
                ts=toks(tree(lex("\n".join(r for r,_ in c)),0,None)[0])
                o+="#eval report %s [%s]\n"%(q("; ".join(r for r,_ in c)+"   --   "+"; ".join(x for _,x in c if x)),", ".join(ts))
    open("/tmp/conformance.lean","w").write(o)
    print(len(cs),"inputs")
