#!/bin/bash
# writes AXIOMS.md: the axioms of each theorem of MANIFEST.json
cd /verif/lean
python3 - > /tmp/ax.lean <<'P'
import json
m=json.load(open('/verif/MANIFEST.json'))
print("import Verif")
for c in m['claims']:
    for t in c['theorems']: print("#print axioms "+t)
P
lake env lean /tmp/ax.lean > /tmp/ax.out || exit 1
python3 - <<'P'
import re
s=open('/tmp/ax.out').read()
out=["# Axioms of the theorems of MANIFEST.json","","Output of `#print axioms`, written by `scripts/axioms.sh`.","","| theorem | axioms |","|---|---|"]
for m in re.finditer(r"'(\S+)' (depends on axioms: \[([^\]]*)\]|does not depend on any axioms)",s):
    out.append(f"| `{m.group(1)}` | {m.group(3).replace(chr(10),'') if m.group(3) else 'none'} |")
open('/verif/AXIOMS.md','w').write("\n".join(out)+"\n")
print(len(out)-6)
P
