#!/usr/bin/env python3
"""Writes MANIFEST.json from the theorems Cxx_* of lean/Verif/Properties and the notes of scripts/notes.json."""
import glob, json, os, re
root = os.path.dirname(os.path.dirname(os.path.abspath(__file__)))
props = [json.loads(l) for l in open(os.path.join(root, "properties.jsonl"))]
notes = json.load(open(os.path.join(root, "scripts", "notes.json")))
thms = {}
for f in sorted(glob.glob(os.path.join(root, "lean/Verif/Properties/*.lean"))):
    ns = []
    for line in open(f):
        m = re.match(r"namespace (\S+)", line)
        if m: ns.append(m.group(1)); continue
        m = re.match(r"end (\S+)", line)
        if m and ns and ns[-1] == m.group(1): ns.pop(); continue
        m = re.match(r"theorem (C\d\d)_(\S+)", line)
        if m: thms.setdefault(m.group(1), []).append(".".join(ns + [m.group(1) + "_" + m.group(2)]))
claims = []
for p in props:
    i = p["id"]
    n = notes.get(i, {})
    ts = thms.get(i, [])
    if not ts and n.get("status") != "not_applicable": continue
    claims.append({"property": i, "status": n.get("status", "proved"), "theorems": ts, "note": n.get("note", "")})
json.dump({"claims": claims}, open(os.path.join(root, "MANIFEST.json"), "w"), indent=1, ensure_ascii=False)
print(len(claims), "claims", sum(len(c["theorems"]) for c in claims), "theorems; missing", [p["id"] for p in props if p["id"] not in {c["property"] for c in claims}])
