#!/usr/bin/env python3
"""Source of MANIFEST.json: for each property its status and note; the theorem names are collected from
lean/Verif/Props/*.lean (every `theorem Cxx_...`)."""
import re, os, json, glob
root = os.path.join(os.path.dirname(os.path.abspath(__file__)), "..")
S = {}
def s(pid, status, note): S[pid] = (status, note)
exec(open(os.path.join(root, "tools", "status.py")).read())
thms = {}
for f in sorted(glob.glob(os.path.join(root, "lean/Verif/Props/*.lean"))):
    ns = []
    for line in open(f):
        m = re.match(r"namespace (\S+)", line)
        if m: ns += m.group(1).split(".")
        m = re.match(r"end (\S+)", line)
        if m: ns = ns[:len(ns) - len(m.group(1).split("."))]
        m = re.match(r"theorem (C\d\d+)_(\S+)", line)
        if m:
            thms.setdefault(m.group(1), []).append(".".join(ns + [m.group(1) + "_" + m.group(2)]))
props = [json.loads(l)["id"] for l in open(os.path.join(root, "properties.jsonl"))]
claims = []
for p in props:
    if p in S:
        st, note = S[p]
        claims.append(dict(property=p, status=st, theorems=thms.get(p, []), note=note))
        if st == "proved" and not thms.get(p): print("WARNING no theorems for", p)
for p in thms:
    if p not in S: print("WARNING theorems without status", p)
missing = [p for p in props if p not in S]
if missing: print("missing:", missing)
json.dump({"claims": claims}, open(os.path.join(root, "MANIFEST.json"), "w"), indent=1)
print(len(claims), "claims")
