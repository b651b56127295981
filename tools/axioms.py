#!/usr/bin/env python3
"""Write AXIOMS.md: the axioms every theorem named in MANIFEST.json depends on (run after `lake build`)."""
import json, os, re, subprocess, tempfile
root = os.path.dirname(os.path.dirname(os.path.abspath(__file__)))
m = json.load(open(os.path.join(root, "MANIFEST.json")))
names = []
for c in m["claims"]:
    for t in c["theorems"]:
        if t not in names: names.append(t)
with tempfile.NamedTemporaryFile("w", suffix=".lean", dir="/tmp", delete=False) as f:
    f.write("import Verif\nset_option pp.fullNames true\nopen Verif\n" + "".join("#print axioms %s\n" % n for n in names))
out = subprocess.run(["lake", "env", "lean", f.name], cwd=os.path.join(root, "lean"), capture_output=True, text=True).stdout
out = re.sub(r"\n\s+", " ", out)
groups = {}
seen = 0
for line in out.splitlines():
    r = re.match(r"(?:.*: info: )?'(\S+)' depends on axioms: \[(.*)\]", line)
    if r: groups.setdefault(r.group(2), []).append(r.group(1)); seen += 1; continue
    r = re.match(r"(?:.*: info: )?'(\S+)' does not depend on any axioms", line)
    if r: groups.setdefault("none", []).append(r.group(1)); seen += 1; continue
    if "error" in line: print(line)
with open(os.path.join(root, "AXIOMS.md"), "w") as f:
    f.write("# Axioms per theorem\n\nGenerated by tools/axioms.py with `#print axioms` (%d of %d theorems).\n" % (seen, len(names)))
    for k in sorted(groups):
        f.write("\n## %s (%d)\n\n%s\n" % (k, len(groups[k]), ", ".join(sorted(groups[k]))))
print(seen, len(names), sorted(groups))
