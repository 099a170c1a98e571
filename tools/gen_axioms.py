#!/usr/bin/env python3
"""Rewrites section 6 of DESIGN.md: the axioms of every theorem in MANIFEST.json, as printed by Lean."""
import json, os, re, subprocess, tempfile
root = os.path.join(os.path.dirname(os.path.abspath(__file__)), "..")
names = []
for c in json.load(open(os.path.join(root, "MANIFEST.json")))["claims"]:
    for t in c["theorems"]:
        if t not in names: names.append(t)
with tempfile.NamedTemporaryFile("w", suffix=".lean", delete=False) as f:
    f.write("import Verif\n" + "".join(f"#print axioms {n}\n" for n in names))
out = subprocess.run(["lake", "env", "lean", f.name], cwd=os.path.join(root, "lean"), capture_output=True, text=True).stdout
os.unlink(f.name)
ax = {}
for m in re.finditer(r"'(\S+)' (?:depends on axioms: \[([^\]]*)\]|does not depend on any axioms)", out):
    ax[m.group(1)] = ", ".join(sorted(x.strip() for x in (m.group(2) or "").split(",") if x.strip())) or "none"
missing = [n for n in names if n not in ax]
assert not missing, missing[:5]
groups = {}
for n in names: groups.setdefault(ax[n], []).append(n.split(".")[-1])
p = os.path.join(root, "DESIGN.md"); s = open(p).read()
head = "## 6. Axioms of each theorem"
if head in s: s = s[:s.index(head)]
s = s.rstrip("\n") + "\n\n" + head + "\n\nAs printed by `#print axioms` (generated by `tools/gen_axioms.py`). All theorems are in the namespace `Gotit.Props`.\n"
for k in sorted(groups, key=lambda k: (len(k), k)):
    s += f"\n**{k}** ({len(groups[k])}): " + ", ".join(f"`{x}`" for x in groups[k]) + ".\n"
open(p, "w").write(s)
print({k: len(v) for k, v in groups.items()})
