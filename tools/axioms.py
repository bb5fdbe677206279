#!/usr/bin/env python3
"""Writes AXIOMS.md: the axioms each claimed theorem depends on, as reported by Lean (`#print axioms`)."""
import json, os, re, subprocess, tempfile
root = os.path.dirname(os.path.dirname(os.path.abspath(__file__)))
claims = json.load(open(os.path.join(root, "MANIFEST.json")))["claims"]
names = [t for c in claims for t in c["theorems"]]
with tempfile.NamedTemporaryFile("w", suffix=".lean", delete=False) as f:
    f.write("import Verif\n" + "".join(f"#print axioms {n}\n" for n in names))
out = subprocess.run(["lake", "env", "lean", f.name], cwd=os.path.join(root, "lean"), capture_output=True, text=True).stdout
os.unlink(f.name)
ax = {}
for m in re.finditer(r"'([^']+)' (?:depends on axioms: \[([^\]]*)\]|does not depend on any axioms)", out):
    ax[m.group(1)] = ", ".join(sorted(x.strip() for x in (m.group(2) or "").split(",") if x.strip())) or "none"
missing = [n for n in names if n not in ax]
assert not missing, missing
groups = {}
for n in names:
    groups.setdefault(ax[n], []).append(n)
with open(os.path.join(root, "AXIOMS.md"), "w") as f:
    f.write("# Axioms per theorem\n\nGenerated by `tools/axioms.py` from `#print axioms`.\n")
    for a in sorted(groups):
        f.write(f"\n## {a}\n\n" + "".join(f"- `{n}`\n" for n in sorted(groups[a])))
print({a: len(g) for a, g in groups.items()})
