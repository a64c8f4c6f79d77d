#!/usr/bin/env python3
"""Write AXIOMS.md: the axioms of every theorem named in MANIFEST.json, as `#print axioms` reports them.
Needs a finished `lake build`."""
import json, os, re, subprocess, tempfile

root = os.path.join(os.path.dirname(os.path.abspath(__file__)), "..")
claims = json.load(open(os.path.join(root, "MANIFEST.json")))["claims"]
names = [(c["property"], t) for c in claims for t in c["theorems"]]
with tempfile.NamedTemporaryFile("w", suffix=".lean", delete=False) as f:
    f.write("import Verif\n" + "".join(f"#print axioms {t}\n" for _, t in names))
out = subprocess.run(["lake", "env", "lean", f.name], cwd=os.path.join(root, "lean"), capture_output=True, text=True).stdout
os.unlink(f.name)
ax = {}
for m in re.finditer(r"'([\w.]+)' (?:depends on axioms: \[([^\]]*)\]|does not depend on any axioms)", out):
    ax[m.group(1)] = ", ".join(m.group(2).split(", ")).replace("\n", " ") if m.group(2) else "none"
missing = [t for _, t in names if t not in ax]
assert not missing, missing
with open(os.path.join(root, "AXIOMS.md"), "w") as f:
    f.write("# Axioms per theorem\n\nWritten by `tools/axioms.py` from `#print axioms`.\n\n| property | theorem | axioms |\n|---|---|---|\n")
    for p, t in names:
        f.write(f"| {p} | `{t}` | {' '.join(ax[t].split())} |\n")
print(len(names), "theorems;", sorted({a for v in ax.values() for a in re.split(r",\s*", v)}))
