#!/usr/bin/env python3
"""Writes AXIOMS.md: for every theorem of MANIFEST.json the axioms reported by `#print axioms` (needs a finished build)."""
import json, os, re, subprocess, tempfile
root = os.path.abspath(os.path.join(os.path.dirname(__file__), ".."))
names = [t for c in json.load(open(os.path.join(root, "MANIFEST.json")))["claims"] for t in c["theorems"]]
src = "import Verif\n" + "".join("#print axioms %s\n" % n for n in names)
with tempfile.NamedTemporaryFile("w", suffix=".lean", delete=False) as f:
    f.write(src)
out = subprocess.run(["lake", "env", "lean", f.name], cwd=os.path.join(root, "lean"), capture_output=True, text=True).stdout
os.unlink(f.name)
ax = {}
for m in re.finditer(r"'([^']+)' (?:depends on axioms: \[([^\]]*)\]|does not depend on any axioms)", out):
    ax[m.group(1)] = ", ".join(x.strip() for x in (m.group(2) or "").split(",") if x.strip())
assert all(n in ax for n in names), [n for n in names if n not in ax]
groups = {}
for n in names:
    groups.setdefault(ax[n], []).append(n.replace("Isotope.", ""))
with open(os.path.join(root, "AXIOMS.md"), "w") as f:
    f.write("# Axioms of the property theorems\n\nGenerated by tools/axioms.py from `#print axioms`.\n")
    for a in sorted(groups, key=len):
        f.write("\n## %s\n\n" % (a or "no axioms"))
        f.write(", ".join(groups[a]) + "\n")
print({a: len(v) for a, v in groups.items()})
