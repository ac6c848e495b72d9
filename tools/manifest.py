#!/usr/bin/env python3
"""Writes MANIFEST.json: every theorem `Cxx_*` under lean/Verif/Props is listed for property Cxx."""
import json, re, glob, os
root = os.path.join(os.path.dirname(__file__), "..")
props = [json.loads(l) for l in open(os.path.join(root, "properties.jsonl"))]
thms = {}
for f in sorted(glob.glob(os.path.join(root, "lean/Verif/Props/*.lean"))):
    for m in re.finditer(r"^theorem (C\d+_\w+)", open(f).read(), re.M):
        thms.setdefault(m.group(1).split("_")[0], []).append("Isotope." + m.group(1))
notes = json.load(open(os.path.join(root, "tools/notes.json")))
claims = []
for p in props:
    i = p["id"]
    t = thms.get(i, [])
    n = notes.get(i, "")
    if not t:
        if n: claims.append(dict(property=i, status="not_applicable", theorems=[], note=n))
        continue
    st = "partial" if any(x.endswith("_partial") for x in t) else "proved"
    claims.append(dict(property=i, status=st, theorems=t, note=n))
json.dump(dict(claims=claims), open(os.path.join(root, "MANIFEST.json"), "w"), indent=1)
print({c["property"]: (c["status"], len(c["theorems"])) for c in claims})
