#!/usr/bin/env python3
"""Writes DESIGN.md from tools/design.md and tools/design_props.json (one row per property), so that no property is missed."""
import json, os
root = os.path.abspath(os.path.join(os.path.dirname(__file__), ".."))
props = [json.loads(l) for l in open(os.path.join(root, "properties.jsonl"))]
claims = {c["property"]: c for c in json.load(open(os.path.join(root, "MANIFEST.json")))["claims"]}
rows = json.load(open(os.path.join(root, "tools/design_props.json")))
tab = "| id | property | modelled | proof | theorems |\n|----|----|----|----|----|\n"
for p in props:
    m, pr = rows[p["id"]]
    th = ", ".join("`%s`" % t.replace("Isotope." + p["id"] + "_", "") for t in claims[p["id"]]["theorems"])
    tab += "| %s | %s | %s | %s | %s |\n" % (p["id"], p["title"], m, pr, th)
t = open(os.path.join(root, "tools/design.md")).read().replace("@@TABLE@@", tab)
open(os.path.join(root, "DESIGN.md"), "w").write(t)
