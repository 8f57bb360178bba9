#!/usr/bin/env python3
"""Writes /verif/MANIFEST.json. Every property of properties.jsonl is listed."""
import json, os
here = os.path.dirname(os.path.abspath(__file__))
C = {}
def c(pid, status, theorems, note):
    C[pid] = dict(property=pid, status=status, theorems=["S2G."+t for t in theorems], note=note)
exec(open(os.path.join(here, "claims.py")).read())
ids = [json.loads(l)["id"] for l in open(os.path.join(here, "..", "properties.jsonl"))]
out = []
for i in ids:
    if i in C: out.append(C[i])
    else: out.append(dict(property=i, status="partial", theorems=[], note="not yet proved; see DESIGN.md for the plan"))
json.dump({"claims": out}, open(os.path.join(here, "..", "MANIFEST.json"), "w"), indent=1)
print("open:", [i for i in ids if i not in C])
