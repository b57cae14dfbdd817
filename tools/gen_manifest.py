#!/usr/bin/env python3
"""Writes MANIFEST.json from the table below."""
import json, os
C = []
def c(pid, status, theorems, note=""):
    C.append({"property": pid, "status": status, "theorems": ["Sia." + t for t in theorems], "note": note})

exec(open(os.path.join(os.path.dirname(__file__), "claims.py")).read())
ids = [json.loads(l)["id"] for l in open(os.path.join(os.path.dirname(__file__), "..", "properties.jsonl"))]
have = {x["property"] for x in C}
missing = [i for i in ids if i not in have]
if missing: print("not yet claimed:", missing)
C.sort(key=lambda x: x["property"])
json.dump({"claims": C}, open(os.path.join(os.path.dirname(__file__), "..", "MANIFEST.json"), "w"), indent=1)
