#!/usr/bin/env python3
"""Write MANIFEST.json from the table below.

Theorem names are given without the common prefix `Marley.Props.`.
"""
import json, os

CLAIMS = []

def claim(prop, status, theorems, note):
    CLAIMS.append({
        "property": prop,
        "status": status,
        "theorems": ["Marley.Props." + t for t in theorems.split()],
        "note": note,
    })

here = os.path.dirname(os.path.abspath(__file__))
exec(open(os.path.join(here, "claims_table.py")).read())

CLAIMS.sort(key=lambda c: c["property"])
with open(os.path.join(here, "..", "MANIFEST.json"), "w") as f:
    json.dump({"claims": CLAIMS}, f, indent=1, ensure_ascii=False)
    f.write("\n")
