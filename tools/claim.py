#!/usr/bin/env python3
"""claim.py PROPERTY STATUS THEOREM[,THEOREM...] NOTE -- insert or replace one claim in MANIFEST.json"""
import json, os, sys
path = os.path.join(os.path.dirname(os.path.abspath(__file__)), "..", "MANIFEST.json")
prop, status, thms, note = sys.argv[1:5]
m = json.load(open(path))
m["claims"] = [c for c in m["claims"] if c["property"] != prop]
m["claims"].append({"property": prop, "status": status, "theorems": [t for t in thms.split(",") if t], "note": note})
m["claims"].sort(key=lambda c: c["property"])
json.dump(m, open(path, "w"), indent=1, ensure_ascii=False)
open(path, "a").write("\n")
