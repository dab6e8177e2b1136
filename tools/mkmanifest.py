#!/usr/bin/env python3
"""Writes MANIFEST.json from tools/claims.py (property -> status, theorems, note)."""
import json, os
here = os.path.dirname(os.path.abspath(__file__))
ns = {}
exec(open(os.path.join(here, "claims.py")).read(), ns)
out = [{"property": k, "status": s, "theorems": t, "note": n} for k, (s, t, n) in sorted(ns["claims"].items())]
json.dump({"claims": out}, open(os.path.join(here, "..", "MANIFEST.json"), "w"), indent=1)
print(len(out), "claims")
