"""Regenerates MANIFEST.json from the table below (run from /verif)."""
import json
C = []
def c(prop, status, theorems, note=""):
    C.append({"property": prop, "status": status, "theorems": theorems, "note": note})
exec(open('tools/claims.py').read())
json.dump({"claims": C}, open('MANIFEST.json', 'w'), indent=1)
exec(open('tools/audit.py').read())
