#!/usr/bin/env python3
"""Writes /verif/MANIFEST.json from the table below."""
import json
M=[]
def c(prop,status,thms,note): M.append({"property":prop,"status":status,"theorems":thms.split(),"note":note})
exec(open('/verif/tools/claims.py').read())
json.dump({"claims":M},open('/verif/MANIFEST.json','w'),indent=1)
print(len(M), [m["property"] for m in M if m["status"]!="proved"])
