#!/usr/bin/env python3
"""Regenerates the per-property table of DESIGN.md (between the markers) from properties.jsonl, MANIFEST.json and tools/how.py."""
import json,re,os
os.chdir(os.path.dirname(os.path.abspath(__file__))+'/..')
props={}
for l in open('properties.jsonl'):
    d=json.loads(l); props[d['id']]=d
man={c['property']:c for c in json.load(open('MANIFEST.json'))['claims']}
exec(open('tools/how.py').read())
rows=['| id | property | status | what is modelled | how it is proved | theorems |','|----|----|----|----|----|----|']
for k in sorted(props):
    m=man[k]; w,h=HOW[k]
    rows.append('| %s | %s | %s | %s | %s | %s |'%(k,props[k]['title'],m['status'],w,h,', '.join('`'+t.split('.',1)[1]+'`' for t in m['theorems'])))
s=open('DESIGN.md').read()
s=re.sub(r'<!-- table -->.*<!-- /table -->',lambda _:'<!-- table -->\n'+'\n'.join(rows)+'\n<!-- /table -->',s,flags=re.S)
open('DESIGN.md','w').write(s)
