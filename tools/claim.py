#!/usr/bin/env python3
"""usage: claim.py Cxx status 'thm1,thm2' 'note'  -- set one claim in MANIFEST.json"""
import json,sys,os
p=os.path.join(os.path.dirname(__file__),'..','MANIFEST.json')
m=json.load(open(p))
pid,st,th,note=sys.argv[1:5]
m['claims']=[c for c in m['claims'] if c['property']!=pid]
m['claims'].append({"property":pid,"status":st,"theorems":[t for t in th.split(',') if t],"note":note})
m['claims'].sort(key=lambda c:int(c['property'][1:]))
json.dump(m,open(p,'w'),indent=1)
