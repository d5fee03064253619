#!/usr/bin/env python3
"""usage: newprop.py FILE.json -- append a property: {id,title,statement,quantifier,why_tests_cant,anchors,row,status,theorems,note}; row is the DESIGN.md table text"""
import json,sys,os,re,subprocess
root=os.path.join(os.path.dirname(os.path.abspath(__file__)),'..')
d=json.load(open(sys.argv[1]))
keys=['id','title','statement','quantifier','why_tests_cant','anchors']
with open(root+'/properties.jsonl','a') as f: f.write(json.dumps({k:d[k] for k in keys})+'\n')
s=open(root+'/DESIGN.md').read()
n=int(d['id'][1:])
prev=[l for l in s.split('\n') if l.startswith(f'| C{n-1} |')][0]
s=s.replace(prev,prev+f"\n| {d['id']} | {d['title']} | {d['row']} |")
open(root+'/DESIGN.md','w').write(s)
subprocess.run(['python3',root+'/tools/claim.py',d['id'],d['status'],','.join(d['theorems']),d['note']],check=True)
