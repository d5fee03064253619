#!/usr/bin/env python3
"""List the Go functions of /repo (non-test) whose lines no comment of the model cites. usage: coverage.py"""
import re,os,glob
cites={}
for f in glob.glob('/verif/lean/Verif/**/*.lean',recursive=True):
    s=open(f).read()
    cur=None
    hdr=re.findall(r'(mkrlwe|mkckks|mkbfv|cnn)/?', s[:600])
    for m in re.finditer(r'(?:(mkrlwe|mkckks|mkbfv|cnn)/)?(\w+\.go):(\d+)(?:-(\d+))?((?:, ?\d+(?:-\d+)?)*)',s):
        rs=[(int(m[3]),int(m[4] or m[3]))]
        for x in re.findall(r'(\d+)(?:-(\d+))?',m[5]): rs.append((int(x[0]),int(x[1] or x[0])))
        cites.setdefault((m[1],m[2]),[]).extend((a,b,os.path.basename(f)) for a,b in rs)
for d in ['mkrlwe','mkckks','mkbfv','cnn']:
    for f in sorted(glob.glob(f'/repo/{d}/*.go')):
        if f.endswith('_test.go'): continue
        L=open(f).read().split('\n'); b=os.path.basename(f)
        for i,l in enumerate(L,1):
            m=re.match(r'func (?:\([^)]*\) )?(\w+)',l)
            if m:
                e=next((j for j in range(i,len(L)+1) if L[j-1].startswith('}')),i)
                c=[x for k in [(d,b),(None,b)] for x in cites.get(k,[]) if x[0]<=e and x[1]>=i]
                if not c: print(f'{d}/{b}:{i}-{e} {m[1]}')
