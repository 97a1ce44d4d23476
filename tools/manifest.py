#!/usr/bin/env python3
"""Regenerates MANIFEST.json from tools/claims.txt: lines  `Cxx | status | note` followed by indented theorem names."""
import json,os
here=os.path.dirname(os.path.abspath(__file__))
claims=[];cur=None
for l in open(os.path.join(here,'claims.txt')):
    l=l.rstrip('\n')
    if not l.strip() or l.startswith('#'): continue
    if l[0]!=' ':
        p,st,note=[x.strip() for x in l.split('|',2)]
        cur={"property":p,"status":st,"theorems":[],"note":note}; claims.append(cur)
    else: cur["theorems"]+=l.split()
json.dump({"claims":claims},open(os.path.join(here,'..','MANIFEST.json'),'w'),indent=1)
