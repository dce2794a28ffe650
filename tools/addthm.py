#!/usr/bin/env python3
"""addthm.py ID "thm1,thm2" [NOTE appended] : add theorems to an existing row of tools/manifest_table.json"""
import json,sys,os
p=os.path.join(os.path.dirname(__file__),'manifest_table.json')
t=json.load(open(p))
for r in t:
    if r[0]==sys.argv[1]:
        r[2]+=[x for x in sys.argv[2].split(',') if x and x not in r[2]]
        if len(sys.argv)>3: r[3]=r[3].rstrip()+' '+sys.argv[3]
json.dump(t,open(p,'w'),indent=1)
