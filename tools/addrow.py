#!/usr/bin/env python3
"""addrow.py ID STATUS "thm1,thm2" NOTE : replace or add a row of tools/manifest_table.json"""
import json,sys,os
p=os.path.join(os.path.dirname(__file__),'manifest_table.json')
t=json.load(open(p)); i,s,th,n=sys.argv[1:5]
row=[i,s,[x for x in th.split(',') if x],n]
t=[r for r in t if r[0]!=i]+[row]; t.sort(key=lambda r:r[0])
json.dump(t,open(p,'w'),indent=1)
