#!/usr/bin/env python3
# Writes MANIFEST.json from the table below; a theorem name is looked up in the
# Props directory so a typo is caught here rather than later.
import json,re,glob,os
root=os.path.dirname(os.path.dirname(os.path.abspath(__file__)))
have=set()
for f in glob.glob(root+'/lean/Verif/Props/*.lean'):
    have|=set(re.findall(r'^theorem\s+([\w.\']+)',open(f).read(),re.M))
T=json.load(open(root+'/tools/manifest_table.json'))
out=[]
for pid,st,ths,note in T:
    for t in ths:
        assert t in have,(pid,t)
    out.append({"property":pid,"status":st,"theorems":["Whale.Props."+t for t in ths],"note":note})
json.dump({"claims":out},open(root+'/MANIFEST.json','w'),indent=1)
listed={t for _,_,ths,_ in T for t in ths}
print("unlisted:",sorted(t for t in have if re.match(r'C\d\d_',t) and t not in listed))
