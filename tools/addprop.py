import sys,json
# usage: addprop.py propfile(json with id,row tuple, design)
d=json.load(open(sys.argv[1]))
p='/verif/tools/gen_props.py'; s=open(p).read()
row='p(%s)\n'%','.join(json.dumps(x,ensure_ascii=False) for x in d['row'])
i=s.index('open("/verif/properties.jsonl"'); i=s.rindex('\n',0,i)+1
s=s[:i]+row+s[i:]; open(p,'w').write(s)
p='/verif/DESIGN.md'; lines=open(p).read().split('\n')
import re
ks=[i for i,l in enumerate(lines) if re.match(r'\| C\d\d',l)]
lines.insert(ks[-1]+1,'| %s | %s |'%(d['row'][0],d['design']))
open(p,'w').write('\n'.join(lines))
