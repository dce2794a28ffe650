#!/usr/bin/env python3
"""Writes seeded/LOG.jsonl from the results of the mutation runs (scratch files outside /verif): one line per attempt."""
import json,os,sys
runs=sys.argv[1:]   # pairs  mutants.py  results.jsonl
out=[]
note=json.load(open('/verif/tools/seednotes.json')) if os.path.exists('/verif/tools/seednotes.json') else {}
for src in runs:
    ns={}; exec(open(src).read(),ns); MU={m['id']:m for m in ns['MU']}
    res={}
    p=src.replace('.py','.res.jsonl')
    if not os.path.exists(p): continue
    for l in open(p):
        r=json.loads(l)
        if r.get('bad') or r.get('chk'): continue
        res[r['id']]=r
    for i,r in res.items():
        m=MU[i]; n=note.get(i,{})
        direct=[f"{k.replace('Verif.','')}:{d}" for k,v in r['errs'].items() for d in v if d!='example']
        ex=sorted({k.replace('Verif.','') for k,v in r['errs'].items() if 'example' in v})
        rec={'id':i,'definition':f"{m['file']}:{m['defn']}",'edit':{'from':m['old'],'to':m['new']},'claim_broken':m['claim'],'properties_expected_to_fail':m['exp'],
             'theorems_failed':[t.replace('Whale.Props.','') for t in r['failed']] if len(r['failed'])<len(r['failed'])+len(r['ok']) or not r['ok'] and len(r['failed'])<40 else ['all '+str(len(r['failed']))+' property theorems (through the lemmas below)'],
             'declarations_broken':direct,'modules_with_failing_examples':ex,'expected_but_still_proved':r['missing'],'theorems_tightened':n.get('tightened',[])}
        if n.get('note'): rec['note']=n['note']
        elif not m['exp'] and not r['failed']: rec['note']='equivalent edit: the program is still correct, nothing should fail'
        out.append(rec)
open('/verif/seeded/LOG.jsonl','w').writelines(json.dumps(x,ensure_ascii=False)+'\n' for x in out)
print(len(out),'attempts;', [x['id'] for x in out if x['expected_but_still_proved']])
