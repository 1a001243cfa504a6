#!/usr/bin/env python3
"""Appends results of automutate.py to seeded/LOG.jsonl: autolog.py RESULTS.jsonl [NOTES.json]
NOTES maps a mutation id to {"note":..., "theorems_tightened":[...]}."""
import json,sys
notes=json.load(open(sys.argv[2])) if len(sys.argv)>2 else {}
seen={json.loads(l)['mutation'] for l in open('/verif/seeded/LOG.jsonl')}
n=0
with open('/verif/seeded/LOG.jsonl','a') as f:
    for l in open(sys.argv[1]):
        r=json.loads(l)
        if r['mutation'] in seen or r['outcome']=='stillborn': continue
        x=notes.get(r['mutation'],{})
        o={'mutation':r['mutation'],'definition':r['definition'],'file':r['file'],'edit':r['edit'],
           'claim_broken':'behaviour of '+r['definition']+' (random single-token edit)','model_compiles':True,
           'survived':r['outcome']=='SURVIVED','theorems_failed':[r['caught_by']] if r['caught_by'] else [],
           'theorems_tightened':x.get('theorems_tightened',[])}
        if 'note' in x: o['note']=x['note']
        f.write(json.dumps(o,ensure_ascii=False)+'\n'); n+=1
print(n)
