#!/usr/bin/env python3
"""Regenerates /verif/MANIFEST.json: theorem names are collected from lean/Verif/Props/*.lean by
their Cnn_ prefix; status and note are in the table below."""
import json,re,glob,os
root=os.path.dirname(os.path.dirname(os.path.abspath(__file__)))
th={}
for f in sorted(glob.glob(root+'/lean/Verif/Props/*.lean')):
    for m in re.finditer(r'^theorem (?:_root_\.Verif\.)?(C\d\d_\S+)',open(f).read(),re.M):
        th.setdefault(m.group(1)[:3],[]).append('Verif.'+m.group(1))
NOTES=json.load(open(root+'/tools/notes.json'))
claims=[]
for line in open(root+'/properties.jsonl'):
    i=json.loads(line)['id']
    st,note=NOTES.get(i,['',''])
    names=th.get(i,[])
    if not names: continue
    claims.append(dict(property=i,status=st or 'proved',theorems=names,note=note))
json.dump({'claims':claims},open(root+'/MANIFEST.json','w'),indent=1)
print({c['property']:c['status'] for c in claims})
