#!/usr/bin/env python3
"""Mutation runner: applies each edit of a mutation list to a scratch copy of the Lean project,
rebuilds, and appends the outcome to seeded/LOG.jsonl.  Usage: mutate.py LIST.py [--only i,j]"""
import sys, os, re, json, subprocess, shutil, runpy, time
SRC=os.environ.get('MUTBASE','/tmp/mutbase'); DST='/tmp/mut/lean'; LOG='/verif/seeded/LOG.jsonl'
def sh(c, **k): return subprocess.run(c, shell=True, capture_output=True, text=True, **k)
def sync():
    os.makedirs(DST, exist_ok=True)
    r=sh(f'rm -rf {DST} && cp -a {SRC} {DST}')
    assert r.returncode==0, r.stderr
def imports():
    g={}
    for d,_,fs in os.walk(f'{DST}/Verif'):
        for f in fs:
            if f.endswith('.lean'):
                p=os.path.join(d,f); m=os.path.relpath(p,DST)[:-5].replace('/','.')
                g[m]=re.findall(r'^import (Verif\.\S+)', open(p).read(), re.M)
    return g
def decl_at(path, line):
    ls=open(path).read().split('\n')
    for i in range(min(line,len(ls))-1,-1,-1):
        m=re.match(r'(?:@\[[^\]]*\]\s*)?(?:private |protected |noncomputable )*(theorem|lemma|def|example|instance|abbrev|inductive|structure)\b\s*(\S+)?', ls[i])
        if m: return (m.group(1)+' ' if m.group(1)!='theorem' else '')+(m.group(2) or '')
    return '?'
def run(mu):
    f=f'{DST}/Verif/{mu["file"]}'
    s=open(f).read()
    n=s.count(mu['old'])
    if n!=1: return {'error':f'{n} occurrences', **mu}
    open(f,'w').write(s.replace(mu['old'],mu['new']))
    t=time.time()
    r=sh(f'cd {DST} && timeout 1500 lake build 2>&1')
    out=r.stdout
    errs=re.findall(r'^error: (Verif/\S+\.lean):(\d+):', out, re.M)
    direct=[]
    mods=set()
    for p,l in errs:
        m=p[:-5].replace('/','.'); mods.add(m)
        d=m.split('.',1)[1]+':'+decl_at(f'{DST}/{p}',int(l))
        if d not in direct: direct.append(d)
    g=imports()
    bad=set(mods); ch=True
    while ch:
        ch=False
        for m,im in g.items():
            if m not in bad and any(i in bad for i in im): bad.add(m); ch=True
    failed=[]
    for m in sorted(bad):
        if '.Props.' in m:
            txt=open(f'{DST}/'+m.replace('.','/')+'.lean').read()
            names=re.findall(r'^theorem (C\d\d_\S+)', txt, re.M)
            if m in mods:
                names=[n for n in names if any(d.endswith(':'+n) for d in direct)] or names
            failed+=names
    res={'mutation':mu['id'],'definition':mu['def'],'file':'lean/Verif/'+mu['file'],'edit':mu['old'].strip()+'  ==>  '+mu['new'].strip(),
         'claim_broken':mu['claim'],'model_compiles':not any(m.startswith('Verif.Model') for m in mods),
         'survived':r.returncode==0,'first_failures':direct[:12],
         'theorems_failed_or_blocked':failed,'claim_caught':any(c in x for c in re.findall(r'C\d\d',mu['claim'].split(':')[0]) for x in failed),
         'theorems_tightened':[], 'seconds':round(time.time()-t)}
    return res
def main():
    muts=runpy.run_path(sys.argv[1])['M']
    only=None
    if len(sys.argv)>3: only=set(sys.argv[3].split(','))
    for i,mu in enumerate(muts):
        mu.setdefault('id',f'{os.path.basename(sys.argv[1])[:-3]}-{i+1:02d}')
        if only and mu['id'] not in only: continue
        sync()
        res=run(mu)
        with open(LOG if 'error' not in res else '/tmp/mutrun/errors.jsonl','a') as fh: fh.write(json.dumps(res,ensure_ascii=False)+'\n')
        print(mu['id'],mu['def'],'SURVIVED' if res.get('survived') else res.get('error') or ('caught' if res['claim_caught'] else 'FAILED-BUT-CLAIM-NOT-AMONG'),res.get('first_failures',[])[:3],res.get('seconds'),flush=True)
main()
