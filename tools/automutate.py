#!/usr/bin/env python3
"""Random single-token mutations of the model.  Usage: automutate.py SEED COUNT OUT [files...]
Each mutant is built in a scratch copy; the build is stopped at the first failing proof.  Outcome:
stillborn (the model itself no longer compiles), caught, SURVIVED."""
import sys, os, re, json, random, subprocess, time, signal, shutil
SRC=os.environ.get('MUTBASE','/tmp/mutbase'); DST=os.environ.get('MUTDST','/tmp/auto/lean')
HOT=[
 (r'(?<![\w\'.])0x[0-9A-Fa-f]+', lambda m,r: hex(int(m,16)+r.choice([1,-1]))),
 (r"(?<![\w'.])\d+(?![\w'])", lambda m,r: str(max(0,int(m)+r.choice([1,-1])))),
 (r' < ', lambda m,r:' ≤ '), (r' ≤ ', lambda m,r:' < '), (r' ≠ ', lambda m,r:' = '), (r' == ', lambda m,r:' != '),
 (r' != ', lambda m,r:' == '), (r' && ', lambda m,r:' || '), (r' \|\| ', lambda m,r:' && '),
 (r' ∧ ', lambda m,r:' ∨ '), (r' ∨ ', lambda m,r:' ∧ '), (r'\btrue\b', lambda m,r:'false'), (r'\bfalse\b', lambda m,r:'true'),
 (r"'[^'\\]'", lambda m,r: r.choice([x for x in ["'z'","'/'","':'","'%'","'0'"] if x!=m])),
 (r'\.take\b', lambda m,r:'.drop'), (r'\.drop\b', lambda m,r:'.take'), (r'(?<=[ (])!(?=[\w(])', lambda m,r:''),
 (r'\bif (?=[\w!(])', lambda m,r:'if ¬ '), (r' \+ 1\b', lambda m,r:''), (r' - 1\b', lambda m,r:''),
 (r'\.isSome\b', lambda m,r:'.isNone'), (r'\.isNone\b', lambda m,r:'.isSome'), (r'\.any\b', lambda m,r:'.all'), (r'\.all\b', lambda m,r:'.any'),
 (r'\bsome \w+', lambda m,r:'none'), (r' \+ ', lambda m,r:' - '), (r'\.iri\b', lambda m,r:'.uri'), (r'\.uri\b', lambda m,r:'.iri'),
 (r'\.isEmpty\b', lambda m,r:'.isEmpty.not'), (r'(?<!\[)\w[\w.\']* \+\+ ', lambda m,r:''), (r' \+\+ \w[\w.\']*', lambda m,r:''),
]
def strip_comments(s):
    return re.sub(r'/-.*?-/|--[^\n]*', lambda m: re.sub(r'[^\n]',' ',m.group(0)), s, flags=re.S)
def defs(s):
    ms=list(re.finditer(r'^(?:@\[[^\]]*\]\s*)?(?:partial )?(def|abbrev|instance)\s+(\S+)', s, re.M))
    ends=[m.start() for m in re.finditer(r'^\S', s, re.M)]
    for m in ms:
        e=min([x for x in ends if x>m.start()], default=len(s))
        yield m.group(2), m.start(), e
def all_mutants(rng, files):
    out=[]
    for f in files:
        raw=open(f'{SRC}/Verif/Model/{f}').read(); s=strip_comments(raw)
        for name,a,b in defs(s):
            body=s.find(':=',a,b); bar=s.find('\n  |',a,b)
            st=min(x for x in [body,bar,b] if x>=0)
            for rx,fn in HOT:
                for m in re.finditer(rx, s[st:b]):
                    i=st+m.start(); new=fn(m.group(0),rng)
                    if new!=m.group(0): out.append((f,name,i,m.group(0),new))
    rng.shuffle(out); return out
def build(timeout=2400):
    env=dict(os.environ, LEAN_NUM_THREADS=os.environ.get('MUTTHREADS','2'))
    p=subprocess.Popen(['lake','build'],cwd=DST,stdout=subprocess.PIPE,stderr=subprocess.STDOUT,text=True,env=env,start_new_session=True)
    t=time.time(); first=None
    for l in p.stdout:
        m=re.match(r'error: (Verif/\S+\.lean):(\d+):',l)
        if m:
            first=(m.group(1),int(m.group(2))); os.killpg(p.pid,signal.SIGKILL); break
        if time.time()-t>timeout: os.killpg(p.pid,signal.SIGKILL); return ('timeout',0),1
    rc=p.wait()
    return first, rc
def decl_at(path,line):
    ls=open(path).read().split('\n')
    for i in range(min(line,len(ls))-1,-1,-1):
        m=re.match(r'(?:@\[[^\]]*\]\s*)?(theorem|def|example|instance|abbrev)\b\s*(\S+)?',ls[i])
        if m: return (m.group(2) if m.group(1)=='theorem' else m.group(1)+' '+(m.group(2) or ''))
    return '?'
def main():
    seed,count,outp=int(sys.argv[1]),int(sys.argv[2]),sys.argv[3]
    files=sys.argv[4:] or sorted(os.listdir(f'{SRC}/Verif/Model'))
    rng=random.Random(seed); ms=all_mutants(rng,files); print(len(ms),'mutants',flush=True)
    per={}; chosen=[]
    cap=int(os.environ.get('CAP','6'))
    for m in ms:
        if per.get((m[0],m[1]),0)<cap: per[(m[0],m[1])]=per.get((m[0],m[1]),0)+1; chosen.append(m)
    rng.shuffle(chosen)
    for n,(f,name,i,old,new) in enumerate(chosen[:count]):
        subprocess.run(f'mkdir -p {DST} && rsync -a --delete {SRC}/ {DST}/ 2>/dev/null || (rm -rf {DST} && cp -a {SRC} {DST})',shell=True)
        p=f'{DST}/Verif/Model/{f}'; s=open(p).read()
        open(p,'w').write(s[:i]+new+s[i+len(old):])
        ls=s[:i].rfind('\n')+1; le=s.find('\n',i)
        line=s[ls:le]; nl=(s[:i]+new+s[i+len(old):])[ls:le+len(new)-len(old)]
        t=time.time(); first,rc=build()
        if rc==0 and first is None: st='SURVIVED'
        elif first and first[0].startswith('Verif/Model'): st='stillborn'
        else: st='caught'
        by=None
        if st=='caught' and first: by=first[0][6:-5].replace('/','.')+':'+decl_at(f'{DST}/{first[0]}',first[1]) if first[0]!='timeout' else 'timeout'
        rec={'mutation':f'auto-{seed}-{n}','definition':name,'file':'lean/Verif/Model/'+f,'edit':line.strip()+'  ==>  '+nl.strip(),'outcome':st,'caught_by':by,'seconds':round(time.time()-t)}
        open(outp,'a').write(json.dumps(rec,ensure_ascii=False)+'\n')
        print(st,name,'|',rec['edit'],'|',by,rec['seconds'],flush=True)
main()
