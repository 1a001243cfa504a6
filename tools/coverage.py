#!/usr/bin/env python3
"""Lists the functions of /repo/src that no comment in lean/Verif/Model cites (file and lines)."""
import re, glob, os, collections, sys
cov = collections.defaultdict(set)
for f in glob.glob('/verif/lean/Verif/Model/*.lean'):
    s = open(f).read()
    for c in re.findall(r'/--.*?-/|/-!.*?-/|--[^\n]*', s, re.S):
        cur = None
        dirn = 'src/'
        for m in re.finditer(r'`?((?:src/)?[a-z_0-9/]+\.rs)`?|\b(\d+)-(\d+)\b|\b(\d+)\b', c):
            if m[1]:
                p = m[1]
                if p.startswith('src/'):
                    cur = p; dirn = os.path.dirname(p) + '/'
                else:
                    cand = dirn + p
                    cur = cand if os.path.exists('/repo/' + cand) else None
                    if cur is None:
                        for g in glob.glob('/repo/src/**/' + p, recursive=True):
                            cur = g[len('/repo/'):]
            elif cur and m[2]:
                cov[cur].update(range(int(m[2]), int(m[3]) + 1))
            elif cur and m[4]:
                cov[cur].add(int(m[4]))
tot = miss = 0
for f in sorted(glob.glob('/repo/src/**/*.rs', recursive=True)):
    rel = f[len('/repo/'):]
    if rel.endswith('/tests.rs'): continue
    L = open(f).read().split('\n')
    for i, l in enumerate(L, 1):
        if re.match(r'\s*#\[cfg\(test\)\]', l) and i < len(L) and re.match(r'\s*mod ', L[i]): break
        m = re.match(r'\s*(?:pub(?:\([a-z]+\))? )?(?:const )?(?:unsafe )?fn (\w+)', l)
        if m:
            tot += 1
            # end of fn
            d = 0; j = i; st = False
            while j <= len(L):
                d += L[j-1].count('{') - L[j-1].count('}')
                if '{' in L[j-1]: st = True
                if (st and d <= 0) or (not st and L[j-1].rstrip().endswith(';')): break
                j += 1
            if not any(k in cov[rel] for k in range(i, j + 1)):
                miss += 1
                print(f'{rel}:{i}-{j} {m[1]}')
print(f'{tot - miss} of {tot} cited', file=sys.stderr)
