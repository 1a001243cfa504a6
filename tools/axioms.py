import json,subprocess
m=json.load(open('/verif/MANIFEST.json'))
ths=sorted({t for c in m['claims'] for t in c['theorems']})
open('/tmp/ax.lean','w').write('import Verif\n'+'\n'.join('#print axioms '+t for t in ths))
out=subprocess.run('cd /verif/lean && lake env lean /tmp/ax.lean',shell=True,capture_output=True,text=True).stdout
import re,collections
d=collections.defaultdict(list)
for mm in re.finditer(r"'([^']+)' (does not depend on any axioms|depends on axioms: \[([^\]]*)\])",out):
    d[tuple(sorted((mm.group(3) or '').replace('\n',' ').replace(' ','').split(',')))].append(mm.group(1))
for k,v in d.items(): print(k,len(v), v if len(v)<60 else '')
got={x for v in d.values() for x in v}
print(set(ths)-got, len(ths))
