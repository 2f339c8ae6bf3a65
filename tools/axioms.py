#!/usr/bin/env python3
# usage: axioms.py  -- runs #print axioms on every theorem of the manifest, writes /verif/AXIOMS.md
import json,subprocess,re,collections
ts=[t for c in json.load(open('/verif/MANIFEST.json'))['claims'] for t in c['theorems']]
open('/tmp/ax.lean','w').write('import Verif\n'+''.join(f'#print axioms {t}\n' for t in ts))
out=subprocess.run(['lake','env','lean','/tmp/ax.lean'],cwd='/verif/lean',capture_output=True,text=True).stdout
out=re.sub(r'\n\s+',' ',out)
d={}
for m in re.finditer(r"'([^']+(?:'[^' ]*)?)' (does not depend on any axioms|depends on axioms: \[([^\]]*)\])",out):
    d[m.group(1)]=m.group(3) or 'none'
g=collections.OrderedDict()
for t in ts: g.setdefault(d[t],[]).append(t)
with open('/verif/AXIOMS.md','w') as o:
    o.write('# Axioms per theorem\n\nOutput of `#print axioms` for every theorem of MANIFEST.json, made by `tools/axioms.py`.\n')
    for k,v in g.items(): o.write(f'\n## {k}\n\n'+''.join(f'* `{t}`\n' for t in v))
print({k:len(v) for k,v in g.items()})
