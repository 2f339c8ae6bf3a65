#!/usr/bin/env python3
# usage: manifest.py  -- scans theorems Cxx_..., writes /verif/MANIFEST.json
import re,glob,json,collections
notes=json.load(open('/verif/tools/notes.json'))
th=collections.OrderedDict()
for f in sorted(glob.glob('/verif/lean/Verif/**/*.lean',recursive=True)):
    ns=[]
    for l in open(f):
        m=re.match(r'namespace\s+(\S+)',l)
        if m: ns.append(m.group(1))
        m=re.match(r'end\s+(\S+)',l)
        if m and ns and ns[-1]==m.group(1): ns.pop()
        m=re.match(r'theorem\s+(C\d\d\w*)',l)
        if m:
            n='.'.join(ns+[m.group(1)])
            th.setdefault(m.group(1)[:3],[]).append(n)
props=[json.loads(l)['id'] for l in open('/verif/properties.jsonl')]
claims=[]
for p in props:
    if p in th:
        ts=th[p]
        part=any(t.endswith('_partial') or '_violation' in t for t in ts)
        st=notes.get(p,{}).get('status') or ('partial' if part else 'proved')
        claims.append(dict(property=p,status=st,theorems=ts,note=notes.get(p,{}).get('note','')))
with open('/verif/MANIFEST.json','w') as o:
    o.write('{"claims": [\n'+',\n'.join(' '+json.dumps(c) for c in claims)+'\n]}\n')
print(len(claims),'claims',sum(len(c['theorems']) for c in claims),'theorems; missing',[p for p in props if p not in th])
for k in th:
    if k not in props: print('NO PROPERTY',k)
