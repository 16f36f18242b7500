#!/usr/bin/env python3
"""Generate /verif/MANIFEST.json from theorem names Cnn_* in lean/Verif/Props and tools/notes.json."""
import re, json, glob
props=[json.loads(l)['id'] for l in open('/verif/properties.jsonl')]
names={}
for f in sorted(glob.glob('/verif/lean/Verif/Props/*.lean')):
    for m in re.finditer(r'^theorem (C(\d\d+)_\w+)', open(f).read(), re.M):
        names.setdefault('C'+m.group(2),[]).append('Dkim.'+m.group(1))
notes=json.load(open('/verif/tools/notes.json'))
claims=[]
for p in props:
    th=names.get(p,[])
    n=notes.get(p,{})
    st=n.get('status')
    if not st:
        st='proved' if th and not any(t.endswith('_partial') for t in th) else 'partial'
    claims.append({'property':p,'status':st,'theorems':th,'note':n.get('note','' if th else 'not proved yet')})
json.dump({'claims':claims},open('/verif/MANIFEST.json','w'),indent=1,ensure_ascii=False)
from collections import Counter
print(Counter(c['status'] for c in claims), [c['property'] for c in claims if not c['theorems']])
