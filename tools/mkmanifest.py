#!/usr/bin/env python3
"""Regenerate MANIFEST.json from the theorem names in lean/Verif/Props (theorem PgNumeric.Props.Cnn_*)."""
import json,re,glob,os
root=os.path.join(os.path.dirname(os.path.abspath(__file__)),'..')
props=[json.loads(l)['id'] for l in open(root+'/properties.jsonl')]
notes=json.load(open(root+'/tools/notes.json'))
th={p:[] for p in props}
for f in sorted(glob.glob(root+'/lean/Verif/Props/*.lean')):
    for m in re.finditer(r'^theorem (C(\d\d)_\w+)',open(f).read(),re.M):
        th['C'+m.group(2)].append('PgNumeric.Props.'+m.group(1))
claims=[]
for p in props:
    if not th[p]: continue
    n=notes.get(p,{})
    st=n.get('status') or ('partial' if any(t.endswith('_partial') for t in th[p]) else 'proved')
    claims.append({'property':p,'status':st,'theorems':th[p],'note':n.get('note','')})
json.dump({'claims':claims},open(root+'/MANIFEST.json','w'),indent=1)
for c in claims: print(c['property'],c['status'],len(c['theorems']))
print('missing',[p for p in props if not th[p]])
