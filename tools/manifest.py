#!/usr/bin/env python3
"""Regenerate MANIFEST.json from the theorem names `Cnn_...` in lean/Verif/Props and the notes below."""
import re,glob,json,os
root=os.path.dirname(os.path.dirname(os.path.abspath(__file__)))
th={}
for f in sorted(glob.glob(root+'/lean/Verif/Props/**/*.lean',recursive=True)):
    ns='Dec.Props'
    for l in open(f):
        m=re.match(r'\s*theorem ((C\d\d+)_\w+)',l)
        if m: th.setdefault(m.group(2),[]).append(ns+'.'+m.group(1))
notes=json.load(open(root+'/tools/notes.json'))
props=[json.loads(l)['id'] for l in open(root+'/properties.jsonl') if l.strip()]
claims=[]
for p in props:
    ts=th.get(p,[])
    n=notes.get(p,{})
    if not ts:
        if n.get('status')=='not_applicable': claims.append(dict(property=p,status='not_applicable',theorems=[],note=n.get('note','')))
        continue
    st=n.get('status') or ('partial' if any(t.endswith('_partial') for t in ts) else 'proved')
    claims.append(dict(property=p,status=st,theorems=ts,note=n.get('note','')))
json.dump({"claims":claims},open(root+'/MANIFEST.json','w'),indent=1)
print({c['property']:(c['status'],len(c['theorems'])) for c in claims}); print('missing',[p for p in props if p not in {c['property'] for c in claims}])
