"""Writes section 4 of DESIGN.md (between the markers) from properties.jsonl, MANIFEST.json and methods.py."""
import json, os, re, sys
R = os.path.dirname(os.path.dirname(os.path.abspath(__file__)))
sys.path.insert(0, os.path.join(R, 'tools'))
from methods import M
where = {}
for f in sorted(os.listdir(os.path.join(R, 'lean/Verif/Props'))):
    for n in re.findall(r'^theorem (C\d\d+_\w+)', open(os.path.join(R, 'lean/Verif/Props', f)).read(), re.M):
        where.setdefault(n.split('_')[0], set()).add(f[:-5])
st = {c['property']: c for c in json.load(open(os.path.join(R, 'MANIFEST.json')))['claims']}
out = ['| property | status | modelled | proof | theorems in `Props/` |', '|---|---|---|---|---|']
for l in open(os.path.join(R, 'properties.jsonl')):
    p = json.loads(l); a = M.get(p['id'], ('', ''))
    if p['id'] not in M: print('no method for', p['id'])
    out.append('| %s %s | %s (%d theorems) | %s | %s | %s |' % (p['id'], p['title'], st[p['id']]['status'], len(st[p['id']]['theorems']), a[0], a[1], ', '.join(sorted(where.get(p['id'], [])))))
s = open(os.path.join(R, 'DESIGN.md')).read()
b, e = '<!-- table begin -->', '<!-- table end -->'
i, j = s.index(b) + len(b), s.index(e)
open(os.path.join(R, 'DESIGN.md'), 'w').write(s[:i] + '\n' + '\n'.join(out) + '\n' + s[j:])
