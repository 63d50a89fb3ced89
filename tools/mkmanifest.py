#!/usr/bin/env python3
"""Write MANIFEST.json: collects all theorems named CNN_* from the Lean files."""
import json, re, glob, os
root = os.path.dirname(os.path.dirname(os.path.abspath(__file__)))
props = [json.loads(l) for l in open(root + '/properties.jsonl')]
ths = {}
for f in sorted(glob.glob(root + '/lean/Verif/*.lean')):
    ns = []
    for line in open(f):
        m = re.match(r'namespace (\S+)', line)
        if m: ns.append(m.group(1))
        m = re.match(r'end (\S+)', line)
        if m and ns and ns[-1] == m.group(1): ns.pop()
        m = re.match(r'theorem ((C\d\d)_\w+)', line)
        if m: ths.setdefault(m.group(2), []).append('.'.join(ns + [m.group(1)]))
notes = json.load(open(root + '/tools/notes.json'))
claims = []
for p in props:
    i = p['id']
    t = ths.get(i, [])
    n = notes.get(i, {})
    if not t and not n: continue
    st = n.get('status') or ('partial' if not t or any(x.endswith('_partial') for x in t) else 'proved')
    claims.append({'property': i, 'status': st, 'theorems': t, 'note': n.get('note', '')})
json.dump({'claims': claims}, open(root + '/MANIFEST.json', 'w'), indent=1)
print(len(claims), 'claims', sum(len(c['theorems']) for c in claims), 'theorems; missing:',
      [p['id'] for p in props if p['id'] not in ths])
