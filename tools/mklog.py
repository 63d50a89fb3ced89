#!/usr/bin/env python3
"""Assemble seeded/LOG.jsonl from seeded/mutants*.json and the results of mutate.py / falsify.py
(seeded/results.jsonl, seeded/falsify.jsonl)."""
import json, os, re
R = os.path.dirname(os.path.dirname(os.path.abspath(__file__)))
def lines(p):
    return [json.loads(l) for l in open(p)] if os.path.exists(p) else []
res = {r['id']: r for r in lines(R+'/seeded/results.jsonl')}
fal = {r['id']: r for r in lines(R+'/seeded/falsify.jsonl')}
tight = json.load(open(R+'/seeded/tightened.json')) if os.path.exists(R+'/seeded/tightened.json') else {}
def defn(file, old):
    s = open(f"{R}/lean/Verif/{file}.lean").read()
    i = s.find(old)
    if i < 0: return file
    last = None
    for m in re.finditer(r'^(?:@\[[^\]]*\]\s*)?(?:private |noncomputable |partial )*(?:def|structure|inductive|abbrev|instance|theorem)\s+(\S+)', s, re.M):
        if m.start() <= i + len(old) - 1 and (m.start() <= i or last is None or m.start() < i + len(old)): 
            if m.start() <= i or not last: last = m.group(1)
            elif m.start() < i + 3: last = m.group(1)
    return f"{file}.{last}"
mus = []
for f in sorted(os.listdir(R+'/seeded')):
    if f.startswith('mutants') and f.endswith('.json'): mus += json.load(open(f"{R}/seeded/{f}"))
out = open(R+'/seeded/LOG.jsonl', 'w'); n = 0; weak = []
for mu in mus:
    es = mu.get('edits') or [mu]
    r = res.get(mu['id']); fl = fal.get(mu['id'])
    if not r and not fl: continue
    t = tight.get(mu['id'], {})
    o = {'id': mu['id'], 'definition': ', '.join(defn(e['file'], e['old']) for e in es),
         'edit': ' ;; '.join((e['old'].strip() or '(nothing)') + '  ==>  ' + (e['new'].strip() or '(deleted)') for e in es),
         'claim_broken': mu['claim']}
    if r:
        o['theorems_failed'] = r.get('failed') if not r.get('bad') else 'edit does not compile'
    if fl: o['statements_refuted_by_random_histories'] = fl.get('refuted') if not fl.get('error') else str(fl['error'])[:200]
    if not r:  # not rebuilt: a statement that an execution refutes cannot be proved
        o['theorems_failed'] = fl.get('refuted') or []
    o['theorems_tightened'] = t.get('theorems', [])
    if t.get('note'): o['note'] = t['note']
    out.write(json.dumps(o) + '\n'); n += 1
print(n, 'attempts')
