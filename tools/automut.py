#!/usr/bin/env python3
"""Generate simple edits of the definitions of a model module (one token each).
usage: automut.py PREFIX OUT.json MODULE..."""
import json, re, sys, os
ROOT = os.path.dirname(os.path.dirname(os.path.abspath(__file__)))
OPS = [(r' \+ 1\b', ' + 2'), (r' - 1\b', ' - 0'), (r' ≤ 1\b', ' ≤ 2'), (r' = 0\b', ' = 1'), (r'\bif (?!h)', 'if ¬ '),
       (r'\.isSome\b', '.isNone'), (r' ∧ ', ' ∨ '), (r' && ', ' || '), (r'\btrue\b', 'false'), (r'\bfalse\b', 'true'),
       (r', 0\)', ', 1)'), (r'\brcClone (\S+) ', r'id '), (r'\brcDrop (\S+) ', 'id '), (r'\bweakDrop (\S+) ', 'id '),
       (r' < ', ' ≤ '), (r' ≤ ', ' < '), (r'some 0', 'some 1'), (r'\.id\b', '.id + 1') ]
pre, out, mods = sys.argv[1], sys.argv[2], sys.argv[3:]
M = []
for mod in mods:
    L = open(f"{ROOT}/lean/Verif/{mod}.lean").read().split('\n')
    indef = False; com = False
    for n, l in enumerate(L):
        if l.startswith('/-'): com = True
        if com:
            if '-/' in l: com = False
            continue
        if re.match(r'^(@\[.*\] )?(def|noncomputable def)', l): indef = True
        elif re.match(r'^\S', l): indef = False
        if not indef or l.strip().startswith('--'): continue
        for pat, rep in OPS:
            for m in re.finditer(pat, l):
                if l.startswith('def') and m.start() < (l.find(':=') if ':=' in l else 10**9): continue
                new = l[:m.start()] + m.expand(rep) + l[m.end():]
                # context of two lines makes the old text unique
                k = 1
                while True:
                    old = '\n'.join(L[max(0, n-k):n+2])
                    if '\n'.join(L).count(old) == 1: break
                    k += 1
                nw = '\n'.join(L[max(0, n-k):n] + [new] + L[n+1:n+2])
                M.append(dict(id=f"{pre}{len(M)+1:02d}", file=mod, old=old, new=nw, claim=f"automatic edit: {m.group(0).strip()} -> {rep.strip()} in: {l.strip()[:80]}", count=1))
json.dump(M, open(out, 'w'), indent=0, ensure_ascii=False); print(len(M))
