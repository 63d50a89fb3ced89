#!/usr/bin/env python3
"""For each mutant: does the edit make property statements false?  Runs Falsify.lean.txt on the edited
model.  usage: falsify.py MUTANTS.json [ids...]"""
import json, os, re, shutil, subprocess, sys
ROOT = os.path.dirname(os.path.dirname(os.path.abspath(__file__)))
SCRATCH = os.environ.get('SCRATCH', '/tmp/fal')
os.makedirs(SCRATCH, exist_ok=True)
d = f"{SCRATCH}/proj{os.getpid()}"
shutil.rmtree(d, ignore_errors=True)
shutil.copytree(ROOT + '/lean', d, symlinks=True)
mus = json.load(open(sys.argv[1])); sel = sys.argv[2:]
for mu in mus:
    if sel and mu['id'] not in sel: continue
    edits = mu.get('edits') or [mu]
    if any(e['file'] not in ('Model', 'Spec') for e in edits): continue
    for f in ('Model', 'Spec'): shutil.copy(f"{ROOT}/lean/Verif/{f}.lean", f"{d}/Verif/{f}.lean")
    err = None
    for e in edits:
        p = f"{d}/Verif/{e['file']}.lean"; s = open(p).read()
        if s.count(e['old']) != e.get('count', 1): err = f"old text occurs {s.count(e['old'])} times"
        open(p, 'w').write(s.replace(e['old'], e['new']))
    out = ''
    if not err:
        r = subprocess.run(['lake', 'build', 'Verif.Spec'], cwd=d, capture_output=True, text=True)
        if r.returncode: err = (r.stdout + r.stderr)[-400:]
        else:
            shutil.copy(ROOT + '/tools/Falsify.lean.txt', d + '/Falsify.lean')
            try:
                r = subprocess.run(['lake', 'env', 'lean', '--run', 'Falsify.lean'], cwd=d, capture_output=True, text=True, timeout=900)
                out = r.stdout + r.stderr
            except subprocess.TimeoutExpired: err = 'timeout'
    m = re.search(r'REFUTED (.*)', out)
    if not m and not err: err = out[-400:]
    res = {'id': mu['id'], 'claim': mu['claim'], 'refuted': m.group(1).split() if m else None, 'error': err}
    with open(f"{SCRATCH}/falsify.jsonl", 'a') as o: o.write(json.dumps(res) + '\n')
    print(mu['id'], '|', mu['claim'], '|', err or m.group(1), flush=True)
shutil.rmtree(d, ignore_errors=True)
