#!/usr/bin/env python3
"""Mutation testing: apply one edit to the model in a scratch copy and see which property theorems
still prove.  Proofs that break are stubbed out *in the scratch copy*, so that the modules behind
them can be checked too; a property theorem counts as failed if its own proof or one it depends on broke.

usage: mutate.py MUTANTS.json [ids...]   (each mutant: id, file, old, new, claim, [count])
"""
import json, os, re, shutil, subprocess, sys
ROOT = os.path.dirname(os.path.dirname(os.path.abspath(__file__)))
SCRATCH = os.environ.get('SCRATCH', '/tmp/mut')
TOP = re.compile(r'^(theorem|example|def|abbrev|structure|inductive|instance|noncomputable|private|@\[|/--|/-!|end\b|namespace |section|variable|open |omit |unseal |attribute|set_option|import |deriving)')
DECL = re.compile(r'^(?:@\[.*?\] )?(theorem|example|def|instance)\s*(\S*)')

def stub(path, line, log):
    L = open(path).read().split('\n')
    i = min(line - 1, len(L) - 1)
    while i >= 0 and not DECL.match(L[i]): i -= 1
    if i < 0: return None
    m = DECL.match(L[i]); kind, name = m.group(1), m.group(2)
    j = i + 1
    while j < len(L) and not TOP.match(L[j]): j += 1
    block = '\n'.join(L[i:j])
    if kind == 'example':
        new = 'example : True := trivial\n'
    else:
        if kind == 'def': return ('def', name)
        # the first `:=` or `where` outside of all brackets
        c = []; dep = 0
        for x in range(len(block)):
            ch = block[x]
            if ch in '([{⟨': dep += 1
            elif ch in ')]}⟩': dep -= 1
            elif dep == 0 and (block.startswith(':=', x) or re.match(r' where$', block[x:x+7], re.M)):
                # `let x := ...` inside a statement does not end it
                line = block[block.rfind('\n', 0, x) + 1:x]
                if re.match(r'\s*(let|have) ', line): continue
                c = [x]; break
        if not c: return None
        new = block[:min(c)].rstrip() + ' := by sorry\n'
        if new.strip() == block.strip(): return None
    L[i:j] = new.split('\n')
    open(path, 'w').write('\n'.join(L))
    log.append((os.path.basename(path)[:-5], name or 'example'))
    return ('ok', name)

def run(mu):
    d = f"{SCRATCH}/{mu['id']}"
    shutil.rmtree(d, ignore_errors=True)
    shutil.copytree(ROOT + '/lean', d, symlinks=True)
    edits = mu.get('edits') or [mu]
    for e in edits:
        p = f"{d}/Verif/{e['file']}.lean"
        s = open(p).read()
        n = s.count(e['old'])
        if n != e.get('count', 1):
            return {'id': mu['id'], 'error': f"old text occurs {n} times"}
        open(p, 'w').write(s.replace(e['old'], e['new']))
    log = []; bad = None
    for it in range(200):
        r = subprocess.run(['lake', 'build'], cwd=d, capture_output=True, text=True)
        out = r.stdout + r.stderr
        errs = sorted(set((m.group(1), int(m.group(2))) for m in
                          re.finditer(r'error: (Verif/\w+\.lean):(\d+):\d+', out)), key=lambda x: (x[0], -x[1]))
        if not errs:
            if r.returncode != 0: bad = out[-1500:]
            break
        stuck = True; done = set()
        starts = set()
        for f, l in errs:  # one stub per declaration: stubbing moves the lines behind it
            L = open(f"{d}/{f}").read().split('\n'); i = min(l - 1, len(L) - 1)
            while i >= 0 and not DECL.match(L[i]): i -= 1
            starts.add((f, i + 1 if i >= 0 else l))
        for f, l in sorted(starts, key=lambda x: (x[0], -x[1])):
            res = stub(f"{d}/{f}", l, log)
            if res and res[0] == 'ok': stuck = False
            elif res and res[0] == 'def': bad = f"definition {res[1]} does not compile"; break
        if bad: break
        if stuck: bad = out[-1500:]; break
    failed = []; alive = []
    if not bad:
        ths = [t for c in json.load(open(ROOT + '/MANIFEST.json'))['claims'] for t in c['theorems']]
        f = f"{d}/Ax.lean"
        open(f, 'w').write('import Verif\n' + '\n'.join('#print axioms ' + t for t in ths))
        r = subprocess.run(['lake', 'env', 'lean', f], cwd=d, capture_output=True, text=True)
        out = (r.stdout + r.stderr).replace('\n  ', ' ')
        for t in ths:
            m = re.search(r"'" + re.escape(t) + r"' (depends on axioms: \[[^\]]*\]|does not depend)", out)
            if m and 'sorryAx' not in m.group(1): alive.append(t.split('.')[-1])
            else: failed.append(t.split('.')[-1])
    if not (bad and os.environ.get('KEEP')): shutil.rmtree(d, ignore_errors=True)
    return {'id': mu['id'], 'file': edits[0]['file'], 'claim': mu['claim'], 'broken_proofs': [f'{a}.{b}' for a, b in log],
            'failed': failed, 'alive': alive, 'bad': bad}

if __name__ == '__main__':
    mus = json.load(open(sys.argv[1]))
    sel = sys.argv[2:]
    for mu in mus:
        if sel and mu['id'] not in sel: continue
        r = run(mu)
        with open(f"{SCRATCH}/results.jsonl", 'a') as o: o.write(json.dumps(r) + '\n')
        print(r['id'], r.get('error') or r.get('bad') or
              f"broken {len(r['broken_proofs'])}; failed {len(r['failed'])}; alive {len(r['alive'])}: {' '.join(r['alive'])}", flush=True)
