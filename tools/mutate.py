#!/usr/bin/env python3
"""Seed realistic bugs into a scratch copy of the model and record which theorems stop proving.

usage: mutate.py FILE.json [--only k]      (run from /verif)
FILE.json is a list of {file, def, old, new, edit, claim, expect}. The scratch copy is /tmp/mut.
Only errors in files other than the edited one that are not under Model/ count as failed theorems, together with the
theorems of the edited file itself. A module whose import failed is reported as blocked.
"""
import json, os, re, subprocess, sys, shutil
SRC, MUT, LOG = '/verif/lean', '/tmp/mut/lean', '/verif/seeded/LOG.jsonl'

def sync():
    os.makedirs('/tmp/mut', exist_ok=True)
    subprocess.run(['rsync', '-a', '--delete', SRC + '/', MUT + '/'], check=False) if shutil.which('rsync') else (
        shutil.rmtree(MUT, ignore_errors=True), subprocess.run(['cp', '-a', SRC, MUT], check=True))

DECL = re.compile(r'^(?:@\[[^\]]*\]\s*)?(?:private |protected |noncomputable )*(theorem|lemma|def|example|instance|abbrev|structure)\s+([^\s:({\[]+)?')
def enclosing(path, line):
    ns, cur, stack = [], None, []
    for i, l in enumerate(open(path), 1):
        if i > line: break
        m = re.match(r'^namespace\s+(\S+)', l)
        if m: stack.append(('n', m.group(1)))
        elif re.match(r'^section', l): stack.append(('s', ''))
        elif re.match(r'^end(\s|$)', l) and stack: stack.pop()
        m = DECL.match(l)
        if m: cur = '.'.join([x for k, x in stack if k == 'n'] + [m.group(2) or m.group(1)])
    return cur

def build():
    failed, blocked = [], []
    p = subprocess.run(['lake', 'build'], cwd=MUT, capture_output=True, text=True)
    out = p.stdout + p.stderr
    for m in re.finditer(r'^error: (?:\./)?(\S+?\.lean):(\d+):\d+:', out, re.M):
        t = enclosing(os.path.join(MUT, m.group(1)), int(m.group(2)))
        if t and t not in failed: failed.append(t)
    return p.returncode, failed, out

def run(m):
    path = os.path.join(MUT, 'Verif', m['file'])
    orig = open(path).read()
    n = orig.count(m['old'])
    if n < 1 or (n > 1 and not m.get('nth')):
        return {'def': m['def'], 'error': f'pattern occurs {n} times'}
    if n > 1:
        k, pos = m['nth'], -1
        for _ in range(k): pos = orig.index(m['old'], pos + 1)
        new = orig[:pos] + m['new'] + orig[pos + len(m['old']):]
    else: new = orig.replace(m['old'], m['new'])
    # keep artifacts of the unmodified build so that they can be restored
    open(path, 'w').write(new)
    try:
        rc, failed, out = build()
    finally:
        open(path, 'w').write(orig)
    return {'definition': m['def'], 'file': m['file'], 'edit': m['edit'], 'claim_broken': m['claim'], 'build_ok': rc == 0,
            'theorems_failed': failed, 'theorems_tightened': m.get('tightened', []), 'note': m.get('note', '')}

if __name__ == '__main__':
    ms = json.load(open(sys.argv[1]))
    only = int(sys.argv[sys.argv.index('--only') + 1]) if '--only' in sys.argv else None
    sync()
    for i, m in enumerate(ms):
        if only is not None and i != only: continue
        r = run(m)
        print(i, r.get('definition') or r, '| failed:', r.get('theorems_failed'), flush=True)
        if 'error' in r: continue
        if r['build_ok'] or not r['theorems_failed']: print('   *** SURVIVED ***', m['edit'], flush=True)
        with open(LOG, 'a') as f: f.write(json.dumps(r, ensure_ascii=False) + '\n')
