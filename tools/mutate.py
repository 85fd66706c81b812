#!/usr/bin/env python3
"""Seeded-bug runner.  usage: mutate.py LIST.json [id-prefix]
LIST.json: [{id, file, definition, old, new, claim, breaks:[C..]}]; each edit is applied to a scratch copy of /verif/lean
(outside /verif), rebuilt, and the failing theorems are collected and appended to /verif/seeded/LOG.jsonl."""
import json, os, re, shutil, subprocess, sys, time
SRC = '/verif/lean'; BASE = os.environ.get('MUTBASE', '/tmp/mutbase'); W = os.environ.get('MUTDIR', '/tmp/mut'); LOG = os.environ.get('MUTLOG', '/verif/seeded/LOG.jsonl')

def imports(root):
    g = {}
    for d, _, fs in os.walk(f'{root}/Verif'):
        for f in fs:
            if f.endswith('.lean'):
                p = os.path.join(d, f)
                mod = os.path.relpath(p, root)[:-5].replace('/', '.')
                g[mod] = re.findall(r'^import (Verif\.[\w.]+)', open(p).read(), re.M)
    return g

def decl_at(path, line):
    ls = open(path).read().split('\n')
    for i in range(min(line, len(ls)) - 1, -1, -1):
        m = re.match(r'\s*(?:@\[[^\]]*\]\s*)?(?:private |noncomputable |protected )*(theorem|lemma|def|example|instance)\b\s*([\w.\'«»]*)', ls[i])
        if m: return m.group(2) or 'example'
    return '?'

def claims(path):
    return re.findall(r'^theorem (C\d{2,3}_\w+)', open(path).read(), re.M)

def dependents(path, bad):
    """Claims of a module which (transitively, by name, within the module) use one of the failed declarations."""
    text = open(path).read()
    parts = re.split(r'^(?=(?:@\[[^\]]*\]\s*)?(?:private |noncomputable |protected )*(?:theorem|lemma|def|example|instance)\b)', text, flags=re.M)
    decls = []
    for q in parts:
        m = re.match(r'(?:@\[[^\]]*\]\s*)?(?:private |noncomputable |protected )*(?:theorem|lemma|def)\s+([\w.\']+)', q)
        if m: decls.append((m.group(1), set(re.findall(r"[\w.']+", q))))
    bad = set(bad); ch = True
    while ch:
        ch = False
        for n, w in decls:
            if n not in bad and any(b in w for b in bad): bad.add(n); ch = True
    return sorted(b for b in bad if re.match(r'C\d{2,3}_', b))

def run(m):
    shutil.rmtree(W, ignore_errors=True); subprocess.run(['cp', '-a', BASE, W], check=True)
    p = f'{W}/{m["file"]}'
    s = open(p).read()
    if s.count(m['old']) != 1:
        return {'id': m['id'], 'problem': f'old text occurs {s.count(m["old"])} times'}
    open(p, 'w').write(s.replace(m['old'], m['new']))
    t = time.time()
    r = subprocess.run(['lake', 'build'], cwd=W, capture_output=True, text=True)
    out = r.stdout + r.stderr
    failed_mods, failed = set(), {}
    for f, line in re.findall(r'^error: ((?:Verif)[\w/]*\.lean):(\d+):', out, re.M):
        mod = f[:-5].replace('/', '.')
        failed_mods.add(mod)
        failed.setdefault(mod, []).append(decl_at(f'{W}/{f}', int(line)))
    g = imports(W)
    blocked = set()
    ch = True
    while ch:
        ch = False
        for mod, im in g.items():
            if mod in failed_mods or mod in blocked: continue
            if any(i in failed_mods or i in blocked for i in im): blocked.add(mod); ch = True
    bl = []
    for mod in sorted(blocked):
        bl += claims(f'{W}/' + mod.replace('.', '/') + '.lean')
    direct = sorted({x for v in failed.values() for x in v})
    for mod in failed_mods:
        bl += [c for c in dependents(f'{W}/' + mod.replace('.', '/') + '.lean', failed[mod]) if c not in direct]
    dead = {t.split('_')[0] for t in direct} | {t.split('_')[0] for t in bl}
    missing = [b for b in m['breaks'] if b not in dead]
    return {'id': m['id'], 'definition': m['definition'], 'file': m['file'], 'edit': f'{m["old"]}  ==>  {m["new"]}',
            'claim_broken': m['claim'], 'properties_expected': m['breaks'], 'build_failed': r.returncode != 0,
            'theorems_failed': direct, 'claims_blocked_by_failed_lemmas': bl, 'expected_but_survived': missing,
            'theorems_tightened': m.get('tightened', []), 'seconds': round(time.time() - t)}

if __name__ == '__main__':
    if not os.path.exists(BASE): subprocess.run(['cp', '-a', SRC, BASE], check=True)  # snapshot, already built
    ms = json.load(open(sys.argv[1]))
    pre = sys.argv[2] if len(sys.argv) > 2 else ''
    for m in ms:
        if not m['id'].startswith(pre): continue
        r = run(m)
        if 'problem' in r: print('PROBLEM', r, flush=True); continue
        open(LOG, 'a').write(json.dumps(r, ensure_ascii=False) + '\n')
        print(m['id'], m['breaks'], 'FAILED-BUILD' if r['build_failed'] else 'SURVIVED', 'missing', r['expected_but_survived'],
              'direct', r['theorems_failed'][:6], f"{r['seconds']}s", flush=True)
