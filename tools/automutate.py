#!/usr/bin/env python3
"""Automatic seeded bugs.  usage: automutate.py gen OUT.json [seed] [per-def] | automutate.py run LIST.json
gen: token-level edits in the bodies of the definitions of Verif/Model.  run: apply each edit in a scratch copy, build until the first error.
Failing examples (including the test vectors in Verif/Tables.lean) do not count.  A mutant that does not elaborate is discarded; one that passes the whole build is a survivor.  Results go to /verif/seeded/LOG.jsonl."""
import json, os, random, re, shutil, signal, subprocess, sys, time
BASE = os.environ.get('MUTBASE', '/tmp/mutbase'); W = os.environ.get('MUTDIR', '/tmp/amut'); LOG = os.environ.get('MUTLOG', '/verif/seeded/LOG.jsonl')
SWAPS = [(' < ', ' ≤ '), (' ≤ ', ' < '), (' > ', ' ≥ '), (' ≥ ', ' > '), (' + ', ' - '), (' - ', ' + '), (' * ', ' + '), (' / ', ' % '), (' % ', ' / '),
         ('true', 'false'), ('false', 'true'), ('.take ', '.drop '), ('.drop ', '.take '), (' ∧ ', ' ∨ '), (' ∨ ', ' ∧ '), (' && ', ' || '), (' || ', ' && '),
         (' == ', ' != '), (' != ', ' == '), (' = ', ' ≠ '), (' ≠ ', ' = '), ('xor ', 'or '), ('.reverse', ''), ('ValueError', 'TypeError'), ('TypeError', 'ValueError'),
         ('IndexError', 'ValueError'), ('UnsupportedError', 'ValueError'), ('ZeroDivisionError', 'ValueError'), ('AttributeError', 'TypeError'), ('.head', '.getLast'), ('.getLast', '.head'),
         ('.re', '.im'), ('.im', '.re'), ('.1', '.2'), ('.2', '.1'), ('.any ', '.all '), ('.all ', '.any '), ('min ', 'max '), ('max ', 'min '),
         ('none', 'some default'), ('Int.toNat', 'Int.natAbs'), ('.toNat', '.natAbs'), ('cos', 'sin'), ('sin', 'cos'), ('fun a b', 'fun b a'), ('if ', 'if ¬ ')]

def defs(path):
    ls = open(path).read().split('\n')
    out, i, com = [], 0, False
    while i < len(ls):
        l = ls[i]
        if not com and l.lstrip().startswith('/-') and '-/' not in l: com = True
        elif com and '-/' in l: com = False
        elif not com:
            m = re.match(r'(?:@\[[^\]]*\]\s*)?(?:private |noncomputable |protected )*(?:def|abbrev)\s+([\w.\'«»]+)', l)
            if m:
                j = i + 1
                while j < len(ls) and (ls[j] == '' or ls[j].startswith(' ')) and not re.match(r'\S', ls[j]): j += 1
                out.append((m.group(1), i, j)); i = j; continue
        i += 1
    return ls, out

def code_spans(line):
    c = line.find('--')
    return line if c < 0 else line[:c]

def gen(seed, per):
    rnd = random.Random(seed)
    res = []
    for f in sorted(os.listdir(f'{BASE}/Verif/Model')):
        path = f'{BASE}/Verif/Model/{f}'
        ls, ds = defs(path)
        for name, a, b in ds:
            cand = []
            body = False
            for k in range(a, b):
                code = code_spans(ls[k])
                lo = 0
                if not body:
                    p = code.find(':=')
                    if p >= 0: lo = p + 2; body = True
                    elif code.lstrip().startswith('|'): body = True
                    else: continue
                for o, n in SWAPS:
                    if o == n: continue
                    p = code.find(o, lo)
                    while p >= 0:
                        before = code[p - 1] if p else ' '
                        if not (o[0].isalpha() and (before.isalnum() or before in '._')) and not (o[-1].isalnum() and p + len(o) < len(code) and (code[p + len(o)].isalnum() or code[p + len(o)] == '_')):
                            cand.append((k, p, o, n))
                        p = code.find(o, p + 1)
                for m in re.finditer(r'(?<![\w.])(0x[0-9A-Fa-f]+|0b[01]+|\d+)(?![\w])', code):
                    if m.start() < lo: continue
                    v = int(m.group(1), 0)
                    cand.append((k, m.start(), m.group(1), str(v + 1)))
                    if v > 0: cand.append((k, m.start(), m.group(1), str(v - 1)))
            rnd.shuffle(cand)
            for k, p, o, n in cand[:per]:
                new = ls[k][:p] + n + ls[k][p + len(o):]
                res.append({'id': '', 'file': f'Verif/Model/{f}', 'definition': name, 'line': k, 'old': ls[k], 'new': new})
    rnd.shuffle(res)
    for i, r in enumerate(res): r['id'] = f'A{seed}-{i:03d}'
    return res

def decl_at(path, line):
    ls = open(path).read().split('\n')
    for i in range(min(line, len(ls)) - 1, -1, -1):
        m = re.match(r'\s*(?:@\[[^\]]*\]\s*)?(?:private |noncomputable |protected )*(theorem|lemma|def|example|instance)\b\s*([\w.\'«»]*)', ls[i])
        if m: return m.group(2) or 'example'
    return '?'

def run(m):
    shutil.rmtree(W, ignore_errors=True); subprocess.run(['cp', '-a', BASE, W], check=True)
    p = f'{W}/{m["file"]}'
    ls = open(p).read().split('\n')
    if ls[m['line']] != m['old']: return {'id': m['id'], 'status': 'stale'}
    ls[m['line']] = m['new']
    open(p, 'w').write('\n'.join(ls))
    t = time.time()
    pr = subprocess.Popen(['lake', 'build'], cwd=W, stdout=subprocess.PIPE, stderr=subprocess.STDOUT, text=True, start_new_session=True)
    hit = None; examples = 0
    for l in pr.stdout:
        e = re.match(r'error: (Verif[\w/]*\.lean):(\d+):', l)
        if not e or e.group(1) == 'Verif/Tables.lean': continue
        if not e.group(1).startswith('Verif/Model') and decl_at(f'{W}/{e.group(1)}', int(e.group(2))) == 'example': examples += 1; continue
        hit = (e.group(1), int(e.group(2))); break
    if hit:
        os.killpg(pr.pid, signal.SIGKILL)
    pr.wait()
    r = {'id': m['id'], 'definition': m['definition'], 'file': m['file'], 'edit': f'{m["old"].strip()}  ==>  {m["new"].strip()}', 'seconds': round(time.time() - t)}
    if hit is None: r['status'] = 'SURVIVED'; r['examples'] = examples
    elif hit[0].startswith('Verif/Model'): r['status'] = 'invalid'
    else: r['status'] = 'killed'; r['by'] = decl_at(f'{W}/{hit[0]}', hit[1]); r['in'] = hit[0]
    return r

if __name__ == '__main__':
    if sys.argv[1] == 'gen':
        seed = int(sys.argv[3]) if len(sys.argv) > 3 else 1
        per = int(sys.argv[4]) if len(sys.argv) > 4 else 2
        r = gen(seed, per); json.dump(r, open(sys.argv[2], 'w'), ensure_ascii=False, indent=0); print(len(r))
    else:
        for m in json.load(open(sys.argv[2])):
            r = run(m)
            print(r['id'], r['status'], r.get('by', ''), r.get('definition'), r.get('edit'), r.get('seconds'), flush=True)
            if r['status'] in ('killed', 'SURVIVED'):
                open(LOG, 'a').write(json.dumps({'id': r['id'], 'definition': r['definition'], 'file': r['file'], 'edit': r['edit'],
                    'claim_broken': 'automatic edit: the definition no longer follows the cited code', 'build_failed': r['status'] == 'killed',
                    'theorems_failed': [r['by']] if 'by' in r else [], 'failed_in': r.get('in', ''), 'note': 'build stopped at the first failing theorem' if 'by' in r else 'SURVIVED',
                    'theorems_tightened': [], 'seconds': r['seconds']}, ensure_ascii=False) + '\n')
