"""Prints, for every theorem of MANIFEST.json, the axioms it depends on -> AXIOMS.md (grouped by set of axioms).
Run in /verif after `lake build`."""
import json, re, subprocess, os, collections
root = os.path.dirname(os.path.dirname(os.path.abspath(__file__)))
man = json.load(open(f'{root}/MANIFEST.json'))
ths = [t for c in man['claims'] for t in c['theorems']]
ths = list(dict.fromkeys(ths))
src = 'import Verif\n' + '\n'.join(f'#print axioms {t}' for t in ths)
open('/tmp/axioms_q.lean', 'w').write(src)
out = subprocess.run(['lake', 'env', 'lean', '/tmp/axioms_q.lean'], cwd=f'{root}/lean', capture_output=True, text=True).stdout
res = {}
for m in re.finditer(r"'([^']+)' (?:depends on axioms: \[([^\]]*)\]|does not depend on any axioms)", out):
    res[m.group(1)] = tuple(sorted(x.strip() for x in (m.group(2) or '').split(',') if x.strip()))
miss = [t for t in ths if t not in res]
groups = collections.defaultdict(list)
for t in ths:
    if t in res: groups[res[t]].append(t)
with open(f'{root}/AXIOMS.md', 'w') as f:
    f.write('# Axioms of every theorem of the manifest\n\nGenerated by `tools/axioms.py` (`#print axioms`).\n')
    for k in sorted(groups):
        f.write(f"\n## {', '.join(k) if k else 'no axioms'}  ({len(groups[k])} theorems)\n\n")
        for t in groups[k]: f.write(f'- `{t}`\n')
print(len(ths), 'theorems', {k: len(v) for k, v in groups.items()}, 'missing', miss)
