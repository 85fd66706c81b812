#!/usr/bin/env python3
"""Recomputes expected_but_survived in seeded/LOG.jsonl, counting claims that use a failed lemma of their own module."""
import json, glob, re, sys, os
sys.path.insert(0, os.path.dirname(__file__))
from mutate import dependents
L='/verif/seeded/LOG.jsonl'
out=[]
mods=glob.glob('/verif/lean/Verif/**/*.lean', recursive=True)
for l in open(L):
    d=json.loads(l)
    if d.get('expected_but_survived') and d.get('build_failed'):
        extra=set()
        bad=[t for t in d['theorems_failed'] if t!='example' and not t.startswith('C')]
        for p in mods:
            text=open(p).read()
            own=[b for b in bad if re.search(r'(theorem|def) '+re.escape(b)+r'\b',text)]
            if own: extra|=set(dependents(p,own))
        miss=[c for c in d['expected_but_survived'] if not any(e.startswith(c+'_') for e in extra)]
        if miss!=d['expected_but_survived']:
            d['claims_blocked_by_failed_lemmas']+=sorted(extra); d['expected_but_survived']=miss
    out.append(json.dumps(d,ensure_ascii=False))
open(L,'w').write('\n'.join(out)+'\n')
for l in out:
    d=json.loads(l)
    if d.get('expected_but_survived') or d.get('build_failed') is False: print(d.get('id'),d.get('definition'),d.get('expected_but_survived'),d.get('build_failed'))
