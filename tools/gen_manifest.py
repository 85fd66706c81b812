#!/usr/bin/env python3
"""Regenerates MANIFEST.json and the Props imports of lean/Verif.lean from lean/Verif/Props/*.lean.
Theorems named C<nn>_... in namespace SunPhy.C<nn> (or as declared) are listed under property C<nn>."""
import json, re, glob, os
root=os.path.dirname(os.path.dirname(os.path.abspath(__file__)))
notes=json.load(open(f'{root}/tools/manifest_notes.json'))
props=[json.loads(l)['id'] for l in open(f'{root}/properties.jsonl')]
th={}
for f in sorted(glob.glob(f'{root}/lean/Verif/Props/*.lean')):
    ns=[]
    for l in open(f):
        m=re.match(r'namespace (\S+)',l)
        if m: ns.append(m.group(1))
        m=re.match(r'end (\S+)',l)
        if m and ns and ns[-1]==m.group(1): ns.pop()
        m=re.match(r'theorem (C(\d\d\d?)_\S+)',l)
        if m: th.setdefault('C'+m.group(2),[]).append('.'.join(ns+[m.group(1)]))
claims=[]
for p in props:
    n=notes.get(p,{})
    t=th.get(p,[])+n.get('theorems',[])
    st=n.get('status', 'proved' if t else 'partial')
    if not t: st='not_applicable' if n.get('status')=='not_applicable' else 'partial'
    claims.append({'property':p,'status':st,'theorems':t,'note':n.get('note','' if t else 'not proved yet')})
json.dump({'claims':claims},open(f'{root}/MANIFEST.json','w'),indent=1)
# imports
vf=f'{root}/lean/Verif.lean'
lines=[l.rstrip('\n') for l in open(vf)]
lines=[l for l in lines if l.strip() and not l.startswith('import Verif.Props.')]
lines+= [f'import Verif.Props.{os.path.basename(f)[:-5]}' for f in sorted(glob.glob(f'{root}/lean/Verif/Props/*.lean'))]
open(vf,'w').write('\n'.join(lines)+'\n')
from collections import Counter
print(Counter(c['status'] for c in claims))
