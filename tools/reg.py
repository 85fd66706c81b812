import sys,json,os
# usage: reg.py file.json  -> {prop_src: "...", id:..., note:...}
s=open('/verif/tools/gen_properties.py').read()
d=json.load(open(sys.argv[1]))
mark="with open(os.path.join("
i=s.rindex(mark)
s=s[:i]+d['src'].rstrip()+"\n"+s[i:]
open('/verif/tools/gen_properties.py','w').write(s)
n=json.load(open('/verif/tools/manifest_notes.json'))
n[d['id']]={"status":d.get('status','proved'),"note":d['note']}
json.dump(n,open('/verif/tools/manifest_notes.json','w'),indent=1)
