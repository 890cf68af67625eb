import json,re,glob,subprocess
# collects theorems named Cnn_* from Props and writes MANIFEST.json; notes/status overrides below
import os
thms={}
for f in sorted(glob.glob('/verif/lean/Verif/Props/*.lean')):
    src=open(f).read()
    ns='Moledyn.Props'
    for m in re.finditer(r'^theorem (C(\d+)_\w+)',src,re.M):
        thms.setdefault('C'+m.group(2),[]).append(ns+'.'+m.group(1))
over=json.load(open('/verif/tools/status.json')) if os.path.exists('/verif/tools/status.json') else {}
claims=[]
for l in open('/verif/properties.jsonl'):
    d=json.loads(l); i=d['id']
    o=over.get(i,{})
    t=thms.get(i,[])
    if not t and 'status' not in o: 
        continue
    st=o.get('status') or ('partial' if any(x.endswith('_partial') for x in t) else 'proved')
    claims.append({"property":i,"status":st,"theorems":t,"note":o.get('note','')})
json.dump({"claims":claims},open('/verif/MANIFEST.json','w'),indent=1)
print(len(claims),[c['property'] for c in claims], 'unlisted:',[k for k in thms if k not in [c['property'] for c in claims]])
