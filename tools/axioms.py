#!/usr/bin/env python3
"""Prints, grouped, the axioms every theorem of MANIFEST.json depends on (needs a finished lake build)."""
import json,subprocess,re,collections,tempfile,os
M=json.load(open('/verif/MANIFEST.json'))['claims']
names=[t for c in M for t in c['theorems']]
src='import Verif\n'+''.join(f'#print axioms {n}\n' for n in names)
f=tempfile.NamedTemporaryFile('w',suffix='.lean',delete=False); f.write(src); f.close()
out=subprocess.run(['lake','env','lean',f.name],cwd='/verif/lean',capture_output=True,text=True).stdout
os.unlink(f.name)
g=collections.defaultdict(list)
for m in re.finditer(r"'([^']+)' (?:depends on axioms: \[([^\]]*)\]|does not depend on any axioms)",out):
    ax=', '.join(sorted(x.strip() for x in (m.group(2) or '').split(','))) or 'none'
    g[ax].append(m.group(1).split('.')[-1])
T=''.join(f'* **{ax}** ({len(g[ax])}): '+', '.join(g[ax])+'\n' for ax in sorted(g,key=len))
import sys
if '--write' in sys.argv:
    p='/verif/DESIGN.md'; s=open(p).read()
    i=s.index('<!-- axioms -->')+len('<!-- axioms -->'); j=s.index('<!-- end axioms -->')
    open(p,'w').write(s[:i]+'\n'+T+s[j:])
else: print(T)
print(len(names),sum(map(len,g.values())))
