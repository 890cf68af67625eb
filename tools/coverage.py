#!/usr/bin/env python3
"""Lists the Rust functions and macros of /repo (outside test modules) whose lines no model comment cites."""
import re,glob,os,sys
cov={}
for f in glob.glob('/verif/lean/Verif/Model/*.lean'):
    for m in re.finditer(r'((?:src|tests|examples|moledyn_proc|benches)/[\w/]+\.rs):([\d, \-]+(?:ff)?)',open(f).read()):
        for r in m.group(2).split(','):
            r=r.strip()
            q=re.match(r'(\d+)(?:-(\d+))?',r)
            if q:
                a=int(q.group(1)); b=int(q.group(2) or a)
                cov.setdefault(m.group(1),set()).update(range(a,b+1))
    # continuation citations inside the same file handled by full paths only
files=sys.argv[1:] or sorted(os.path.relpath(p,'/repo') for d in ('src','tests','examples','moledyn_proc/src') for p in glob.glob(f'/repo/{d}/**/*.rs',recursive=True))
for rel in files:
    L=open('/repo/'+rel).read().split('\n')
    testfrom=next((i for i,l in enumerate(L) if '#[cfg(test)]' in l),len(L)) if rel.startswith('src') else len(L)
    c=cov.get(rel,set()); miss=[];tot=0
    for i,l in enumerate(L[:testfrom],1):
        m=re.match(r'\s*(?:pub(?:\([^)]*\))? )?(?:fn (\w+)|macro_rules! (\w+))',l)
        if m:
            tot+=1
            if i not in c and i+1 not in c: miss.append(f'{m.group(1) or m.group(2)}:{i}')
    print(f'{rel}: {tot-len(miss)}/{tot} cited; missing: {", ".join(miss)}')
