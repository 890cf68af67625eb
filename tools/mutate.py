#!/usr/bin/env python3
"""Mutation runner.  usage: mutate.py mutants.json
Each mutant: {"def": .., "file": "Model/X.lean", "old": .., "new": .., "n": occurrence (default 0), "edit": .., "claim": ..}
Works in the scratch copy /tmp/mut/lean and appends to /verif/seeded/LOG.jsonl."""
import json,sys,subprocess,re,os
# MUT_TARGETS="Verif.Props.X ..." rebuilds only these modules and what they import (noted in the log line).
TARGETS=os.environ.get('MUT_TARGETS','').split()
ROOT='/tmp/mut/lean'; SRC='/verif/lean'; LOG='/verif/seeded/LOG.jsonl'
BASE='/tmp/mut/base'
def snap():
    subprocess.run(['rm','-rf',BASE],check=True)
    subprocess.run(['mkdir','-p','/tmp/mut'],check=True)
    subprocess.run(['cp','-aL',SRC,BASE],check=True)
    # the committed sources, not the working tree; they must build before anything is edited
    subprocess.run(['rm','-rf',BASE+'/Verif'],check=True)
    subprocess.run('git -C /verif archive HEAD lean | tar -x -C '+BASE+' --strip-components=1',shell=True,check=True)
    subprocess.run(['lake','build'],cwd=BASE,check=True,capture_output=True)
def sync():
    subprocess.run(['rm','-rf',ROOT],check=True)
    subprocess.run(['cp','-a',BASE,ROOT],check=True)
def encl(path,line):
    L=open(path).read().split('\n')
    for i in range(min(line,len(L))-1,-1,-1):
        m=re.match(r'\s*(?:@\[.*?\]\s*)?(?:private |noncomputable |protected )*(theorem|lemma|def|instance|example|structure)\b\s*(\S*)',L[i])
        if m: return (m.group(2) if m.group(1) not in('example','instance') else '')or f'{m.group(1)}@{os.path.basename(path)}:{i+1}'
    return '?'
done=set()
if os.path.exists(LOG):
    for l in open(LOG):
        d=json.loads(l); done.add((d['definition'],d['edit']))
muts=json.load(open(sys.argv[1]))
snap()
sync()
for m in muts:
    key=(m['def'],m['edit'])
    if key in done: continue
    f=f"{ROOT}/Verif/{m['file']}"
    s=open(f).read()
    parts=s.split(m['old'])
    n=m.get('n',0)
    if len(parts)<n+2:
        print('NOMATCH',key,flush=True); continue
    if len(parts)>2 and 'n' not in m:
        print('AMBIG',key,len(parts)-1,flush=True); continue
    t=m['old'].join(parts[:n+1])+m['new']+m['old'].join(parts[n+1:])
    open(f,'w').write(t)
    try:
        p=subprocess.run(['lake','build']+TARGETS,cwd=ROOT,capture_output=True,text=True,timeout=1500)
        out=p.stdout+p.stderr
    except subprocess.TimeoutExpired as e:
        out='error: timeout'
    fails=[];blocked=False
    for mm in re.finditer(r'error: (Verif/\S+?\.lean):(\d+)',out):
        fn=ROOT+'/'+mm.group(1)
        nm=encl(fn,int(mm.group(2)))
        nm=mm.group(1)[6:-5]+':'+nm
        if nm not in fails: fails.append(nm)
    surv = not fails and 'error' not in out
    mf=[x for x in fails if x.startswith('Model/')]
    r={'definition':m['def'],'file':m['file'],'edit':m['edit'],'claim':m['claim'],'theorems_failed':fails,'survived':surv,'tightened':m.get('tightened',[])}
    if mf: r['note']='edited model itself does not compile: '+','.join(mf)
    if TARGETS: r['note']=(r.get('note','')+' only rebuilt: '+' '.join(TARGETS)).strip()
    open(LOG,'a').write(json.dumps(r)+'\n')
    print('SURVIVED' if surv else 'killed',key,len(fails),fails[:4],flush=True)
    sync()
