#!/usr/bin/env python3
"""Automatic mutants: every definition of the model gets a few small edits (operators, comparisons, constants, branches, error
codes, the generator state used), each edit is built in a scratch copy, and the build is stopped at the first theorem that
fails.  usage: automutate.py out.jsonl per_def seed [file-substring]   Survivors are printed; they are examined by hand."""
import json,sys,subprocess,re,os,random,signal
OUT,PER,SEED=sys.argv[1],int(sys.argv[2]),int(sys.argv[3])
ONLY=sys.argv[4] if len(sys.argv)>4 else ''
ROOT='/tmp/mut2/lean'; BASE='/tmp/mut2/base'; SRC='/verif/lean'
OPS=[(r' \+ ',' - '),(r' - ',' + '),(r' \* ',' + '),(r' / ',' * '),(r'Fl\.lt\b','Fl.le'),(r'Fl\.le\b','Fl.lt'),(r'Fl\.gt\b','Fl.lt'),
 (r'Fl\.ge\b','Fl.gt'),(r' < ',' ≤ '),(r' ≤ ',' < '),(r' > ',' ≥ '),(r' ≥ ',' > '),(r' ≠ ',' = '),(r'(?<=if )(\S+) = ',r'\1 ≠ '),(r' == ',' != '),(r' != ',' == '),
 (r'\btrue\b','false'),(r'\bfalse\b','true'),(r' && ',' || '),(r' \|\| ',' && '),(r' ∧ ',' ∨ '),(r' ∨ ',' ∧ '),
 (r'Fl\.two\b','Fl.one'),(r'Fl\.zero\b','Fl.one'),(r'Fl\.one\b','Fl.two'),(r'(?<![\w.])0(?![\w.])','1'),(r'(?<![\w.])1(?![\w.])','2'),(r'(?<![\w.])2(?![\w.])','3'),
 (r'\btake\b','drop'),(r'\bdrop\b','take'),(r'\bmin\b','max'),(r'\bmax\b','min'),(r'(?<!\w)g1\b','g'),(r'(?<!\w)s1\b','s'),(r'(?<!\w)pos1\b','pos'),
 (r'\.invalidDimension\b','.invalidType'),(r'\.invalidType\b','.invalidDimension'),(r'\.invalidArgumentInput\b','.invalidType'),(r'\.featureNotProvided\b','.invalidType'),
 (r'\.tooLargeTimeStep\b','.invalidType'),(r'Res\.panic\b|(?<=[ (])\.panic\b','.err .invalidType'),(r'\.err \.(\w+)','.panic'),(r'\.1\b','.2'),(r'\.2\b','.1'),(r'"([^"]+)"',r'"\1x"'),
 (r'\.reverse\b',''),(r'\.sqrt\b','.exp'),(r'\bnone\b','some default'),(r'\bsucc\b','pred'),(r'\bif (\w+)',r'if ¬ \1'),(r' \+\+ ',' ++ [] ++ ')]
def defs(txt):
    # (name,start,end) of definition bodies
    out=[]
    it=list(re.finditer(r'^(?:@\[[^\]]*\]\s*)?(?:private |noncomputable |protected )*(?:def|instance) ?([^\s:(]*)',txt,re.M))
    ends=sorted([m.start() for m in re.finditer(r'^(?:/--|/-|@\[|end |namespace |section|variable|open |instance|def |private |noncomputable |structure |inductive |class |theorem |lemma |example|deriving)',txt,re.M)]+[len(txt)])
    for m in it:
        e=min(x for x in ends if x>m.start())
        out.append((m.group(1) or 'instance',m.start(),e))
    return out
rnd=random.Random(SEED)
done=set()
if os.path.exists(OUT):
    for l in open(OUT):
        d=json.loads(l); done.add((d['file'],d['definition'],d['old'],d['new']))
subprocess.run(['rm','-rf','/tmp/mut2']); os.makedirs('/tmp/mut2')
subprocess.run(['cp','-aL',SRC,BASE],check=True)
subprocess.run(['rm','-rf',BASE+'/Verif'],check=True)
subprocess.run('git -C /verif archive HEAD lean | tar -x -C '+BASE+' --strip-components=1',shell=True,check=True)
subprocess.run(['lake','build'],cwd=BASE,check=True,capture_output=True)
subprocess.run(['cp','-a',BASE,ROOT],check=True)
def sync(): subprocess.run(['rsync','-a','--delete',BASE+'/',ROOT+'/'],check=True)
def have_rsync(): return subprocess.run(['which','rsync'],capture_output=True).returncode==0
if not have_rsync():
    def sync():
        subprocess.run(['rm','-rf',ROOT],check=True); subprocess.run(['cp','-a',BASE,ROOT],check=True)
cands=[]
for fn in sorted(os.listdir(BASE+'/Verif/Model')):
    if ONLY and ONLY not in fn: continue
    txt=open(f'{BASE}/Verif/Model/{fn}').read()
    for name,a,b in defs(txt):
        body=txt[a:b]
        k=body.find(':=')
        k2=body.find('\n  |')
        st=min([x for x in (k,k2,len(body)) if x>=0])
        mu=[]
        # mask comments
        masked=re.sub(r'--.*',lambda m:' '*len(m.group(0)),body)
        for pat,rep in OPS:
            for m in re.finditer(pat,masked):
                if m.start()<st: continue
                new=m.expand(rep) if '\\' in rep else rep
                mu.append((a+m.start(),a+m.end(),new))
        rnd.shuffle(mu)
        cands.append((fn,name,a,mu,txt))
def run(cmd,early):
    p=subprocess.Popen(cmd,cwd=ROOT,stdout=subprocess.PIPE,stderr=subprocess.STDOUT,text=True,preexec_fn=os.setsid)
    hit=None
    for l in p.stdout:
        m=re.match(r'error: (Verif/\S+?\.lean):(\d+)',l)
        if m and not hit:
            hit=(m.group(1),int(m.group(2)))
            if early: os.killpg(p.pid,signal.SIGKILL); break
        elif l.startswith('error') and not hit: hit=('?'+l.strip(),0)
    p.wait()
    return hit
def encl(path,line):
    if path.startswith('?'): return path
    L=open(f'{ROOT}/{path}').read().split('\n')
    for i in range(min(line,len(L))-1,-1,-1):
        m=re.match(r'\s*(?:@\[.*?\]\s*)?(?:private |noncomputable |protected )*(theorem|lemma|def|instance|example|structure)\b\s*(\S*)',L[i])
        if m: return m.group(2) or f'{m.group(1)}@{i+1}'
    return '?'
for fn,name,a,mu,txt in cands:
    got=0
    for s,e,new in mu:
        if got>=PER: break
        ctx=txt[txt.rfind('\n',0,s)+1:txt.find('\n',e)]
        newctx=txt[txt.rfind('\n',0,s)+1:s]+new+txt[e:txt.find('\n',e)]
        key=(fn,name,ctx.strip(),newctx.strip())
        if key in done: got+=1; continue
        open(f'{ROOT}/Verif/Model/{fn}','w').write(txt[:s]+new+txt[e:])
        mod='Verif.Model.'+fn[:-5]
        if run(['lake','build',mod],True):
            sync(); continue
        got+=1
        h=run(['lake','build'],True)
        if h and h[0].startswith('Verif/Model'): sync(); continue
        r={'file':fn,'definition':name,'old':ctx.strip(),'new':newctx.strip(),'survived':h is None,'first_failure':(h[0]+':'+encl(*h)) if h else None}
        open(OUT,'a').write(json.dumps(r,ensure_ascii=False)+'\n')
        if h is None: print('SURVIVED',fn,name,'|',ctx.strip(),'=>',newctx.strip(),flush=True)
        sync()
print('DONE',flush=True)
