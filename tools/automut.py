#!/usr/bin/env python3
"""Mechanical mutants of a model file: automut.py <Pallet/Model.lean> <out.jsonl> <copydir> targets...
Every mutant changes one token, drops one check or one update in one definition; the scratch copy is rebuilt."""
import sys,json,subprocess,re,os,shutil,random
rel,outf,ROOT=sys.argv[1:4]; targets=sys.argv[4:]
SRC='/verif/lean'
src=open(f'{SRC}/Verif/{rel}').read()
lines=src.split('\n')
# mask comments
def strip_comments(ls):
    res=[];inc=False
    for l in ls:
        if inc:
            res.append(False)
            if '-/' in l: inc=False
            continue
        if l.strip().startswith('/-'):
            res.append(False)
            if '-/' not in l: inc=True
            continue
        res.append(True)
    return res
code=strip_comments(lines)
cur=None; defs=[]
for i,l in enumerate(lines):
    m=re.match(r'(?:@\[[^\]]*\]\s*)?(def|structure|inductive|instance|theorem|abbrev|namespace|end|open|set_option)\b\s*(\S*)',l)
    if m and code[i]: cur=m.group(2) if m.group(1)=='def' else None
    defs.append(cur)
def subs(l):
    out=[]
    def rep(pat,f,name):
        for m in re.finditer(pat,l):
            new=l[:m.start()]+(f(m) if callable(f) else f)+l[m.end():]
            if new!=l: out.append((name,new))
    m=re.search(r'ensure \(',l)
    if m:
        # drop check
        d=0
        for j in range(m.end()-1,len(l)):
            if l[j]=='(':d+=1
            if l[j]==')':
                d-=1
                if d==0: break
        out.append(('drop check',l[:m.end()-1]+'(True ∨ '+l[m.end()-1:j+1]+')'+l[j+1:]))
    rep(r' ≤ ',' < ','≤ to <'); rep(r' < ',' ≤ ','< to ≤')
    rep(r'\bcadd\b','csub','cadd to csub'); rep(r'\bcsub\b','cadd','csub to cadd')
    rep(r'(?<=[\w)]) \+ (?=[\w(])',' - ','+ to -'); rep(r'(?<=[\w)]) - (?=[\w(])',' + ','- to +')
    rep(r'(?<=[\w)]) \* (?=[\w(])',' + ','* to +')
    rep(r'transfer (\S+) (\S+) (\S+)',lambda m:f'transfer {m.group(1)} {m.group(3)} {m.group(2)}','swap source and destination')
    rep(r'\bmin\b','max','min to max'); rep(r'\bmax\b','min','max to min')
    rep(r'let (\w+) ← (\S+)\.(mint|burn|transfer) .*$',lambda m:f'let {m.group(1)} := {m.group(2)}','drop token movement')
    rep(r'\b1\b','2','1 to 2'); rep(r' 0\b',' 1','0 to 1')
    rep(r'\btrue\b','false','true to false'); rep(r'\bfalse\b','true','false to true')
    rep(r'pmulCeil','pmulFloor','ceil to floor'); rep(r'pmulFloor','pmulCeil','floor to ceil')
    rep(r' ∧ ',' ∨ ','and to or'); rep(r' ∨ ',' ∧ ','or to and')
    rep(r' ≠ ',' = ','≠ to ='); rep(r'if (\S+) = (\S+) then',lambda m:f'if {m.group(1)} ≠ {m.group(2)} then','= to ≠')
    for m in re.finditer(r'\{ (\w+) with ([^{}]*)\}',l):
        fs=re.split(r',\s*(?=\w+ := )',m.group(2).strip())
        for k in range(len(fs)):
            rest=fs[:k]+fs[k+1:]
            new='{ '+m.group(1)+' with '+', '.join(rest)+' }' if rest else m.group(1)
            out.append((f'drop update of {fs[k].split(" :=")[0]}',l[:m.start()]+new+l[m.end():]))
    return out
muts=[]
for i,l in enumerate(lines):
    if not code[i] or not defs[i]: continue
    body=l
    for name,new in subs(body): muts.append((i,defs[i],name,l,new))
limit=int(os.environ.get('LIMIT','100000'))
random.seed(1)
if len(muts)>limit: muts=sorted(random.sample(muts,limit))
done=set()
if os.path.exists(outf):
    for x in open(outf): 
        r=json.loads(x); done.add((r['line'],r['new']))
print(len(muts),'mutants')
def enclosing(path,line):
    ls=open(path).read().split('\n')
    for i in range(min(line,len(ls))-1,-1,-1):
        m=re.match(r'\s*(?:@\[[^\]]*\]\s*)?(?:private )?(theorem|lemma|def|example|instance|structure)\b\s*([\w.\']*)',ls[i])
        if m: return m.group(2) if m.group(2) else m.group(1)+f'@{os.path.basename(path)}:{i+1}'
    return '?'
for i,d,name,old,new in muts:
    if (i+1,new) in done: continue
    for dd,_,fs in os.walk(SRC+'/Verif'):
        for f in fs:
            a=os.path.join(dd,f); b=a.replace(SRC,ROOT,1); os.makedirs(os.path.dirname(b),exist_ok=True)
            if not os.path.exists(b) or open(a).read()!=open(b).read(): shutil.copy(a,b)
    ls=list(lines); ls[i]=new
    open(f'{ROOT}/Verif/{rel}','w').write('\n'.join(ls))
    try:
        r=subprocess.run(['nice','lake','build']+targets,cwd=ROOT,capture_output=True,text=True,timeout=1500)
        out=r.stdout+r.stderr; rc=r.returncode
    except subprocess.TimeoutExpired: out='';rc=99
    failed=[]
    for m in re.finditer(r'error: (Verif/[\w/]+\.lean):(\d+):',out):
        x=m.group(1)[6:-5].replace('/','.')+'.'+enclosing(f'{ROOT}/{m.group(1)}',int(m.group(2)))
        if x not in failed: failed.append(x)
    stillborn=any(x.startswith(rel[:-5].replace('/','.')+'.') for x in failed)
    res=dict(line=i+1,definition=d,op=name,old=old.strip(),new=new,rc=rc,failed=failed,stillborn=stillborn)
    open(outf,'a').write(json.dumps(res,ensure_ascii=False)+'\n')
    print('STILLBORN' if stillborn else 'KILLED' if rc else 'SURVIVED',d,name,'|',new.strip()[:90],'|',failed[:3],flush=True)
