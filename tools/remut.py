#!/usr/bin/env python3
"""Re-run the survivors of an automut run: remut.py <Pallet/Model.lean> <in.jsonl> <out.jsonl> <copydir> targets..."""
import sys,json,subprocess,re,os,shutil
rel,inf,outf,ROOT=sys.argv[1:5]; targets=sys.argv[5:]
SRC='/verif/lean'
src=open(f'{SRC}/Verif/{rel}').read(); lines=src.split('\n')
def enclosing(path,line):
    ls=open(path).read().split('\n')
    for i in range(min(line,len(ls))-1,-1,-1):
        m=re.match(r'\s*(?:@\[[^\]]*\]\s*)?(?:private )?(theorem|lemma|def|example|instance|structure)\b\s*([\w.\']*)',ls[i])
        if m: return m.group(2) if m.group(2) else m.group(1)+f'@{os.path.basename(path)}:{i+1}'
    return '?'
done=set()
if os.path.exists(outf):
    for x in open(outf):
        r=json.loads(x); done.add((r['line'],r['new']))
for x in open(inf):
    q=json.loads(x)
    if q['rc']!=0 or (q['line'],q['new']) in done: continue
    # the closest line with the same text
    c=[i for i,l in enumerate(lines) if l.strip()==q['old']]
    if not c: print('GONE',q['definition'],q['old'][:60]); continue
    i=min(c,key=lambda i:abs(i+1-q['line']))
    for dd,_,fs in os.walk(SRC+'/Verif'):
        for f in fs:
            a=os.path.join(dd,f); b=a.replace(SRC,ROOT,1); os.makedirs(os.path.dirname(b),exist_ok=True)
            if not os.path.exists(b) or open(a).read()!=open(b).read(): shutil.copy(a,b)
    ls=list(lines); ls[i]=q['new']
    open(f'{ROOT}/Verif/{rel}','w').write('\n'.join(ls))
    try:
        r=subprocess.run(['nice','lake','build']+targets,cwd=ROOT,capture_output=True,text=True,timeout=1500)
        out=r.stdout+r.stderr; rc=r.returncode
    except subprocess.TimeoutExpired: out='';rc=99
    failed=[]
    for m in re.finditer(r'error: (Verif/[\w/]+\.lean):(\d+):',out):
        y=m.group(1)[6:-5].replace('/','.')+'.'+enclosing(f'{ROOT}/{m.group(1)}',int(m.group(2)))
        if y not in failed: failed.append(y)
    q.update(rc=rc,failed=failed)
    open(outf,'a').write(json.dumps(q,ensure_ascii=False)+'\n')
    print('KILLED' if rc else 'SURVIVED',q['definition'],q['op'],'|',q['new'].strip()[:90],'|',failed[:3],flush=True)
