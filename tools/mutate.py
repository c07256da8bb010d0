#!/usr/bin/env python3
"""Apply seeded bugs to a scratch copy of the model and rebuild.
usage: mutate.py muts.json   -> appends to /tmp/mut/results.jsonl
Each entry: {"file","def","old","new","breaks","targets":[modules]}"""
import sys,json,subprocess,re,os,shutil
ROOT=os.environ.get('MUTROOT','/tmp/mut/lean')
SRC='/verif/lean'
def enclosing(path,line):
    ls=open(path).read().split('\n')
    for i in range(min(line,len(ls))-1,-1,-1):
        m=re.match(r'\s*(?:@\[[^\]]*\]\s*)?(?:private )?(theorem|lemma|def|example|instance|structure)\b\s*([\w.\']*)',ls[i])
        if m: return m.group(2) if m.group(2) else m.group(1)+f'@{os.path.basename(path)}:{i+1}'
    return '?'
for e in json.load(open(sys.argv[1])):
    # reset sources
    for d,_,fs in os.walk(SRC+'/Verif'):
        for f in fs:
            a=os.path.join(d,f); b=a.replace(SRC,ROOT,1); os.makedirs(os.path.dirname(b),exist_ok=True)
            if not os.path.exists(b) or open(a).read()!=open(b).read(): shutil.copy(a,b)
    shutil.copy(SRC+'/Verif.lean',ROOT+'/Verif.lean')
    bad=False
    for ed in [e]+e.get('also',[]):
        p=f'{ROOT}/Verif/{ed["file"]}'
        t=open(p).read()
        n=t.count(ed['old'])
        if n==0 or (n!=1 and not ed.get('nth') and not ed.get('all')):
            print('BAD',n,ed['old'][:70]); bad=True; continue
        if ed.get('nth'):
            parts=t.split(ed['old']); k=ed['nth']
            t=ed['old'].join(parts[:k])+ed['new']+ed['old'].join(parts[k:])
        else: t=t.replace(ed['old'],ed['new'])
        open(p,'w').write(t)
    if bad: continue
    r=subprocess.run(['lake','build']+e['targets'],cwd=ROOT,capture_output=True,text=True)
    out=r.stdout+r.stderr
    failed=[]
    for m in re.finditer(r'error: (Verif/[\w/]+\.lean):(\d+):',out):
        d=m.group(1)[6:-5].replace('/','.')+'.'+enclosing(f'{ROOT}/{m.group(1)}',int(m.group(2)))
        if d not in failed: failed.append(d)
    res={'def':e['def'],'file':e['file'],'old':e['old'],'new':e['new'],'breaks':e['breaks'],'also':[(x['file'],x['old'],x['new']) for x in e.get('also',[])],'rc':r.returncode,'failed':failed}
    open(''+'/tmp/mut/results.jsonl','a').write(json.dumps(res)+'\n')
    print('KILLED' if r.returncode else 'SURVIVED',e['def'],'|',e['new'][:60].replace('\n',' '),'|',e['breaks'],'|',failed[:6],flush=True)
