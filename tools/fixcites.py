# rewrite "`name`, <file>lib.rs:NNN-NNN" citations from the real function ranges
import sys,re,subprocess
model,src=sys.argv[1],sys.argv[2]
rng={}
for l in subprocess.check_output(['python3','/verif/tools/fnranges.py',src]).decode().split('\n'):
    if l:
        n,r=l.split(); rng.setdefault(n,r)
fn=src.split('/')[-1]
s=open(model).read()
def rep(m):
    n=m.group(1)
    if n in rng: return f"`{n}`, {m.group(2) or ''}{fn}:{rng[n]}"
    return m.group(0)
s2=re.sub(r"`(\w+)`,\s+((?:pallets/[\w/-]+/)?)"+re.escape(fn)+r":\d+-\d+",rep,s)
open(model,'w').write(s2)
print(sum(1 for a,b in zip(s.split('\n'),s2.split('\n')) if a!=b),'changed')
