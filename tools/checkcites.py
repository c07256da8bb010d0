#!/usr/bin/env python3
"""Check every citation `path:a-b` in the model's comments: the file exists, has that many lines, and a Rust name
quoted just before the citation occurs in the cited lines."""
import re,os,sys,glob
files=[f[len('/repo/'):] for f in glob.glob('/repo/**/*.rs',recursive=True)]+['Cargo.toml']
L={}
def lines(f):
    if f not in L: L[f]=open('/repo/'+f).read().split('\n')
    return L[f]
bad=n=0
for path in sorted(glob.glob('/verif/lean/Verif/**/*.lean',recursive=True)):
    s=open(path).read()
    # header file(s) mentioned in the module doc give the default for short names
    full=re.findall(r'((?:pallets|runtime|precompiles|primitives|node|integration-tests)/[\w/.-]+\.rs)',s)
    for m in re.finditer(r'([\w/.-]*\.rs):(\d+)(?:-(\d+))?((?:,\s*\d+(?:-\d+)?)*)',s):
        n+=1
        f=m.group(1); a=int(m.group(2)); b=int(m.group(3) or a)
        cand=[x for x in files if x==f or x.endswith('/'+f)]
        ln=s[:m.start()].count('\n')+1
        if not cand:
            print(f'{path[18:]}:{ln}: no file {f}'); bad+=1; continue
        pref=[x for x in cand if x in full] or cand
        if not any(len(lines(x))>=b and a<=b for x in pref):
            print(f'{path[18:]}:{ln}: {f}:{a}-{b} beyond end ({[len(lines(x)) for x in pref]})'); bad+=1; continue
        pre=s[max(0,m.start()-90):m.start()]
        q=re.findall(r'`([A-Za-z_][\w:!]*)`',pre)
        if q and len(pre)-pre.rfind(q[-1])<len(q[-1])+16:
            name=q[-1].split('::')[-1].rstrip('!')
            if not any(any(re.search(r'\b'+name+r'\b',t) for t in lines(x)[a-1:b]) for x in pref):
                print(f'{path[18:]}:{ln}: `{name}` not in {f}:{a}-{b}'); bad+=1
print(n,'citations',bad,'suspicious')
