#!/usr/bin/env python3
"""Regenerates MANIFEST.json from tools/claims.txt.
Line format:  Cxx | status | Namespace.thm, Namespace.thm2 | note"""
import glob, json, os, re
here = os.path.dirname(os.path.abspath(__file__))
# fully qualified theorem names, by last component
D = {}
for f in glob.glob(os.path.join(here, '../lean/Verif/**/*.lean'), recursive=True):
    st = []
    for l in open(f):
        m = re.match(r'(namespace|section|end|theorem|mutual)\b\s*(\S*)', l)
        if not m:
            continue
        k, n = m.groups()
        if k == 'namespace': st.append(n)
        elif k in ('section', 'mutual'): st.append(None)
        elif k == 'end':
            if st: st.pop()
        else: D.setdefault(n.split('.')[-1], []).append('.'.join([x for x in st if x] + [n]))
known = {q for v in D.values() for q in v}


def full(t):
    if t.startswith('Verif.'):
        assert t in known, t
        return t
    assert len(D.get(t, [])) == 1, (t, D.get(t))
    return D[t][0]


claims = []
for line in open(os.path.join(here, 'claims.txt')):
    line = line.strip()
    if not line or line.startswith('#'):
        continue
    p, st, th, note = [x.strip() for x in line.split('|', 3)]
    claims.append({"property": p, "status": st, "theorems": [full(t.strip()) for t in th.split(',') if t.strip()], "note": note})
claims.sort(key=lambda c: c["property"])
json.dump({"claims": claims}, open(os.path.join(here, '..', 'MANIFEST.json'), 'w'), indent=1)
print(len(claims))
