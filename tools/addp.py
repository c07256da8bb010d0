#!/usr/bin/env python3
"""Insert property definitions read from stdin into props1.py before the writer."""
import sys
f='/verif/tools/props1.py'; s=open(f).read(); m="with open('/verif/properties.jsonl'"
i=s.index(m); open(f,'w').write(s[:i]+sys.stdin.read().rstrip('\n')+'\n'+s[i:])
