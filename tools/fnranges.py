import sys,re
# print "name start-end" for each fn in a rust file
for path in sys.argv[1:]:
    L=open(path).read().split('\n')
    for i,l in enumerate(L):
        m=re.match(r'\s*(pub(\(crate\))? )?(const )?fn (\w+)',l)
        if m:
            d=0;started=False
            for j in range(i,len(L)):
                t=re.sub(r'//.*','',L[j]); t=re.sub(r'"[^"]*"','',t)
                for ch in t:
                    if ch=='{': d+=1;started=True
                    elif ch=='}': d-=1
                if started and d==0: break
                if not started and t.rstrip().endswith(';'): break
            print(f"{m.group(4)} {i+1}-{j+1}")
