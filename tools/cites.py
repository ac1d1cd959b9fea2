#!/usr/bin/env python3
"""Check the citations in the model: every cited range must exist, and at least one identifier in backquotes before it must occur in (or near) it."""
import re,os,glob,sys
SRC='/repo/src'
files={}
for r,_,fs in os.walk(SRC):
    for f in fs:
        if f.endswith('.py'): files.setdefault(f,[]).append(os.path.join(r,f))
bad=0;n=0
for p in sorted(glob.glob('/verif/lean/Verif/Model/*.lean')):
    txt=open(p).read()
    for cm in re.finditer(r'/-[-!](.*?)-/',txt,re.S):
        com=cm.group(1)
        line0=txt[:cm.start()].count('\n')+1
        idents=set()
        for b in re.findall(r'`([^`]*)`',com):
            idents|=set(re.findall(r'[A-Za-z_][A-Za-z_0-9]{2,}',b))
        for m in re.finditer(r'([A-Za-z_]+\.py):((?:\d+(?:-\d+)?(?:, )?)+)',com):
            f=m.group(1)
            if f not in files: print(p,line0,'no file',f); bad+=1; continue
            for rg in re.findall(r'\d+(?:-\d+)?',m.group(2)):
                a,*b=rg.split('-');a=int(a);b=int(b[0]) if b else a
                n+=1
                ok=False;snips=[]
                for q in files[f]:
                    L=open(q).read().split('\n')
                    if b>len(L) or a>b: continue
                    s='\n'.join(L[a-1:b]); snips.append(L[a-1].strip())
                    if not idents or any(re.search(r'\b'+re.escape(i)+r'\b',s) for i in idents): ok=True
                if not ok:
                    bad+=1
                    print(os.path.basename(p),line0,f,rg,'|',' / '.join(snips)[:90],'|',com.strip().split('\n')[0][:100])
print(n,'citations',bad,'suspicious')
