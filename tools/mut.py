#!/usr/bin/env python3
"""Mutation testing of the model. usage: mut.py MUTATIONS.py
MUTATIONS.py defines MUTS = [(file under lean/Verif/Model, old, new, definition, claim broken), ...].
Works in the scratch copy /tmp/mut/lean; appends one line per attempt to /verif/seeded/LOG.jsonl."""
import subprocess, sys, os, re, json, shutil
src='/verif/lean'; dst='/tmp/mut/lean'
os.makedirs('/tmp/mut',exist_ok=True)
subprocess.run(['rsync','-a','--delete',src+'/',dst+'/'] if shutil.which('rsync') else ['sh','-c',f'rm -rf {dst}; cp -a {src} {dst}'],check=True)
ns={}; exec(open(sys.argv[1]).read(),ns)
def decl_at(path,line):
    lines=open(path).read().split('\n')
    nm=None
    for i in range(min(line,len(lines))-1,-1,-1):
        m=re.match(r'(?:@\[.*?\]\s*)?(?:private\s+|noncomputable\s+)*(theorem|lemma|def|example|instance|abbrev|structure|inductive)\s*([^\s:({\[]*)',lines[i])
        if m:
            return (m.group(1)+'@'+str(i+1)) if m.group(1)=='example' else m.group(2)
    return '?'
log=open('/verif/seeded/LOG.jsonl','a')
for f,old,new,definition,claim,*tight in ns['MUTS']:
    p=f'{dst}/Verif/Model/{f}'
    s=open(p).read()
    if s.count(old)!=1:
        print('BAD MUTATION',definition,repr(old),s.count(old)); continue
    open(p,'w').write(s.replace(old,new))
    for _ in range(3):  # again if a prover was killed for lack of memory
        r=subprocess.run(['lake','build'],cwd=dst,capture_output=True,text=True)
        out=r.stdout+r.stderr
        if 'exited with code 137' not in out or re.search(r'^error: Verif/\S+?\.lean:\d+:\d+:',out,re.M): break
    errs=[]
    for m in re.finditer(r'^error: (Verif/\S+?\.lean):(\d+):\d+:',out,re.M):
        d=os.path.basename(m.group(1))[:-5]+':'+decl_at(f'{dst}/{m.group(1)}',int(m.group(2)))
        if d not in errs: errs.append(d)
    modelbroken=[e for e in errs if any(m.group(1).startswith('Verif/Model') for m in re.finditer(r'^error: (Verif/\S+?\.lean)',out,re.M))]
    open(p,'w').write(s)
    tag='SURVIVED' if not errs else ('MODEL DOES NOT COMPILE' if modelbroken else 'caught')
    print(tag,definition,'|',old.strip()[:50],'->',new.strip()[:50],'|',errs[:8],flush=True)
    if tag!='MODEL DOES NOT COMPILE':
        log.write(json.dumps({"definition":definition,"edit":f"{f}: {old.strip()} -> {new.strip()}","claim":claim,"failed":errs,"tightened":(tight[0] if tight else [])})+'\n'); log.flush()
