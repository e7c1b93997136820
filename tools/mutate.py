#!/usr/bin/env python3
"""Test the theorems against wrong programs.

usage: mutate.py BATCH.py
A batch defines MUTANTS: list of (file, definition, old, new, claim, targets). For each one the model in a
scratch copy (/root/seed) is edited (a seventh entry lists further edits (file, definition, old, new) of the same mutant), the target modules are rebuilt, and a line is added to
/verif/seeded/LOG.jsonl with the declarations that no longer check.
"""
import sys, os, re, json, subprocess, shutil
SRC='/verif/lean'; SCR='/root/seed/lean'; LOG='/verif/seeded/LOG.jsonl'
def sync():
    os.makedirs('/root/seed',exist_ok=True)
    subprocess.run(['rsync','-a','--delete','--exclude','.lake',SRC+'/',SCR+'/'],check=False) if shutil.which('rsync') else None
    if not shutil.which('rsync'):
        if os.path.exists(SCR+'/Verif'): shutil.rmtree(SCR+'/Verif')
        os.makedirs(SCR,exist_ok=True)
        for n in os.listdir(SRC):
            if n=='.lake': continue
            s=os.path.join(SRC,n); d=os.path.join(SCR,n)
            if os.path.isdir(s):
                if os.path.exists(d): shutil.rmtree(d)
                shutil.copytree(s,d)
            else: shutil.copy2(s,d)
    if not os.path.exists(SCR+'/.lake'): shutil.copytree(SRC+'/.lake',SCR+'/.lake',symlinks=True)
def decl_at(path,line):
    name=None
    with open(path) as f:
        for i,l in enumerate(f,1):
            if i>line: break
            m=re.match(r'\s*(?:@\[.*\]\s*)?(?:private )?(theorem|def|example|instance|structure)\s*([^\s:({\[]*)',l)
            if m: name=m.group(2) or m.group(1)
    return name
def prop_theorems(mod):
    p=SCR+'/'+mod.replace('.','/')+'.lean'
    return re.findall(r'^theorem (C\d\d\w*)',open(p).read(),re.M)
def imports(mod,seen):
    p=SCR+'/'+mod.replace('.','/')+'.lean'
    if mod in seen or not os.path.exists(p): return seen
    seen.add(mod)
    for m in re.findall(r'^import (Verif\S*)',open(p).read(),re.M): imports(m,seen)
    return seen
def run(mut):
    f,dfn,old,new,claim,targets=mut[:6]
    edits=[(f,dfn,old,new)]+(mut[6] if len(mut)>6 else [])
    saved={}
    for g,d,o,n in edits:
        p=SCR+'/'+g
        s=open(p).read()
        i=s.find(d) if d in s else 0
        j=s.find(o,i)
        if j<0:
            for q,t in saved.items(): open(q,'w').write(t)
            assert False,(g,d,o)
        saved.setdefault(p,s)
        open(p,'w').write(s[:j]+n+s[j+len(o):])
    failed=set(); badmods=set()
    try:
        for t in targets:
            r=subprocess.run(['lake','build',t],cwd=SCR,capture_output=True,text=True,timeout=3000)
            out=r.stdout+r.stderr
            if r.returncode and 'error: Verif/' not in out: raise AssertionError(('build stopped without an error in the model',f,dfn,old))
            for m in re.finditer(r'error: (Verif/\S+?\.lean):(\d+):\d+',out):
                d=decl_at(SCR+'/'+m.group(1),int(m.group(2)))
                failed.add(m.group(1)[:-5].replace('/','.')+':'+str(d)); badmods.add(m.group(1)[:-5].replace('/','.'))
        fl=sorted(failed)
        direct=sorted({x.split(':')[1] for x in fl if re.match(r'C\d\d',x.split(':')[1])})
        blocked=set()
        for t in targets:
            for m in imports(t,set()):
                if 'Props' in m and m not in badmods and (imports(m,set())&badmods): blocked.add(m)
        rec=dict(definition='; '.join(g+':'+d for g,d,o,n in edits),edit='; '.join(f'{o.strip()}  =>  {n.strip()}' for g,d,o,n in edits),claim_broken=claim,
                 failed=fl,failed_property_theorems=direct,blocked_property_modules=sorted(blocked),
                 survived=not fl,tightened=[])
        return rec
    finally:
        for q,t in saved.items(): open(q,'w').write(t)
def main():
    ns={}
    exec(open(sys.argv[1]).read(),ns)
    sync()
    for m in ns['MUTANTS']:
        try: rec=run(m)
        except AssertionError as e:
            print('BAD',e); continue
        print(('SURVIVED ' if rec['survived'] else 'killed   '),rec['definition'],'|',rec['edit'][:80],'|',rec['failed'][:3],flush=True)
        if not rec['survived']:
            with open(LOG,'a') as g: g.write(json.dumps(rec)+'\n')
        else:
            with open('/root/seed/survivors.jsonl','a') as g: g.write(json.dumps(rec)+'\n')
    # rebuild the clean state lazily
main()
