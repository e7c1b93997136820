#!/usr/bin/env python3
"""Which lines of the headers are cited by no definition of the model? usage: coverage.py [header]"""
import re,glob,os,sys
R='/repo/include/sim_ds'
hdr={os.path.basename(p):p for p in glob.glob(R+'/**/*.hpp',recursive=True)}
cov={h:set() for h in hdr}
for f in glob.glob('/verif/lean/Verif/**/*.lean',recursive=True):
    s=open(f).read()
    for c in re.findall(r'/-.*?-/',s,re.S):
        parts=re.split(r'(\w+\.hpp)',c)
        for h,t in zip(parts[1::2],parts[2::2]):
            if h not in cov: continue
            t=re.split(r'\.\s|\n\n',t)[0] if False else t
            for a,b in re.findall(r'(?<![\w^])(\d+)(?:-(\d+))?(?![\w^])',t):
                a=int(a); b=int(b) if b else a
                if b<a or b-a>80: continue
                cov[h].update(range(a,b+1))
for h in sorted(hdr):
    L=open(hdr[h]).read().split('\n')
    unc=[i for i,l in enumerate(L,1) if i not in cov[h] and re.search(r'[A-Za-z]',l) and not re.match(r'\s*(//|#|\*|/\*|template|public:|private:|using |namespace)',l)]
    print(h,len(L),len(unc))
    if len(sys.argv)>1 and (sys.argv[1]==h or sys.argv[1]=='all'):
        for i in unc: print('   ',i,L[i-1])
