#!/usr/bin/env python3
"""List model definitions whose comment cites no file and lines.  usage: cite.py [-v] [files]"""
import re,glob,sys,collections
v='-v' in sys.argv; files=[a for a in sys.argv[1:] if a!='-v'] or sorted(glob.glob('Verif/**/*.lean',recursive=True))
nodoc=collections.defaultdict(list); nofile=collections.defaultdict(list); nolines=collections.defaultdict(list)
for f in files:
    if f.endswith('Props.lean') or re.search(r'Spec|Lemmas|Inv\.lean|Props2',f): continue
    L=open(f).read().split('\n')
    for i,l in enumerate(L):
        m=re.match(r'(@\[.*\] )?(partial |private |protected |noncomputable )?(def|structure|inductive|abbrev) (\S+)',l)
        if not m: continue
        j=i-1; doc=''
        if j>=0 and L[j].rstrip().endswith('-/'):
            while True:
                doc=L[j]+doc
                if '/-' in L[j]: break
                j-=1
        name=m.group(4)
        if re.search(r'\bSpec\.',name): continue
        if re.search(r'(\.(h|cpp|inl)\b|\brepo\b).*\d|No (code )?counterpart',doc): continue
        if not doc: nodoc[f].append((i+1,name))
        elif re.search(r'\d',doc): nofile[f].append((i+1,name))
        else: nolines[f].append((i+1,name))
for t,d in (('no comment',nodoc),('lines, no file',nofile),('no lines',nolines)):
    print(t,sum(map(len,d.values())))
    if v:
        for f in d: print(' ',f,d[f])
