#!/usr/bin/env python3
"""Mutation testing of the proofs in a scratch copy.
usage: mutate.py BATCH.json ; BATCH = list of {file, old, new, definition, edit, claim, [tightened]} (file relative to lean/).
For each: copy lean/ to /tmp/mut, apply the edit, `lake build`, collect the declarations with errors, append to seeded/LOG.jsonl
if at least one failed; print SURVIVED otherwise (nothing logged: tighten, then log by hand)."""
import json,sys,os,re,subprocess,shutil
sys.path.insert(0,os.path.dirname(__file__))
from seed import seed
SRC=os.environ.get('MUT_SRC','/verif/lean'); DST='/tmp/mut'
def decl_at(path,line):
    ls=open(path).read().split('\n')
    for i in range(min(line,len(ls))-1,-1,-1):
        m=re.match(r'\s*(?:@\[[^\]]*\]\s*)?(?:private |noncomputable )?(theorem|def|lemma|instance|example|structure|inductive|abbrev)\s*([^\s:({\[]*)',ls[i])
        if m: return m.group(2) or m.group(1)
    return '?'
for m in json.load(open(sys.argv[1])):
    shutil.rmtree(DST,ignore_errors=True); subprocess.run(['cp','-a',SRC,DST],check=True)
    p=os.path.join(DST,m['file']); s=open(p).read()
    if s.count(m['old'])!=1: print('!! pattern count',s.count(m['old']),m['definition'],m['old']); continue
    open(p,'w').write(s.replace(m['old'],m['new']))
    r=subprocess.run('ulimit -v 40000000; timeout 900 lake build '+m.get('target',''),shell=True,cwd=DST,capture_output=True,text=True)
    fails=[]
    for f,l in re.findall(r'error: (Verif/\S+?\.lean):(\d+):\d+',r.stdout+r.stderr):
        d=decl_at(os.path.join(DST,f),int(l)); d=f[6:-5].replace('/','.')+':'+d
        if d not in fails: fails.append(d)
    if r.returncode!=0 and fails:
        seed(m['definition'],m['edit'],m['claim'],fails,m.get('tightened',[])); print('killed',m['definition'],fails[:6])
    else: print('SURVIVED' if r.returncode==0 else 'ODD',m['definition'],m['edit'],(r.stdout+r.stderr)[-300:] if r.returncode else '')
