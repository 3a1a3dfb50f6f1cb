#!/usr/bin/env python3
"""seed.py DEFINITION EDIT CLAIM FAILED(comma list) TIGHTENED(comma list) – append a line to seeded/LOG.jsonl"""
import json,sys,os
P=os.path.join(os.path.dirname(__file__),'..','seeded','LOG.jsonl')
def seed(d,e,c,f,t=()):
    open(P,'a').write(json.dumps(dict(definition=d,edit=e,claim_broken=c,theorems_failed=list(f),theorems_tightened=list(t)),ensure_ascii=False)+"\n")
if __name__=='__main__':
    a=sys.argv[1:]; seed(a[0],a[1],a[2],[x for x in a[3].split(',') if x],[x for x in a[4].split(',') if x] if len(a)>4 else [])
