#!/usr/bin/env python3
"""Appends/updates one line in properties.jsonl: props.py ID TITLE STATEMENT QUANTIFIER WHY ANCHOR[;ANCHOR...]"""
import json,sys,os
P=os.path.join(os.path.dirname(__file__),'..','properties.jsonl')
def put(id,title,statement,quantifier,why,anchors):
    rows=[json.loads(l) for l in open(P) if l.strip()]
    rec=dict(id=id,title=title,statement=statement,quantifier=quantifier,why_tests_cant=why,anchors=anchors)
    rows=[r for r in rows if r['id']!=id]+[rec]
    rows.sort(key=lambda r:int(r['id'][1:]))
    with open(P,'w') as f:
        for r in rows: f.write(json.dumps(r,ensure_ascii=False)+"\n")
if __name__=='__main__':
    a=sys.argv[1:]; put(a[0],a[1],a[2],a[3],a[4],a[5].split(';'))
