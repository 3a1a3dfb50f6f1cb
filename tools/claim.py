#!/usr/bin/env python3
"""claim.py ID STATUS thm1,thm2,... NOTE  – insert/update a claim in MANIFEST.json"""
import json,sys,os
P=os.path.join(os.path.dirname(__file__),'..','MANIFEST.json')
def claim(id,status,thms,note):
    d=json.load(open(P)) if os.path.exists(P) else {"claims":[]}
    d["claims"]=[c for c in d["claims"] if c["property"]!=id]+[dict(property=id,status=status,theorems=thms,note=note)]
    d["claims"].sort(key=lambda c:int(c["property"][1:]))
    json.dump(d,open(P,'w'),indent=1,ensure_ascii=False)
if __name__=='__main__':
    a=sys.argv[1:]; claim(a[0],a[1],[x for x in a[2].split(',') if x],a[3])
