#!/usr/bin/env python3
"""Append properties to properties.jsonl.  Input: a file of blocks
   ID | title
   S: statement / Q: quantifier / W: why tests cannot / A: anchors (; separated)"""
import json,sys
out=[];cur=None
for ln in open(sys.argv[1]):
    ln=ln.rstrip('\n')
    if not ln.strip(): continue
    if ln[:3] in('S: ','Q: ','W: ','A: '):
        k={'S':'statement','Q':'quantifier','W':'why_tests_cant','A':'anchors'}[ln[0]]
        v=ln[3:].strip()
        if k=='anchors': v=[a.strip() for a in v.split(';')]
        cur[k]=v
    else:
        i,t=ln.split('|',1)
        cur={'id':i.strip(),'title':t.strip()}; out.append(cur)
have=[json.loads(l) for l in open('/verif/properties.jsonl') if l.strip()]
ids={p['id']:n for n,p in enumerate(have)}
for p in out:
    assert set(p)=={'id','title','statement','quantifier','why_tests_cant','anchors'},p
    if p['id'] in ids: have[ids[p['id']]]=p
    else: have.append(p)
open('/verif/properties.jsonl','w').write(''.join(json.dumps(p,ensure_ascii=False)+'\n' for p in have))
print(len(have))
