#!/usr/bin/env python3
"""Maintain properties.jsonl: `add_props.py file.py` where file.py defines P = [(id,title,statement,quantifier,why,anchors)...].
Existing ids are replaced, new ids appended; output sorted by id."""
import json,sys,runpy
path='/verif/properties.jsonl'
rows={}
for l in open(path):
    l=l.strip()
    if l:
        o=json.loads(l); rows[o['id']]=o
for (i,t,s,q,w,a) in runpy.run_path(sys.argv[1])['P']:
    rows[i]=dict(id=i,title=t,statement=s,quantifier=q,why_tests_cant=w,anchors=a)
with open(path,'w') as f:
    for k in sorted(rows,key=lambda k:int(k[1:])):
        f.write(json.dumps(rows[k],ensure_ascii=False)+'\n')
print(len(rows))
