#!/usr/bin/env python3
"""manifest.py file.py : file defines C = {"C01": (status,[theorems],note)}; upserts MANIFEST.json."""
import json,sys,runpy,os
path='/verif/MANIFEST.json'
d={c['property']:c for c in json.load(open(path))['claims']} if os.path.exists(path) else {}
for k,(st,th,note) in runpy.run_path(sys.argv[1])['C'].items():
    d[k]=dict(property=k,status=st,theorems=th,note=note)
json.dump({'claims':[d[k] for k in sorted(d,key=lambda k:int(k[1:]))]},open(path,'w'),indent=1,ensure_ascii=False)
print(len(d))
