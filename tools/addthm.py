#!/usr/bin/env python3
"""addthm.py C44 Etl.Locked.X ... : append theorem names to a claim of MANIFEST.json"""
import json,sys
d=json.load(open('/verif/MANIFEST.json'))
for c in d['claims']:
    if c['property']==sys.argv[1]:
        for n in sys.argv[2:]:
            if n not in c['theorems']: c['theorems'].append(n)
json.dump(d,open('/verif/MANIFEST.json','w'),indent=1,ensure_ascii=False)
