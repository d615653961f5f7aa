#!/usr/bin/env python3
"""reg.py file.py : file defines P, C (see add_props.py, manifest.py) and optionally ROWS, FIND, MOD (DESIGN.md table lines) and IMP (modules); registers them all."""
import sys,runpy,subprocess,re
f=sys.argv[1]; d=runpy.run_path(f)
subprocess.check_call(['python3','tools/add_props.py',f]); subprocess.check_call(['python3','tools/manifest.py',f])
s=open('DESIGN.md').read()
for r in d.get('ROWS',[]):
    m=re.findall(r'^\| C\d+ \|.*$',s,re.M)[-1]
    s=s.replace(m,m+'\n'+r)
for r in d.get('FIND',[]):
    s=s.replace('\n<!-- findings:more -->',r+'\n\n<!-- findings:more -->')
for r in d.get('MOD',[]):
    s=s.replace('<!-- modelled:more -->',r+'\n<!-- modelled:more -->')
open('DESIGN.md','w').write(s)
v=open('lean/Verif.lean').read()
for i in d.get('IMP',[]):
    l='import Verif.'+i+'\n'
    if l not in v: v=v.rstrip('\n')+'\n'+l
open('lean/Verif.lean','w').write(v)
