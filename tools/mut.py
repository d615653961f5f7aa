#!/usr/bin/env python3
"""Seeded-bug harness.  mut.py spec.py : spec defines M = [dict(file=, old=, new=, definition=, claim=, props=[prop ids])...], TARGET = lake module.
Each mutation is applied in a scratch copy (/tmp/mut), the target module rebuilt; results appended to /verif/seeded/LOG.jsonl."""
import json,sys,runpy,subprocess,os,re,shutil
spec=runpy.run_path(sys.argv[1]); dry='--dry' in sys.argv
SRC='/verif/lean'; DST='/tmp/mut'
os.makedirs(DST,exist_ok=True)
subprocess.run(['rsync','-a','--delete',SRC+'/',DST+'/'] if shutil.which('rsync') else ['bash','-c',f'rm -rf {DST}; cp -a {SRC} {DST}'],check=True)
def thm_at(path,line):
    L=open(path).read().split('\n')
    for i in range(min(line,len(L))-1,-1,-1):
        m=re.match(r'\s*(?:private |protected |noncomputable |@\[[^\]]*\] ?)*(theorem|lemma|def|example|instance|structure|inductive)\s*([^\s:({\[]*)',L[i])
        if m: return (m.group(2) or 'example')
    return '?'
for m in spec['M']:
    f=os.path.join(DST,'Verif',m['file']); orig=open(f).read()
    n=orig.count(m['old'])
    if n!=1 and not m.get('all') :
        print('!! bad match count',n,m['old']); continue
    open(f,'w').write(orig.replace(m['old'],m['new']))
    p=subprocess.run(['lake','build']+spec['TARGET'].split(),cwd=DST,capture_output=True,text=True)
    out=p.stdout+p.stderr
    failed=[]
    for e in re.finditer(r'error: (Verif/\S+?\.lean):(\d+):',out):
        t=thm_at(os.path.join(DST,e.group(1)),int(e.group(2)))
        if t not in failed: failed.append(t)
    ok=p.returncode==0
    mods=re.findall(r'^- (Verif\.\S+)',out,re.M)
    rec=dict(definition=m['definition'],edit=f"{m['file']}: `{m['old'].strip()}` -> `{m['new'].strip()}`",claim=m['claim'],theorems_failed=failed,modules_failed=mods,theorems_tightened=m.get('tightened',[]))
    if ok and m.get('note'): rec['note']=m['note']
    print(('SURVIVED ' if ok else 'killed   ')+m['definition']+' | '+m['new'].strip()[:80]+' | '+','.join(failed[:6]))
    if ok: rec['result']='survived'
    else: rec['result']='killed'
    if not dry: open('/verif/seeded/LOG.jsonl','a').write(json.dumps(rec,ensure_ascii=False)+'\n')
    open(f,'w').write(orig)
