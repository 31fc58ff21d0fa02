"""Mutation testing. Usage: mutate.py MUTANTS.py [--log]; MUTANTS.py defines M = [(file, old, new, definition, edit, claim)].
Works in a scratch copy /tmp/mut/lean; appends to seeded/LOG.jsonl with --log."""
import sys, os, re, json, shutil, subprocess
SRC='/verif/lean'; DST='/tmp/mut/lean'
ns={}; exec(open(sys.argv[1]).read(), ns)
if not os.path.exists(DST): shutil.copytree(SRC, DST, symlinks=True)
subprocess.run(['rsync','-a','--delete','--exclude','.lake',SRC+'/',DST+'/']) if shutil.which('rsync') else None
if not shutil.which('rsync'):
    shutil.rmtree(DST+'/Verif'); shutil.copytree(SRC+'/Verif', DST+'/Verif'); shutil.copy(SRC+'/Verif.lean', DST+'/Verif.lean')
def theorem_at(path, line):
    name='?'
    pre=[]
    for i,l in enumerate(open(path),1):
        if i>line: break
        m=re.match(r'(?:@\[.*\] )?(?:private )?(theorem|def|example|instance|structure|abbrev|lemma)\s*([^\s:({\[]*)',l)
        if m: name=m.group(1)+' '+m.group(2)+('' if m.group(2) else '@%s:%d'%(os.path.basename(path),i))
    return name
def build():
    r=subprocess.run(['lake','build','Verif'],cwd=DST,capture_output=True,text=True)
    return r.returncode, r.stdout+r.stderr
rc,o=build()
assert rc==0, o[-2000:]
for (f,old,new,dfn,edit,claim) in ns['M']:
    p=DST+'/Verif/'+f
    s=open(p).read()
    if s.count(old)<1: print('!! pattern missing',f,repr(old)); continue
    if s.count(old)>1: print('!! pattern ambiguous',f,repr(old)); continue
    open(p,'w').write(s.replace(old,new))
    rc,o=build()
    fails=[]
    for m in re.finditer(r'error: (Verif/[^:]+):(\d+):',o):
        t=theorem_at(DST+'/'+m.group(1),int(m.group(2)))
        if t not in fails: fails.append(t)
    open(p,'w').write(s)
    fails=[x.replace('theorem ','') for x in fails]
    print(('SURVIVED ' if rc==0 else 'killed ')+dfn+' | '+edit+' | '+', '.join(fails[:6]),flush=True)
    if '--log' in sys.argv:
        open('/verif/seeded/LOG.jsonl','a').write(json.dumps(dict(definition=dfn,edit=edit,claim=claim,failed=fails,survived=rc==0,tightened=[]))+'\n')
