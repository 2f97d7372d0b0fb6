"""Seed bugs in a scratch copy of the model and log which theorems notice.
usage: mutate.py mutants.json
mutants.json: list of {file, def, old, new, claim, tightened?}; file is relative to lean/Verif."""
import json,sys,subprocess,os,re,shutil
S=os.environ.get('MUT_DIR','/tmp/mut')
subprocess.run(['rsync','-a','--delete','/verif/lean/',S+'/'],check=True) if shutil.which('rsync') else (shutil.rmtree(S,ignore_errors=True),shutil.copytree('/verif/lean',S,symlinks=True))
names={}
def decl_at(path,line):
    ls=open(path).read().split('\n')
    for i in range(min(line,len(ls))-1,-1,-1):
        m=re.match(r'(?:@\[.*?\]\s*)?(?:private |protected |noncomputable )*(theorem|lemma|def|example|instance|structure|inductive)\b\s*([^\s:({\[]*)',ls[i])
        if m: return m.group(2) or m.group(1)
    return '?'
for mu in json.load(open(sys.argv[1])):
    f=S+'/Verif/'+mu['file']
    src=open(f).read()
    if src.count(mu['old'])!=1:
        print('SKIP (count %d): %s'%(src.count(mu['old']),mu['def'],)); continue
    open(f,'w').write(src.replace(mu['old'],mu['new']))
    r=subprocess.run(['lake','build'],cwd=S,capture_output=True,text=True)
    out=r.stdout+r.stderr
    failed=[]
    for m in re.finditer(r'error: (Verif/\S+?\.lean):(\d+):\d+',out):
        d=decl_at(S+'/'+m.group(1),int(m.group(2)))
        if d=='example': d='example in '+m.group(1)
        if d not in failed: failed.append(d)
    mods=sorted(set(re.findall(r'^- (Verif\S*)',out,re.M)))
    open(f,'w').write(src)
    res=dict(definition=mu['file']+':'+mu['def'],edit=mu['old']+'  ==>  '+mu['new'],claim_broken=mu['claim'],theorems_failed=failed,modules_failed=mods,theorems_tightened=mu.get('tightened',[]))
    if mu.get('note'): res['note']=mu['note']
    print(json.dumps(res),flush=True)
    if '-n' not in sys.argv:
        os.makedirs('/verif/seeded',exist_ok=True)
        with open('/verif/seeded/LOG.jsonl','a') as o: o.write(json.dumps(res)+'\n')
    if not failed: print('  *** SURVIVED',flush=True)
