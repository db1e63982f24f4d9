#!/usr/bin/env python3
"""Apply one edit to a scratch copy of the Lean project, rebuild, report the declarations that fail.
usage: mut.py <spec.json>   spec: {"file","def","old","new","edit","claim"}; appends to seeded/LOG.jsonl"""
import json,sys,subprocess,os,re
SRC='/verif/lean'; DST='/tmp/mut'
def run(spec,log=True):
    if not os.path.exists(DST): subprocess.run(['cp','-a',SRC,DST],check=True)
    subprocess.run('rm -rf Verif && cp -a %s/Verif %s/Verif.lean .'%(SRC,SRC),shell=True,check=True,cwd=DST)
    p=os.path.join(DST,'Verif',spec['file'])
    s=open(p).read()
    n=s.count(spec['old'])
    assert n>=1, ('pattern not found',spec)
    assert n==1 or spec.get('all'), ('pattern not unique',n,spec)
    open(p,'w').write(s.replace(spec['old'],spec['new']))
    r=subprocess.run(['lake','build'],cwd=DST,capture_output=True,text=True,timeout=3000)
    out=r.stdout+r.stderr
    fails=[]
    for m in re.finditer(r'error: (Verif/[\w/]+\.lean):(\d+):',out):
        f,l=m.group(1),int(m.group(2))
        L=open(os.path.join(DST,f)).read().split('\n')
        for i in range(min(l,len(L))-1,-1,-1):
            mm=re.match(r'\s*(?:@\[.*\]\s*)?(?:private |noncomputable )*(theorem|lemma|def|example|instance|structure|abbrev)\s*(\S*)',L[i])
            if mm:
                nm=f[6:-5]+':'+(mm.group(2) if mm.group(1)!='example' else 'example@%d'%(i+1))
                if nm not in fails: fails.append(nm)
                break
    rec={'definition':spec['def'],'edit':spec['edit'],'claim_broken':spec['claim'],'failed':fails,'build_ok':r.returncode==0,'tightened':spec.get('tightened',[])}
    print(json.dumps(rec,ensure_ascii=False))
    if log: open('/verif/seeded/LOG.jsonl','a').write(json.dumps(rec,ensure_ascii=False)+'\n')
    return rec
if __name__=='__main__':
    specs=json.load(open(sys.argv[1]))
    for s in (specs if isinstance(specs,list) else [specs]):
        try: run(s)
        except AssertionError as e: print('SKIP',e)
