#!/usr/bin/env python3
"""Mutation tests of the theorems.  usage: mutate.py mutations.json
Each mutation: {"file": "Model/X.lean", "definition":..., "old":..., "new":..., "edit":..., "claim":..., "targets":[modules]}
Works in the scratch copy /tmp/mut and appends to seeded/LOG.jsonl.  A theorem counts as failed when it is in the list of
failing declarations, or (textually, transitively) uses a failing lemma."""
import json, sys, subprocess, os, re, glob, shutil
V='/verif/lean'; M='/tmp/mut/lean'
def sync():
    os.makedirs('/tmp/mut',exist_ok=True)
    subprocess.run(['rsync','-a','--delete',V+'/',M+'/'],check=True) if shutil.which('rsync') else (
        shutil.rmtree(M,ignore_errors=True), subprocess.run(['cp','-a',V,M],check=True))
def decls(path):
    out=[];
    for i,l in enumerate(open(path).read().split('\n'),1):
        m=re.match(r'(?:@\[[^\]]*\]\s*)?(?:private |noncomputable )*(theorem|lemma|def|example|instance|abbrev)\s*(\S*)',l)
        if m: out.append((i,m.group(1),m.group(2)))
    return out
def dependents(files):
    """modules (paths) that import one of the files, transitively, and the files themselves"""
    imp={}
    for p in glob.glob(V+'/Verif/**/*.lean',recursive=True):
        imp[p]={V+'/'+m.replace('.','/')+'.lean' for m in re.findall(r'^import (Verif\.\S+)',open(p).read(),re.M)}
    ok=set(files); ch=True
    while ch:
        ch=False
        for p,i in imp.items():
            if p not in ok and i & ok: ok.add(p); ch=True
    return ok
def users(failed,files):
    # transitive textual users among the theorems of the modules that can see the failing files
    text={}
    for p in sorted(q for q in dependents(files) if os.path.exists(q)):
        L=open(p).read().split('\n'); d=decls(p)
        for (i,k,n),nx in zip(d,d[1:]+[(len(L)+1,'','')]):
            if k in('theorem','lemma'): text.setdefault(n,'') ; text[n]+='\n'.join(L[i-1:nx[0]-1])
    toks={n:set(re.findall(r"[\w'?!.]+",t)) for n,t in text.items()}
    bad=set(failed); ch=True
    while ch:
        ch=False
        for n,t in toks.items():
            if n not in bad and (t & bad or any('.' in b and re.search(r'\.'+re.escape(b.split('.')[-1])+r'(?![\w.])',text[n]) for b in bad)): bad.add(n); ch=True
    return sorted(n for n in bad if re.match(r'C\d+_',n))
def main():
    sync()
    for mu in json.load(open(sys.argv[1])):
        p=M+'/Verif/'+mu['file']; orig=open(p).read()
        if orig.count(mu['old'])!=1:
            print('BAD MUTATION (old text occurs %d times):'%orig.count(mu['old']),mu['edit']); continue
        open(p,'w').write(orig.replace(mu['old'],mu['new']))
        r=subprocess.run(['lake','build']+mu.get('targets',['Verif']),cwd=M,capture_output=True,text=True)
        errs=re.findall(r'error: (?:\./)?(?:/tmp/mut/lean/)?(Verif/\S+?\.lean):(\d+):',r.stdout+r.stderr)
        fail=[]
        for f,l in errs:
            best=None
            for i,k,n in decls(M+'/'+f):
                if i<=int(l): best=(k,n,i)
            if best:
                nm=best[1] if best[0] in('theorem','lemma','def') else f'{best[0]} {f}:{best[2]}'
                if nm not in fail: fail.append(nm)
        us=users([n for n in fail if ' ' not in n],{V+'/'+f for f,_ in errs})
        open(p,'w').write(orig)
        rec={'definition':mu['definition'],'edit':mu['edit'],'claim':mu['claim'],'theorems_failed':us,'declarations_failing_first':fail[:12],
             'tightened':mu.get('tightened',[]),'verdict':'caught' if us else ('survived' if r.returncode==0 else 'only examples/defs failed')}
        print(rec['verdict'],'|',mu['edit'],'|',us[:6],fail[:6])
        if rec['verdict']=='caught' or '--log' in sys.argv:
            open('/verif/seeded/LOG.jsonl','a').write(json.dumps(rec)+'\n')
if __name__=='__main__': main()
