#!/usr/bin/env python3
"""usage: run.py seeds.json : each {def, file, old, new, claim, edit}. Mutates scratch copy, builds, reports."""
import json,sys,subprocess,re,os,shutil
W="/tmp/seed/lean"
def sh(c): return subprocess.run(c,shell=True,capture_output=True,text=True)
sh(f"rm -rf {W} && cp -a /verif/lean {W}")
r=sh(f"cd {W} && lake build 2>&1 | tail -1"); print(r.stdout.strip())
sh(f"cd {W} && lake env lean /tmp/seed/deps.lean")
deps={}
for l in open('/tmp/seed/deps.txt'):
    a,b=l.rstrip('\n').split('\t'); deps[a]=set(b.split())
seeds=json.load(open(sys.argv[1]))
out=[]
for sd in seeds:
    p=f"{W}/{sd['file']}"; orig=open(p).read()
    if orig.count(sd['old'])<1: print("NOT FOUND",sd['def'],sd['edit']); continue
    open(p,'w').write(orig.replace(sd['old'],sd['new'],1))
    r=sh(f"cd {W} && timeout 900 lake build 2>&1")
    fails=[];modelerr=False;ex=0
    for m in re.finditer(r"^error: (Verif/\S+?\.lean):(\d+):\d+:",r.stdout,re.M):
        f,ln=m.group(1),int(m.group(2))
        if f.startswith("Verif/Model") : modelerr=True
        lines=open(f"{W}/{f}").read().split('\n')
        name=None
        for i in range(ln-1,-1,-1):
            mm=re.match(r"(?:@\[.*?\]\s*)?(?:private )?(theorem|lemma|example|def|instance|abbrev)\b\s*(\S*)",lines[i])
            if mm:
                name=mm.group(2) if mm.group(1)!='example' else 'example'
                break
        if name=='example' or name is None: ex+=1; name=f"example@{f}:{ln}"
        if (name,f) not in fails: fails.append((name,f))
    names=[n for n,_ in fails if not n.startswith('example@')]
    for n,f in fails:
        src=open(f"{W}/{f}").read()
        for blk in re.findall(r"^mutual\n(.*?)^end\n",src,re.M|re.S):
            ns=re.findall(r"^theorem (\S+)",blk,re.M)
            if n in ns: names+= [x for x in ns if x not in names]
    props=sorted(k for k,v in deps.items() if any(any(d==f"Verif.{n}" or d.endswith('.'+n) for d in v) for n in names))
    blocked=[k.split('.')[-1] for k in props if re.match(r"C\d+",k.split('.')[-1])]
    open(p,'w').write(orig)
    print("==",sd['def'],"|",sd['edit'],"\n   build","FAIL" if fails else ("OK!!" if r.returncode==0 else "??"),"modelerr" if modelerr else "","\n   broken:",names,"\n   props:",blocked,"\n   ex:",ex)
    out.append(dict(definition=sd['def'],edit=sd['edit'],claim=sd['claim'],failed=sorted(set(blocked)),broken_lemmas=names,broken_examples=ex,tightened=sd.get('tightened',[])))
json.dump(out,open(sys.argv[1]+'.out','w'),indent=1,ensure_ascii=False)
sh(f"cd {W} && lake build")
