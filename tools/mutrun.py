#!/usr/bin/env python3
"""run.py mutants.py : run every mutant, append results to /tmp/mut/results.jsonl"""
import sys,os,re,json,subprocess,shutil,time
SRC='/verif/lean'; W='/tmp/mut/lean'; PR='/tmp/mut/pristine'
spec={}
exec(open(sys.argv[1]).read(),spec)
M=spec['M']
done=set()
if os.path.exists('/tmp/mut/results.jsonl'):
    for l in open('/tmp/mut/results.jsonl'): done.add(json.loads(l)['id'])
if not os.path.exists(PR) or '--fresh' in sys.argv:
    shutil.rmtree(PR,ignore_errors=True); subprocess.run(['cp','-a',SRC,PR],check=True)
deps={}
for l in open('/tmp/mut/deps.txt'):
    a=l.split(); deps[a[0].split('.')[-1]]=set(a)
def decl(path,line):
    ls=open(path).read().split('\n')
    for i in range(min(line,len(ls))-1,-1,-1):
        m=re.match(r'(?:@\[[^\]]*\] *)?(?:private |protected |noncomputable )*(theorem|example|def|instance|structure|inductive|abbrev|lemma)\b *(\S*)',ls[i])
        if m: return m.group(1), m.group(2)
    return '?','?'
DECL=re.compile(r'^(?:@\[[^\]]*\] *)?(?:private |protected |noncomputable )*(theorem|example|def|instance|structure|inductive|abbrev|lemma|namespace|end|section|open|variable|mutual|/--|/-|set_option|attribute|include|omit) *(\S*)',re.M)
def unexample(path,lines):
    s=open(path).read()
    offs=[0]
    for l in s.split('\n'): offs.append(offs[-1]+len(l)+1)
    ms=list(DECL.finditer(s)); cut=set()
    for ln in lines:
        o=offs[ln-1]; i=max(j for j,m in enumerate(ms) if m.start()<=o)
        if ms[i].group(1)=='example': cut.add((ms[i].start(),ms[i+1].start() if i+1<len(ms) else len(s)))
    for a,b in sorted(cut,reverse=True): s=s[:a]+s[b:]
    open(path,'w').write(s)
def stub(path,kind,name):
    s=open(path).read()
    ms=list(DECL.finditer(s))
    for i,m in enumerate(ms):
        if m.group(1)==kind and (m.group(2)==name):
            e=ms[i+1].start() if i+1<len(ms) else len(s)
            body=s[m.start():e]
            if kind=='example':
                s=s[:m.start()]+s[e:]; open(path,'w').write(s); return
            # find top-level :=
            d=0;k=None
            for q in range(len(body)):
                c=body[q]
                if c in '([{⟨': d+=1
                elif c in ')]}⟩': d-=1
                elif d==0 and body.startswith(':=',q): k=q;break
            if k is None:
                # pattern matching theorem
                mm=re.search(r'\n  \| ',body)
                if not mm: return
                k=mm.start(); nb=body[:k]+' := sorry\n\n'
            else:
                nb=body[:k]+':= sorry\n\n'
            s=s[:m.start()]+nb+s[e:]
            open(path,'w').write(s); return
def defname(path,pos):
    return decl(path,open(path).read()[:pos].count('\n')+1)
for mu in M:
    id,file,old,new,claim,props=mu
    if id in done: continue
    shutil.rmtree(W,ignore_errors=True); subprocess.run(['cp','-a',PR,W],check=True)
    p=f'{W}/Verif/{file}'; s=open(p).read()
    n=s.count(old)
    if n<1: print(id,'NOT FOUND'); continue
    if n>1: print(id,'AMBIGUOUS',n); continue
    pos=s.index(old); dn=defname(p,pos+1)
    open(p,'w').write(s.replace(old,new))
    t=time.time()
    thms=[];exs=[];oth=[];ok=False
    for rnd in range(5):
        r=subprocess.run(['lake','build'],cwd=W,capture_output=True,text=True)
        out=r.stdout+r.stderr
        if rnd==0: ok=(r.returncode==0)
        if r.returncode==0: break
        errs=[]; seen=set(); exl={}
        for m in re.finditer(r'^error: (Verif/\S+\.lean):(\d+):(\d+)',out,re.M):
            k,nm=decl(f'{W}/{m.group(1)}',int(m.group(2)))
            if k=='example': exl.setdefault(m.group(1),[]).append(int(m.group(2)))
            key=(m.group(1),k,nm)
            if key not in seen: seen.add(key); errs.append(key)
        thms+=[e[2] for e in errs if e[1]=='theorem' and e[2] not in thms]
        exs+=[e for e in errs if e[1]=='example']
        oth+=[list(e) for e in errs if e[1] not in('theorem','example')]
        aff=sorted({c for c,d in deps.items() for x in thms if c==x or any(y==x or y.endswith('.'+x) for y in d)})
        hit=[c for c in aff if c.split('_')[0] in props]
        if hit: break
        # stub the failing theorems and go on
        for f,ls in exl.items(): unexample(f'{W}/{f}',ls)
        for f,k,nm in errs:
            if k=='example': continue
            stub(f'{W}/{f}',k,nm)
    aff=sorted({c for c,d in deps.items() for x in thms if c==x or any(y==x or y.endswith('.'+x) for y in d)})
    hit=[c for c in aff if c.split('_')[0] in props]
    res=dict(id=id,file=file,defn=dn[1],edit=f'{old.strip()}  =>  {new.strip()}',claim=claim,props=props,failed=thms,examples=len(exs),other=oth,affected=aff,hit=hit,ok=ok,wall=round(time.time()-t))
    open('/tmp/mut/results.jsonl','a').write(json.dumps(res)+'\n')
    print(id,dn[1],'BUILD OK!!' if ok else '', 'thms',thms[:6],'ex',len(exs),'oth',len(oth),'HIT' if hit else 'NOHIT',hit[:4],res['wall'],flush=True)
