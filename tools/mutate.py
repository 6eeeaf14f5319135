#!/usr/bin/env python3
"""Run seeded bugs against the proofs, in a scratch copy of /verif/lean.
usage: mutate.py mutants/cfg.py [name ...]
A mutants file calls  M(name, file, definition, old, new, claims, edit)  for each wrong program.
Every run appends one JSON line to /verif/seeded/LOG.jsonl (unless DRY=1)."""
import sys, os, re, json, subprocess, shutil, time
SRC='/tmp/snap%d'%os.getpid(); SCR='/tmp/scr%d'%os.getpid(); LOG='/verif/seeded/LOG.jsonl'
muts=[]
def M(name,file,definition,old,new,claims,edit,count=1,tightened=None):
    muts.append(dict(name=name,file=file,definition=definition,old=old,new=new,claims=claims.split(),edit=edit,count=count,tightened=tightened or []))
def sync():
    shutil.rmtree(SCR,ignore_errors=True); subprocess.run(['cp','-a',SRC,SCR],check=True)
DECL=re.compile(r'^(?:@\[[^\]]*\]\s*)?(?:private |protected |noncomputable )*(theorem|lemma|def|example|instance|structure|inductive|abbrev)\s*([^\s:({\[]*)')
def enclosing(path,line):
    ls=open(path).read().split('\n')
    if ls[line-1].startswith('/--'):
        while line<len(ls) and '-/' not in ls[line-1]: line+=1
        line+=1
    while line<len(ls) and re.match(r'(?:@\[[^\]]*\]\s*|omit .* in\s*)$',ls[line-1]): line+=1
    for i in range(min(line,len(ls))-1,-1,-1):
        m=DECL.match(ls[i])
        if m: return m.group(1),m.group(2) or ('example@%d'%(i+1)),i
    return '?','?',0
TOP=re.compile(r'^(?:@\[|/--|/-!|private |protected |noncomputable |theorem |lemma |def |example\b|instance |structure |inductive |abbrev |end\b|namespace |section\b|open |variable |set_option |local |attribute |universe |deriving |mutual)')
def stub(path,xs):
    """scratch only: a failed theorem becomes an assumption, so that the modules after it are still checked"""
    ls=open(path).read().split('\n')
    for f,k,n,i in sorted(xs,key=lambda x:-x[3]):
        j=i+1
        while j<len(ls) and not TOP.match(ls[j]): j+=1
        txt='\n'.join(ls[i:j])
        if k=='example': new=''
        else:
            d=0;cut=None
            for q,c in enumerate(txt):
                if c in '([{⟨': d+=1
                elif c in ')]}⟩': d-=1
                elif d==0 and txt.startswith(':=',q) and not re.search(r'\blet \S+ $|\blet \S+ : [^;\n]*$',txt[:q].split('\n')[-1]): cut=q;break
            m2=re.search(r'\n  \| ',txt)
            if m2 and 'match' not in txt[:m2.start()] and (cut is None or m2.start()<cut): cut=m2.start()
            if cut is None: cut=len(txt)
            new=re.sub(r'^(@\[[^\]]*\]\s*)?((?:private |protected |noncomputable )*)(theorem|lemma)',r'\2axiom',txt[:cut])
        # the doc comment of a removed example must go as well
        if k=='example' :
            h=i
            if h>0 and ls[h-1].rstrip().endswith('-/'):
                h-=1
                while not ls[h].startswith('/-'): h-=1
                ls[h:i]=[]; j-=i-h; i=h
            ls[i:j]=[]
        else: ls[i:j]=new.split('\n')
    open(path,'w').write('\n'.join(ls))
def claims_deps():
    deps={};
    for l in open('/tmp/deps.txt'):
        k,n,us=l.rstrip('\n').split('\t'); deps[n]=us.split()
    memo={}
    def clo(n):
        if n in memo: return memo[n]
        seen=set(); st=[n]
        while st:
            x=st.pop()
            if x in seen: continue
            seen.add(x); st+=deps.get(x,[])
        memo[n]=seen; return seen
    man=json.load(open('/verif/MANIFEST.json'))['claims']
    # module that declares each claim theorem
    decl={}
    for root,_,fs in os.walk(SRC+'/Verif'):
        for f in fs:
            if not f.endswith('.lean'): continue
            p=os.path.join(root,f); t=open(p).read()
            ns=re.search(r'^namespace (\S+)',t,re.M); ns=ns.group(1) if ns else ''
            mod='Verif.'+os.path.relpath(p,SRC+'/Verif')[:-5].replace('/','.')
            for n in re.findall(r'^(?:@\[[^\]]*\]\s*)?(?:private |protected )*(?:theorem|lemma) (\S+)',t,re.M): decl[ns+'.'+n]=mod
    global MODS
    MODS={c['property']:sorted({decl[t] for t in c['theorems'] if t in decl}) for c in man}
    return {c['property']:{t:clo(t) for t in c['theorems']} for c in man}
def run(m,cd):
    p=os.path.join(SCR,'Verif',m['file'])
    s=open(p).read()
    at=re.search(r'(?:def|structure|inductive|instance|abbrev) '+re.escape(m['definition'])+r'(?![\w\'.])',s)
    i=s.find(m['old'],at.start()) if at else -1
    if i<0:
        print('!!',m['name'],'old text not found'); return
    open(p,'w').write(s[:i]+m['new']+s[i+len(m['old']):])
    t=time.time()
    failed=[];broken=False;surv=None;msg=''
    targets=sorted({x for c in m['claims'] for x in MODS.get(c,[])})
    for it in range(12):
        r=subprocess.run(['lake','build']+targets,cwd=SCR,capture_output=True,text=True)
        out=r.stdout+r.stderr
        if surv is None: surv=r.returncode==0
        if r.returncode==0: break
        now=[]
        for f,l in re.findall(r'^error: (Verif/\S+?\.lean):(\d+):\d+',out,re.M):
            k,n,i=enclosing(os.path.join(SCR,f),int(l))
            x=(f,k,n,i)
            if x not in now: now.append(x)
        if not now: print('?? no located error',out[-800:]); break
        for x in now:
            if x[1] not in ('theorem','lemma','example'):
                # a definition outside the mutated one that no longer type-checks, or an invalid mutant
                broken=True; msg=out[-1500:]
            if x[:3] not in failed: failed.append(x[:3])
        if broken: break
        for f in set(x[0] for x in now): stub(os.path.join(SCR,f),[x for x in now if x[0]==f])
    names=[]
    for f,k,n in failed:
        src=open(os.path.join(SCR,f)).read(); ns=re.search(r'^namespace (\S+)',src,re.M).group(1)
        names.append(ns+'.'+n if k!='example' else f+' '+n)
    rest={}
    for c in m['claims']:
        rest[c]=[t for t,cl in cd.get(c,{}).items() if any(n in cl for n in names)]
    weak=[c for c in m['claims'] if not rest.get(c)]
    print(('SURVIVED' if surv else 'INVALID' if broken else 'killed' if not weak else 'WEAK'),m['name'],'%ds'%(time.time()-t),'failed',[n.split('.')[-1] for n in names][:8],'claims hit',{c:len(v) for c,v in rest.items()},flush=True)
    if broken: print(msg)
    if not os.environ.get('DRY') and not broken:
        with open(LOG,'a') as fo:
            fo.write(json.dumps(dict(id=m['name'],definition=m['definition'],file='lean/Verif/'+m['file'],edit=m['edit'],old=m['old'],new=m['new'],claims_broken=m['claims'],
              outcome='survived' if surv else 'killed' if not weak else 'claim theorem not reached',
              theorems_failed=names,claim_theorems_resting_on_failed=rest,theorems_tightened=m['tightened']))+'\n')
    # restore
    sync()
if __name__=='__main__':
    exec(open(sys.argv[1]).read())
    subprocess.run(['cp','-a','/verif/lean',SRC],check=True)
    only=sys.argv[2:]
    sync(); cd=claims_deps()
    for m in muts:
        if only and not any(o in m['name'] for o in only): continue
        run(m,cd)
    shutil.rmtree(SCR,ignore_errors=True); shutil.rmtree(SRC,ignore_errors=True)
