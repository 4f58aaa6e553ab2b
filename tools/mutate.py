#!/usr/bin/env python3
"""Seeded-bug runner. Usage: mutate.py batch.py
A batch file defines M = [(file under Verif, old text, new text, claim ids, definition, what the edit does), ...].
Works in the scratch copy /tmp/mut/lean (a copy of /verif/lean with its build output); needs /tmp/mut/deps.txt
(one line per constant: name and the TDP constants it uses). Appends to /verif/seeded/LOG.jsonl."""
import sys,json,re,subprocess,os,collections
S='/tmp/mut/lean/'
deps=collections.defaultdict(set)
for l in open('/tmp/mut/deps.txt'):
    a=l.split()
    for b in a[1:]: deps[b].add(a[0])
def closure(names):
    seen=set(names);st=list(names)
    while st:
        x=st.pop()
        for y in deps.get(x,()):
            if y not in seen: seen.add(y);st.append(y)
    return seen
owner=collections.defaultdict(set)
for c in json.load(open('/verif/MANIFEST.json'))['claims']:
    for t in c['theorems']: owner[t].add(c['property'])
def enclosing(path,line,cache={}):
    L=open(S+path).read().split('\n')
    ns=[]
    cur=None
    for i,t in enumerate(L[:line]):
        m=re.match(r'namespace (\S+)',t)
        if m: ns.append(m.group(1))
        m=re.match(r'end (\S+)',t)
        if m and ns and ns[-1]==m.group(1): ns.pop()
        m=re.match(r'(?:@\[[^\]]*\] )?(?:noncomputable )?(?:private )?(theorem|lemma|def|instance|inductive|structure|example|abbrev)\b ?(\S*)',t)
        if m: cur=(m.group(1),m.group(2))
    if cur is None: return None
    k,n=cur
    if k=='example' or n in ('',':'): return 'example@%s:%d'%(path,line)
    return ''.join(x+'.' for x in ns)+n
exec(open(sys.argv[1]).read())
TIGHT=globals().get('TIGHT',{})
log=open('/verif/seeded/LOG.jsonl','a')
for k,(f,old,new,claims,dfn,desc) in enumerate(M):
    p=S+'Verif/'+f
    src=open('/verif/lean/Verif/'+f).read()
    if src.count(old)<1:
        print('!! not found',f,old[:60]); continue
    if src.count(old)>1: print('   (multiple %d, first replaced)'%src.count(old))
    open(p,'w').write(src.replace(old,new,1))
    r=subprocess.run(['lake','build'],cwd=S,capture_output=True,text=True,timeout=1500)
    out=r.stdout+r.stderr
    errs=re.findall(r'error: (Verif/\S+?\.lean):(\d+):',out)
    direct=[]
    for a,b in errs:
        e=enclosing(a,int(b))
        if e and e not in direct: direct.append(e)
    cl=sorted(x for x in closure([d for d in direct if not d.startswith('example')]) if x in owner)
    want=[c for c in claims.split()]
    hit=[x for x in cl if any(c in owner[x] for c in want)]
    status='failed' if r.returncode else 'SURVIVED'
    print(k,status,f,'|',desc,'| direct:',direct[:4],'| claims hit:',sorted(set().union(*[owner[x] for x in cl])))
    missing=[c for c in want if not any(c in owner[x] for x in cl)]
    if r.returncode and missing: print('   !! expected claims not hit:',missing)
    if not os.environ.get('DRY'):
        log.write(json.dumps({"definition":dfn,"file":"lean/Verif/"+f,"edit":desc,"old":old,"new":new,"claim_broken":want,
          "outcome":status,"failed_directly":direct,"theorems_failed":hit if hit else cl,"theorems_tightened":TIGHT.get(k,[])},ensure_ascii=False)+"\n"); log.flush()
    open(p,'w').write(src)
