"""usage: addprop.py file.py ; file defines PROPS=[(id,title,statement,quantifier,why,[anchors],status,theorems,note,what,how)]"""
import sys
ns={}
exec(open(sys.argv[1]).read(),ns)
for (i,t,s,q,w,a,st,th,n,wh,ho) in ns['PROPS']:
    p='/verif/tools/gen_props.py'; x=open(p).read()
    k=x.index("with open('/verif/properties.jsonl'")
    open(p,'w').write(x[:k]+f"p({i!r},{t!r},\n {s!r},\n {q!r},\n {w!r}, {a!r})\n"+x[k:])
    open('/verif/tools/claims.py','a').write(f"c({i!r},{st!r},{th!r},{n!r})\n")
    p='/verif/tools/how.py'; x=open(p).read(); k=x.rindex('}')
    open(p,'w').write(x[:k]+f"{i!r}:({wh!r},{ho!r}),\n"+x[k:])
