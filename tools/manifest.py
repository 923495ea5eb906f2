"""Regenerates MANIFEST.json from tools/claims.txt: lines `Cnn | status | thm thm ... | note`.
Names are completed with the namespace found in the sources."""
import json,os,re,sys
d=os.path.dirname(os.path.abspath(__file__))
full={}
for r,_,fs in os.walk(os.path.join(d,"..","lean","Verif")):
    for f in fs:
        if not f.endswith(".lean"): continue
        ns=[]
        text=re.sub(r"/-.*?-/","",open(os.path.join(r,f)).read(),flags=re.S)
        for line in text.split("\n"):
            m=re.match(r"(namespace|section|mutual|noncomputable section|end|theorem)\b\s*(\S*)",line)
            if not m: continue
            k,n=m.groups()
            if k in("namespace","section","mutual","noncomputable section"): ns.append((k,n if k!="mutual" else ""))
            elif k=="end":
                if ns and (n==ns[-1][1] or (n=="" and ns[-1][0]!="namespace")): ns.pop()
            else:
                p=[x for kk,x in ns if kk=="namespace"]
                full.setdefault(n.split(".")[-1],[]).append(".".join(p+[n.rstrip(":")]))
claims=[]
for line in open(os.path.join(d,"claims.txt")):
    line=line.strip()
    if not line or line.startswith("#"): continue
    p,st,th,note=[x.strip() for x in line.split("|",3)]
    names=[]
    for t in th.split():
        c=[x for x in full.get(t.split(".")[-1],[]) if x==t or x.endswith("."+t)]
        if len(c)!=1: print("PROBLEM",p,t,c,file=sys.stderr)
        names+=c[:1]
    claims.append({"property":p,"status":st,"theorems":names,"note":note})
json.dump({"claims":claims},open(os.path.join(d,"..","MANIFEST.json"),"w"),indent=1)
