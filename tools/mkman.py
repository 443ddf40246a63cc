import json,re,glob,subprocess,sys
# claims: dict id -> (status, [theorems], note)
exec(open('/verif/tools/claims.py').read())
names=[]
ns={}
allthm=set()
for f in glob.glob('/verif/lean/Verif/**/*.lean',recursive=True):
    cur=[]
    for l in open(f):
        m=re.match(r'namespace (\S+)',l)
        if m: cur.append(m.group(1))
        m=re.match(r'end (\S+)',l)
        if m and cur and cur[-1]==m.group(1): cur.pop()
        m=re.match(r'(?:@\[[^\]]*\]\s*)?(?:protected |private )?theorem (\S+)',l)
        if m: allthm.add('.'.join(cur+[m.group(1)]))
out=[]
props=[json.loads(l)['id'] for l in open('/verif/properties.jsonl')]
for p in props:
    if p in claims:
        st,th,note=claims[p]
        for t in th:
            if 'RadSim.'+t not in allthm: print("MISSING",p,t)
        out.append(dict(property=p,status=st,theorems=['RadSim.'+t for t in th],note=note))
    else:
        print("no claim",p)
json.dump({"claims":out},open('/verif/MANIFEST.json','w'),indent=1)
used={t for c in out for t in c['theorems']}
for t in sorted(allthm):
    if re.match(r'RadSim\.(?:\w+\.)*C\d\d',t) and t not in used: print("unlisted",t)
with open('/tmp/ax.lean','w') as f:
    f.write("import Verif\n")
    for t in sorted(used): f.write(f"#print axioms {t}\n")
