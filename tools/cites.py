#!/usr/bin/env python3
"""Check the /repo citations in the Lean files: the file exists, the lines exist, and when a doc
comment starts with a code name, that name occurs in (or just before) the first cited range."""
import re,glob,os,sys
bad=0; n=0
idx={}
for r,_,fs in os.walk('/repo'):
    for f in fs: idx.setdefault(f,[]).append(os.path.join(r,f))
for p in sorted(glob.glob('/verif/lean/Verif/**/*.lean',recursive=True)):
    s=open(p).read()
    for m in re.finditer(r'/--(.*?)-/',s,re.S):
        doc=m.group(1); line=s[:m.start()].count('\n')+1
        lead=re.match(r'\s*`([A-Za-z_:~]+)`(?:,|\s*\()',doc)
        first=True
        for c in re.finditer(r'([\w./\-]+\.(?:cpp|hpp|h|cc|py|tcc)):([\d,\-]+\d)',doc):
            n+=1
            path='/repo/'+c.group(1)
            if not os.path.exists(path):
                k=idx.get(os.path.basename(c.group(1)),[])
                if '/' in c.group(1) or len(k)!=1:
                    # short form: must be named in full elsewhere in this file
                    full=set(re.findall(r'[\w./\-]*/'+re.escape(os.path.basename(c.group(1))),s))
                    k=['/repo/'+x for x in full if os.path.exists('/repo/'+x)]
                if len(k)!=1: print(p,line,'NOFILE',c.group(0)); bad+=1; continue
                path=k[0]
            L=open(path,errors='replace').read().split('\n')
            body=''
            for rg in c.group(2).split(','):
                a,_,b=rg.partition('-'); a=int(a); b=int(b or a)
                if a>b or b>len(L): print(p,line,'RANGE',c.group(0)); bad+=1
                body+='\n'.join(L[max(0,a-4):b+1])+'\n'
            if first and lead:
                name=lead.group(1).split('::')[-1]
                if name not in body: print(p,line,'NAME',lead.group(1),c.group(0)); bad+=1
            first=False
print(n,'citations,',bad,'to look at')
import json
for l in open('/verif/properties.jsonl'):
    o=json.loads(l)
    for a in o['anchors']:
        f,_,r=a.partition(':')
        if not os.path.exists('/repo/'+f): print(o['id'],'NOFILE',a); continue
        src=open('/repo/'+f,errors='replace').read(); m=len(src.split('\n'))
        for rg in filter(None,(z.strip() for z in r.split(','))):
            if re.fullmatch(r'\d+(-\d+)?',rg):
                x,_,y=rg.partition('-')
                if int(y or x)>m or int(x)>int(y or x): print(o['id'],'RANGE',a)
            else:
                for w in re.findall(r'[A-Za-z_]\w+',rg):
                    if w not in src: print(o['id'],'NAME',w,'in',f)
