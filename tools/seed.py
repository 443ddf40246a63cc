"""Apply wrong-program edits to a scratch copy of the model and report which theorems fail.

usage: seed.py seeds.json   (list of {file, old, new, definition, edit, breaks})
Each failing proof is replaced by sorry so that the build goes on; a theorem of the manifest is
reported as failed when it then depends on sorry.
"""
import json, re, subprocess, sys, os, shutil
SRC=os.environ.get('SEED_SRC','/verif/lean'); SC='/tmp/scratch/lean'
START=re.compile(r'^(theorem|lemma|example|def|structure|inductive|abbrev|instance|/--|/-!|end |namespace |set_option|@\[|private |open |omit |section|variable)')
def sh(c, **k): return subprocess.run(c, shell=True, capture_output=True, text=True, **k)
def sync():
    os.makedirs('/tmp/scratch', exist_ok=True)
    sh(f'rm -rf {SC} && cp -a {SRC} {SC}')
def build(target='Verif'): return sh(f'lake build {target} 2>&1', cwd=SC).stdout
def sorry_out(path, line):
    L=open(path).read().split('\n')
    i=line-1
    while i>=0 and not re.match(r'^(theorem|lemma|example|def|abbrev|instance|private )', L[i]): i-=1
    j=i+1
    while j<len(L) and not START.match(L[j]): j+=1
    head=L[i]; name=re.split(r'[\s:({]', head.split(None,1)[1] if ' ' in head else head)[0]
    if head.startswith('example'):
        d=i-1
        while d>=0 and L[d].startswith('set_option'): d-=1
        if L[d].rstrip().endswith('-/'):
            while not L[d].startswith('/--'): d-=1
            i=d
        L[i:j]=['']*(j-i); open(path,'w').write('\n'.join(L)); return 'example'
    if not head.startswith(('theorem','lemma')): return 'DEF '+name
    if any('sorry -- seeded' in x for x in L[i:j]): return 'STUCK '+name
    m=[k for k in range(i+1,j) if re.match(r'^  \| .*(=>|,)', L[k])]
    if m and not any(re.search(r':= by$|:=$| where$', L[k]) for k in range(i,m[0])):
        L[m[0]-1]+=' := sorry -- seeded'; L[m[0]:j]=['']*(j-m[0]); open(path,'w').write('\n'.join(L)); return name
    pats=[r':= by$', r':= by .*$', r' where$', r':=$', r' := .*$']
    for pat in pats:
        for k in range(i,j):
            m=re.search(pat, L[k])
            if not m: continue
            if pat==r' where$': L[k]=L[k][:m.start()]+' := sorry -- seeded'
            else: L[k]=L[k][:m.start()]+(' ' if pat[0]==' ' else '')+':= sorry -- seeded'
            L[k+1:j]=['']*(j-k-1); open(path,'w').write('\n'.join(L)); return name
    return 'STUCK '+name
def run(seed):
    sync()
    p=f'{SC}/{seed["file"]}'
    s=open(p).read()
    if s.count(seed['old'])!=1: return {'error':f'old occurs {s.count(seed["old"])} times'}
    open(p,'w').write(s.replace(seed['old'],seed['new']))
    direct=[]; stuck=[]
    for it in range(60):
        out=build()
        errs=re.findall(r'error: (Verif/\S+\.lean|\S+?Verif/\S+\.lean):(\d+):', out)
        if not errs: break
        seen=set()
        byfile={}
        for f,l in errs:
            f=f[f.index('Verif/'):]
            byfile.setdefault(f,set()).add(int(l))
        prog=False
        for f,ls in byfile.items():
            for l in sorted(ls, reverse=True):
                r=sorry_out(f'{SC}/{f}', l)
                if r.startswith(('STUCK','DEF')): stuck.append(f'{f}:{l} {r}')
                else: prog=True; direct.append(r)
        if not prog: break
    man=json.load(open('/verif/MANIFEST.json'))
    names=sorted({t for c in man['claims'] for t in c['theorems']})
    open('/tmp/scratch/ax.lean','w').write('import Verif\n'+'\n'.join(f'#print axioms {n}' for n in names))
    out=sh('lake env lean /tmp/scratch/ax.lean 2>&1', cwd=SC).stdout
    failed=[n for n in names if re.search(r"'%s' depends on axioms:[^\]]*sorryAx"%re.escape(n), out)]
    if re.search(r': error', out): stuck.append('axiom check: '+out[:300])
    return {'direct':sorted(set(direct)), 'failed':failed, 'stuck':stuck}
if __name__=='__main__':
    seeds=json.load(open(sys.argv[1]))
    for sd in seeds:
        r=run(sd)
        print(json.dumps({'definition':sd['definition'],'edit':sd['edit'],'breaks':sd['breaks'],**r}), flush=True)
