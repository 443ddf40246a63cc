"""Append results of seed.py to seeded/LOG.jsonl. usage: seedlog.py results.out [definition=theorem ...]
A pair definition=theorem records that the theorem was added or tightened because of the seed."""
import json, sys
tight=dict(a.split('=',1) for a in sys.argv[2:])
with open('/verif/seeded/LOG.jsonl','a') as o:
    for l in open(sys.argv[1]):
        if not l.startswith('{'): continue
        r=json.loads(l)
        if 'error' in r: print('skip',r); continue
        f=[n.replace('RadSim.','') for n in r['failed']]
        f+= [d for d in r['direct'] if d!='example' and d not in f]
        key=r['definition']+'/'+r['edit']
        t=[tight[k] for k in (key,) if k in tight]
        o.write(json.dumps({'definition':r['definition'],'edit':r['edit'],'claim_broken':r['breaks'],
          'theorems_failed':f,'theorems_tightened':t})+'\n')
        if not f and not t: print('SURVIVED',key)
