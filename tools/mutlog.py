#!/usr/bin/env python3
"""Writes seeded/LOG.jsonl from the raw results of the mutation runs (scratch directory, first argument)."""
import json,sys,os
raw=sys.argv[1]
tight=json.load(open(os.path.join(os.path.dirname(__file__),'tightened.json')))
out=[]
for l in open(raw):
    r=json.loads(l)
    t=tight.get(r['id'],{})
    hit=[h for h in r.get('affected',[])] if not r['hit'] else r['hit']
    e=dict(id=r['id'],definition=f"{r['file']}: {r['defn']}",edit=r['edit'],claim=r['claim'],
      theorems_failed=r['failed'],claims_failed=hit,examples_failed=r['examples'],
      theorems_tightened=t.get('tightened',[]))
    if not r['failed'] and not r['examples'] : e['outcome']='survived: '+t.get('note','')
    elif t.get('note'): e['outcome']=t['note']
    out.append(json.dumps(e,ensure_ascii=False))
open(os.path.join(os.path.dirname(__file__),'..','seeded','LOG.jsonl'),'w').write('\n'.join(out)+'\n')
print(len(out))
