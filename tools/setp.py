import json,sys
def setp(upd):
    p='/verif/properties.jsonl'
    L=[json.loads(l) for l in open(p) if l.strip()]
    for d in L:
        if d['id'] in upd: d.update(upd[d['id']])
    open(p,'w').write(''.join(json.dumps(d)+'\n' for d in L))
