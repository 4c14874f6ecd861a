import json
exp=json.load(open('exp.json'))
for l in open('out.txt'):
    if '\t[' not in l: continue
    n,st,ev=l.rstrip('\n').split('\t',2)
    evs=json.loads(ev)
    ents=[e for e in evs if 'LINT' not in e]; lint=[e for e in evs if 'LINT' in e]
    e=exp[n]
    ok = None if e is None else ents==e
    print(n,st,ok,[(x['LINT'],x['fig'],x['row']) for x in lint][:6])
    if ok is False:
        print('  exp',json.dumps(e,ensure_ascii=False)[:1500]); print('  got',json.dumps(ents,ensure_ascii=False)[:1500])
