"""upd(id, **fields): replace fields of a property, or append a new property."""
import json
P='/verif/properties.jsonl'
def load(): return [json.loads(l) for l in open(P) if l.strip()]
def save(L): open(P,'w').write(''.join(json.dumps(d,ensure_ascii=False)+'\n' for d in L))
def upd(id,**f):
    L=load()
    for d in L:
        if d['id']==id:
            d.update(f); save(L); return
    d={'id':id}; d.update(f)
    assert set(d)>={'id','title','statement','quantifier','why_tests_cant','anchors'}
    L.append(d); save(L)
