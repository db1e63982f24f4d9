"""Parse /repo/source/ass_leg_function.cc into straight-line programs."""
import re
from fractions import Fraction as Fr
SRC='/repo/source/ass_leg_function.cc'
src=open(SRC).read()
lines=src.split('\n')
tok=re.compile(r'\s*(?:(\d+\.\d*(?:e[+-]?\d+)?|\d+)|([A-Za-z_]\w*)|(.))')
def tokens(s):
    out=[]
    for m in tok.finditer(s):
        if m.group(1): out.append(('n',m.group(1)))
        elif m.group(2): out.append(('i',m.group(2)))
        elif m.group(3).strip(): out.append(('o',m.group(3)))
    return out
class Ps:
    def __init__(s,t): s.t=t; s.i=0
    def peek(s): return s.t[s.i] if s.i<len(s.t) else ('e','')
    def eat(s,v=None):
        x=s.peek(); s.i+=1
        assert v is None or x[1]==v,(x,v,s.t)
        return x
    def expr(s):
        l=s.term()
        while s.peek() in(('o','+'),('o','-')):
            o=s.eat()[1]; r=s.term(); l=('add' if o=='+' else 'sub',l,r)
        return l
    def term(s):
        l=s.unary()
        while s.peek() in(('o','*'),('o','/')):
            o=s.eat()[1]; r=s.unary(); l=('mul' if o=='*' else 'div',l,r)
        return l
    def unary(s):
        if s.peek()==('o','-'): s.eat(); return ('neg',s.unary())
        return s.prim()
    def prim(s):
        k,v=s.eat()
        if k=='n': return ('num',v)
        if k=='o' and v=='(':
            e=s.expr(); s.eat(')'); return e
        if k=='i':
            if v=='sqrt': s.eat('('); e=s.expr(); s.eat(')'); return ('sqrt',e)
            if v=='pow': s.eat('('); a=s.expr(); s.eat(','); b=s.expr(); s.eat(')'); return ('pow',a,b)
            if v=='x': return ('x',)
            assert re.fullmatch(r't\d+',v),v
            return ('t',int(v[1:]))
        raise Exception((k,v))
def parse(s):
    p=Ps(tokens(s)); e=p.expr(); assert p.peek()[0]=='e',p.t[p.i:]; return e
progs={}
for m in re.finditer(r'double\s+AssLegFunction::P_(\d+)_(\d+)(_Deriv)?\(const double[^)]*\) const\s*\{(.*?)\n\}',src,re.S):
    n,mm,d,body=int(m.group(1)),int(m.group(2)),bool(m.group(3)),m.group(4)
    asg=[];ret=None
    for st in body.split(';'):
        st=' '.join(st.split())
        if not st: continue
        if re.fullmatch(r'double t\d+',st): continue
        if st.startswith('return'): ret=parse(st[6:]); continue
        mm2=re.fullmatch(r't(\d+) = (.*)',st); assert mm2,st
        assert ret is None
        asg.append((int(mm2.group(1)),parse(mm2.group(2))))
    l0=src.count('\n',0,m.start())+1; l1=src.count('\n',0,m.end())+1
    assert (n,mm,d) not in progs
    progs[n,mm,d]=(asg,ret,l0,l1)
wire={False:[],True:[]}
for m in re.finditer(r'(leg|leg_der)_pointers\[(\d+)\]\[(\d+)\]\s*=\s*&AssLegFunction::P_(\d+)_(\d+)(_Deriv)?;',src):
    assert (m.group(1)=='leg_der')==bool(m.group(6)),m.group(0)
    wire[m.group(1)=='leg_der'].append(tuple(map(int,m.group(2,3,4,5))))
def num(v): return Fr(v)
# normal form: (k, a, j, poly) value = sqrt(k)^a * s^j * p ; k global per program
def padd(p,q):
    r=[Fr(0)]*max(len(p),len(q))
    for i,c in enumerate(p): r[i]+=c
    for i,c in enumerate(q): r[i]+=c
    return r
def pmul(p,q):
    if not p or not q: return []
    r=[Fr(0)]*(len(p)+len(q)-1)
    for i,c in enumerate(p):
        if c:
            for j,d in enumerate(q): r[i+j]+=c*d
    return r
def trim(p):
    p=list(p)
    while p and p[-1]==0: p.pop()
    return p
W=[Fr(1),Fr(0),Fr(-1)]
class NF:
    def __init__(s,a,j,p): s.a=a; s.j=j; s.p=trim(p)
def lower(u,j):
    assert (u.j-j)%2==0 and u.j>=j
    p=u.p
    for _ in range((u.j-j)//2): p=pmul(p,W)
    return p
def ev(e,env,K):
    o=e[0]
    if o=='num': return NF(0,0,[num(e[1])])
    if o=='x': return NF(0,0,[Fr(0),Fr(1)])
    if o=='t': return env[e[1]]
    if o in('add','sub'):
        u,v=ev(e[1],env,K),ev(e[2],env,K)
        if o=='sub': v=NF(v.a,v.j,[-c for c in v.p])
        if not u.p: return v
        if not v.p: return u
        assert u.a==v.a,(u.a,v.a)
        j=min(u.j,v.j)
        return NF(u.a,j,padd(lower(u,j),lower(v,j)))
    if o=='neg':
        u=ev(e[1],env,K); return NF(u.a,u.j,[-c for c in u.p])
    if o=='mul':
        u,v=ev(e[1],env,K),ev(e[2],env,K)
        return NF(u.a+v.a,u.j+v.j,pmul(u.p,v.p))
    if o=='div':
        u,v=ev(e[1],env,K),ev(e[2],env,K)
        if len(v.p)==1: return NF(u.a-v.a,u.j-v.j,[c/v.p[0] for c in u.p])
        assert v.p==W,v.p
        return NF(u.a-v.a,u.j-v.j-2,u.p)
    if o=='sqrt':
        u=ev(e[1],env,K)
        assert u.a==0 and u.j==0
        if len(u.p)==1:
            assert K.get('k') in(None,u.p[0]); K['k']=u.p[0]; return NF(1,0,[Fr(1)])
        assert u.p==W,u.p
        return NF(0,1,[Fr(1)])
    if o=='pow':
        u,v=ev(e[1],env,K),ev(e[2],env,K)
        assert len(v.p)==1 and v.a==0 and v.j==0 
        x=v.p[0]; 
        if x.denominator==1:
            r=NF(0,0,[Fr(1)])
            for _ in range(x.numerator): r=NF(r.a+u.a,r.j+u.j,pmul(r.p,u.p))
            return r
        assert x.denominator==2 and u.p==W,(x,u.p)
        return NF(0,x.numerator,[Fr(1)])
    raise Exception(o)
def run(key):
    asg,ret,_,_=progs[key]; env={};K={}
    for t,e in asg: env[t]=ev(e,env,K)
    r=ev(ret,env,K)
    return K.get('k',Fr(1)),r
from math import factorial,isqrt
def rod(n,m):
    p=[Fr(1)]
    for _ in range(n): p=pmul(p,[Fr(-1),Fr(0),Fr(1)])
    for _ in range(n+m): p=[i*c for i,c in enumerate(p)][1:]
    return [c/(2**n*factorial(n)) for c in p]
def isq(f): 
    a,b=isqrt(f.numerator),isqrt(f.denominator)
    return Fr(a,b) if a*a==f.numerator and b*b==f.denominator else None
if __name__=='__main__':
    print(len(progs),len(wire[0]),len(wire[1]))
    from collections import Counter
    ops=Counter(); js=Counter()
    bad=[]
    for n in range(21):
        for m in range(n+1):
            for d in (False,True):
                try: k,r=run((n,m,d))
                except AssertionError as ex: bad.append((n,m,d,repr(ex))); continue
                f=Fr(factorial(n-m),factorial(n+m))
                lam=isq(f*k)   # sqrt f = lam/sqrt k
                if lam is None: bad.append((n,m,d,'sqrt',k)); continue
                if not d: tj,tp=m,[(-1)**m*lam/k*c for c in rod(n,m)]
                else:
                    p=[(-1)**m*lam/k*c for c in rod(n,m)]
                    dp=[i*c for i,c in enumerate(p)][1:]
                    tj=m-2
                    tp=padd(pmul(W,dp),[-m*c for c in [Fr(0)]+p])
                # value sqrt(k)*s^tj*tp
                js[(d,m,r.j,r.a)]+=1
                jj=min(tj,r.j)
                if (tj-r.j)%2: bad.append((n,m,d,'parity',tj,r.j)); continue
                a=trim(lower(r,jj)); b=trim(lower(NF(0,tj,tp),jj))
                if r.a==0 and k!=1: bad.append((n,m,d,'a0',k)); continue
                if a!=b: 
                    ratio=[float(x/y) if y else None for x,y in zip(a,b)]
                    bad.append((n,m,d,'val',ratio[:6]))
    for b in bad: print(b)
    print(len(bad))
    print(sorted(js.items()))
