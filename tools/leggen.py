#!/usr/bin/env python3
"""Generate lean/Verif/Legendre/Table/*.lean from /repo/source/ass_leg_function.cc: the programs are a literal transcription
of the function bodies; the numbers k, r, q in the checks are certificates found here and verified by the kernel."""
import sys,os
sys.path.insert(0,'/verif/tools')
from legparse import *
OUT='/verif/lean/Verif/Legendre/Table'
os.makedirs(OUT,exist_ok=True)
def emit(e):
    o=e[0]
    if o=='num':
        v=Fr(e[1]); assert v.denominator==1
        return '(num %d)'%v.numerator
    if o=='x': return 'x'
    if o=='t': return '(t %d)'%e[1]
    if o=='pow':
        assert e[2]==('num','0.2e1'); return '(sq %s)'%emit(e[1])
    return '(%s %s)'%(o,' '.join(emit(c) for c in e[1:]))
def wrap(s,w=118,ind='    '):
    out=[];cur=''
    for t in s.split(' '):
        if cur and len(cur)+1+len(t)>w: out.append(cur); cur=ind+t
        else: cur=cur+(' ' if cur else '')+t
    out.append(cur); return '\n'.join(out)
def prog(key):
    asg,ret,l0,l1=progs[key]
    b='[%s]'%', '.join('(%d, %s)'%(t,emit(e)) for t,e in asg)
    return wrap('  ⟨%s, %s⟩'%(b,emit(ret)))
for n in range(21):
    f=['import Verif.Legendre.Check','',
       '/-! Generated by tools/leggen.py from source/ass_leg_function.cc: the functions `P_%d_m` and `P_%d_m_Deriv`. -/'%(n,n),'',
       'namespace PiBem.Legendre.Table','','open Ex','']
    certs=[]
    for m in range(n+1):
        fr=Fr(factorial(n-m),factorial(n+m))
        for d in (False,True):
            key=(n,m,d); _,_,l0,l1=progs[key]
            k,_=run(key); lam=isq(fr*k)
            nm='P_%d_%d%s'%(n,m,'_Deriv' if d else '')
            f.append('/-- `%s` (ass_leg_function.cc:%d-%d). -/'%(nm,l0,l1))
            f.append('def %s : Prog :='%nm); f.append(prog(key)); f.append('')
        certs.append('(%d, %d, %d)'%(k,lam.numerator,lam.denominator))
        ks=run((n,m,False))[0]; assert ks==k
    f.append('/-- The functions `P_%d_m`. -/'%n)
    f.append(wrap('def vals%d : List Prog := [%s]'%(n,', '.join('P_%d_%d'%(n,m) for m in range(n+1))))); f.append('')
    f.append('/-- The functions `P_%d_m_Deriv`. -/'%n)
    f.append(wrap('def ders%d : List Prog := [%s]'%(n,', '.join('P_%d_%d_Deriv'%(n,m) for m in range(n+1))))); f.append('')
    f.append('/-- Certificates. -/')
    f.append(wrap('def certs%d : List (ℕ × ℕ × ℕ) := [%s]'%(n,', '.join(certs)))); f.append('')
    f.append('theorem row%d : checkRow %d 0 certs%d vals%d ders%d = true := by decide +kernel'%(n,n,n,n,n)); f.append('')
    f.append('end PiBem.Legendre.Table')
    open('%s/T%02d.lean'%(OUT,n),'w').write('\n'.join(f)+'\n')

def al(d):
    import re
    ls=[i+1 for i,l in enumerate(lines) if re.search(r'\b%s_pointers\['%('leg_der' if d else 'leg'),l) and '=' in l and 'resize' not in l]
    return ls[0],ls[-1]
f=['import Verif.Legendre.Table.T%02d'%n for n in range(21)]
f+=['','/-! Generated by tools/leggen.py from source/ass_leg_function.cc: tables of pointers. -/','','namespace PiBem.Legendre.Table','']
for d in (False,True):
    nm='derWires' if d else 'valWires'
    a,b=al(d)
    f.append('/-- Assignments `%s_pointers[n][m] = &P_n\'_m\'%s` of the constructor, in order'%('leg_der' if d else 'leg','_Deriv' if d else ''))
    f.append('(ass_leg_function.cc:%d-%d), as `(n, m, n\', m\')`. -/'%(a,b))
    f.append('def %s : List (ℕ × ℕ × ℕ × ℕ) :='%nm)
    f.append(wrap('  [%s]'%', '.join('(%d, %d, %d, %d)'%w for w in wire[d]))); f.append('')
for d in (False,True):
    nm='ders' if d else 'vals'
    f.append('/-- All functions, by degree and order. -/')
    f.append(wrap('def %s : List (List Prog) := [%s]'%(nm,', '.join('%s%d'%(nm,n) for n in range(21))))); f.append('')
f.append('/-- All certificates. -/')
f.append(wrap('def certs : List (List (ℕ × ℕ × ℕ)) := [%s]'%', '.join('certs%d'%n for n in range(21)))); f.append('')
f.append('/-- All rows pass the check. -/')
f.append('theorem rows (n : ℕ) (hn : n < 21) : ∃ c p d, certs[n]? = some c ∧ vals[n]? = some p ∧ ders[n]? = some d ∧')
f.append('    checkRow n 0 c p d = true := by')
f.append('  match n, hn with')
for n in range(21): f.append('  | %d, _ => exact ⟨certs%d, vals%d, ders%d, rfl, rfl, rfl, row%d⟩'%(n,n,n,n,n))
f.append('  | n + 21, h => exact absurd h (by omega)')
f.append(''); f.append('end PiBem.Legendre.Table')
open('/verif/lean/Verif/Legendre/Table.lean','w').write('\n'.join(f)+'\n')
