#!/usr/bin/env python3
"""Transcribe the constant tables of include/mranisz/shared into
lean/Verif/Model/Mranisz/Tables.lean.  The values are copied from the source text, never
recomputed; the classes carry
their own copies and the script stops if the copies that the model identifies differ."""
import re
R='/repo/include/mranisz/shared/'
def tables(f, name, n):
    t=open(R+f).read(); r=[]
    for m in re.finditer(r'\b'+name+r'\['+str(n)+r'\]\s*=\s*\{(.*?)\};',t,re.S):
        a=t[:m.start()].count('\n')+1; b=t[:m.end()].count('\n')+1
        v=[int(x.strip().replace('ULL',''),0) for x in m.group(1).split(',') if x.strip()]
        assert len(v)==n
        r.append((a,b,v))
    return r
out=["/-!","# Constant tables of include/mranisz/shared","","Generated by `tools/gen_mranisz_tables.py` from the text of the C++ sources (values copied, not","recomputed).","-/","","set_option autoImplicit false","","namespace MRS.Mran",""]
for f,name,n,lean,per,at in [('rank.hpp','masks',64,'masksTable',4,(327,862,1481)),('rank.hpp','masks2',32,'masks32Table',8,(351,)),('rank.hpp','masks',64,'masksCF32Table',4,(1086,)),('rank.hpp','masks',64,'masksLeTable',4,(3165,4813)),('rank.hpp','masks2',64,'masks2Table',4,(3189,4837)),('rank.hpp','masks3',64,'masks3Table',4,(3213,4861)),('select.hpp','popcntLUT',256,'popcntTable',32,(507,1212,2703,4341))]:
    ts=[x for x in tables(f,name,n) if x[0] in at]
    assert ts and all(x[2]==ts[0][2] for x in ts), (name,[x[:2] for x in ts])
    where=", ".join("%d-%d"%(a,b) for a,b,_ in ts)
    print(name,where)
    out.append("/-- `%s`, include/mranisz/shared/%s: %s"%(name,f,"identical copies at lines" if len(ts)>1 else "lines"))
    out.append("%s. -/"%where)
    v=ts[0][2]
    out.append("def %s : List Nat := ["%lean)
    fmt=(lambda x:"0x%016X"%x) if per==4 else (lambda x:"0x%08X"%x) if per==8 else str
    out.append(",\n".join("  "+", ".join(fmt(x) for x in v[i:i+per]) for i in range(0,n,per))+"]")
    out.append("")
out.append("end MRS.Mran")
open('/verif/lean/Verif/Model/Mranisz/Tables.lean','w').write("\n".join(out)+"\n")
