#!/usr/bin/env python3
"""Transcribe the constant tables of /repo into lean/Verif/Model/Tables.lean.
The values are copied from the source text, never recomputed."""
import re
R='/repo/include/'
SRC=[('rank_select_algorithms/common.hpp','lt_cnt','ltCnt','Nat'),
     ('rank_select_algorithms/common.hpp','ps_overflow','psOverflow','Nat'),
     ('rank_select_algorithms/common.hpp','lt_sel','ltSel','Nat'),
     ('rank_select_algorithms/common.hpp','select_in_byte','selectInByte','Nat'),
     ('segment_tree/avx2/tables.hpp','update_4_64','update_4_64','Int'),
     ('segment_tree/avx2/tables.hpp','update_8_32','update_8_32','Int'),
     ('segment_tree/avx2/tables.hpp','update_16_16','update_16_16','Int'),
     ('segment_tree/avx512/tables.hpp','update_8_64','update_8_64','Int'),
     ('segment_tree/avx512/tables.hpp','update_16_32','update_16_32','Int'),
     ('segment_tree/avx512/tables.hpp','update_32_16','update_32_16','Int')]
PER={'ps_overflow':1,'update_4_64':4,'update_8_32':8,'update_16_16':16,'update_8_64':8,'update_16_32':16,'update_32_16':32}
out=["/-!","# Constant tables","","Generated by `tools/gen_tables.py` from the text of the C++ sources (values copied, not","recomputed).","-/","","set_option autoImplicit false","set_option maxRecDepth 100000","","namespace MRS.Tables","","/-- The table entry `0`. -/","abbrev o : Int := 0","/-- The table entry `+1`. -/","abbrev p : Int := 1","/-- The table entry `-1`. -/","abbrev n : Int := -1",""]
for f,c,l,ty in SRC:
    t=open(R+f).read()
    m=re.search(r'\b'+c+r'\[[^\]]*\][^={;]*=\s*\{(.*?)\};',t,re.S)
    a=t[:m.start()].count('\n')+1; b=t[:m.end()].count('\n')+1
    body=re.sub(r'//.*','',m.group(1))
    vals=[x.strip().replace('ULL','').replace('+','') for x in body.split(',') if x.strip()]
    vals=[str(int(v,0)) if ty=='Nat' else {'0':'o','1':'p','-1':'n'}[v] for v in vals]
    print(c,len(vals),a,b)
    out.append("/-- `%s`, include/%s lines %d-%d (%d entries). -/"%(c,f,a,b,len(vals)))
    per=PER.get(c,32)
    out[-1]=out[-1].replace(" -/",", %d per row. -/"%per)
    out.append("def %s : List (List %s) := ["%(l,ty))
    rows=["["+", ".join(vals[i:i+per])+"]" for i in range(0,len(vals),per)]
    out.append("  "+(",\n  ".join(rows))+"]")
    out.append("")
out.append("end MRS.Tables")
open('/verif/lean/Verif/Model/Tables.lean','w').write("\n".join(out)+"\n")
