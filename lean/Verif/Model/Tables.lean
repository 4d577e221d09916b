/-!
# Constant tables

Generated by `tools/gen_tables.py` from the text of the C++ sources (values copied, not
recomputed).
-/

set_option autoImplicit false
set_option maxRecDepth 100000

namespace MRS.Tables

/-- The table entry `0`. -/
abbrev o : Int := 0
/-- The table entry `+1`. -/
abbrev p : Int := 1
/-- The table entry `-1`. -/
abbrev n : Int := -1

/-- `lt_cnt`, include/rank_select_algorithms/common.hpp lines 14-25 (256 entries)., 32 per row. -/
def ltCnt : List (List Nat) := [
  [0, 1, 1, 2, 1, 2, 2, 3, 1, 2, 2, 3, 2, 3, 3, 4, 1, 2, 2, 3, 2, 3, 3, 4, 2, 3, 3, 4, 3, 4, 4, 5],
  [1, 2, 2, 3, 2, 3, 3, 4, 2, 3, 3, 4, 3, 4, 4, 5, 2, 3, 3, 4, 3, 4, 4, 5, 3, 4, 4, 5, 4, 5, 5, 6],
  [1, 2, 2, 3, 2, 3, 3, 4, 2, 3, 3, 4, 3, 4, 4, 5, 2, 3, 3, 4, 3, 4, 4, 5, 3, 4, 4, 5, 4, 5, 5, 6],
  [2, 3, 3, 4, 3, 4, 4, 5, 3, 4, 4, 5, 4, 5, 5, 6, 3, 4, 4, 5, 4, 5, 5, 6, 4, 5, 5, 6, 5, 6, 6, 7],
  [1, 2, 2, 3, 2, 3, 3, 4, 2, 3, 3, 4, 3, 4, 4, 5, 2, 3, 3, 4, 3, 4, 4, 5, 3, 4, 4, 5, 4, 5, 5, 6],
  [2, 3, 3, 4, 3, 4, 4, 5, 3, 4, 4, 5, 4, 5, 5, 6, 3, 4, 4, 5, 4, 5, 5, 6, 4, 5, 5, 6, 5, 6, 6, 7],
  [2, 3, 3, 4, 3, 4, 4, 5, 3, 4, 4, 5, 4, 5, 5, 6, 3, 4, 4, 5, 4, 5, 5, 6, 4, 5, 5, 6, 5, 6, 6, 7],
  [3, 4, 4, 5, 4, 5, 5, 6, 4, 5, 5, 6, 5, 6, 6, 7, 4, 5, 5, 6, 5, 6, 6, 7, 5, 6, 6, 7, 6, 7, 7, 8]]

/-- `ps_overflow`, include/rank_select_algorithms/common.hpp lines 28-50 (65 entries)., 1 per row. -/
def psOverflow : List (List Nat) := [
  [9259542123273814144],
  [9187201950435737471],
  [9114861777597660798],
  [9042521604759584125],
  [8970181431921507452],
  [8897841259083430779],
  [8825501086245354106],
  [8753160913407277433],
  [8680820740569200760],
  [8608480567731124087],
  [8536140394893047414],
  [8463800222054970741],
  [8391460049216894068],
  [8319119876378817395],
  [8246779703540740722],
  [8174439530702664049],
  [8102099357864587376],
  [8029759185026510703],
  [7957419012188434030],
  [7885078839350357357],
  [7812738666512280684],
  [7740398493674204011],
  [7668058320836127338],
  [7595718147998050665],
  [7523377975159973992],
  [7451037802321897319],
  [7378697629483820646],
  [7306357456645743973],
  [7234017283807667300],
  [7161677110969590627],
  [7089336938131513954],
  [7016996765293437281],
  [6944656592455360608],
  [6872316419617283935],
  [6799976246779207262],
  [6727636073941130589],
  [6655295901103053916],
  [6582955728264977243],
  [6510615555426900570],
  [6438275382588823897],
  [6365935209750747224],
  [6293595036912670551],
  [6221254864074593878],
  [6148914691236517205],
  [6076574518398440532],
  [6004234345560363859],
  [5931894172722287186],
  [5859553999884210513],
  [5787213827046133840],
  [5714873654208057167],
  [5642533481369980494],
  [5570193308531903821],
  [5497853135693827148],
  [5425512962855750475],
  [5353172790017673802],
  [5280832617179597129],
  [5208492444341520456],
  [5136152271503443783],
  [5063812098665367110],
  [4991471925827290437],
  [4919131752989213764],
  [4846791580151137091],
  [4774451407313060418],
  [4702111234474983745],
  [4629771061636907072]]

/-- `lt_sel`, include/rank_select_algorithms/common.hpp lines 53-148 (2048 entries)., 32 per row. -/
def ltSel : List (List Nat) := [
  [0, 0, 1, 0, 2, 0, 1, 0, 3, 0, 1, 0, 2, 0, 1, 0, 4, 0, 1, 0, 2, 0, 1, 0, 3, 0, 1, 0, 2, 0, 1, 0],
  [5, 0, 1, 0, 2, 0, 1, 0, 3, 0, 1, 0, 2, 0, 1, 0, 4, 0, 1, 0, 2, 0, 1, 0, 3, 0, 1, 0, 2, 0, 1, 0],
  [6, 0, 1, 0, 2, 0, 1, 0, 3, 0, 1, 0, 2, 0, 1, 0, 4, 0, 1, 0, 2, 0, 1, 0, 3, 0, 1, 0, 2, 0, 1, 0],
  [5, 0, 1, 0, 2, 0, 1, 0, 3, 0, 1, 0, 2, 0, 1, 0, 4, 0, 1, 0, 2, 0, 1, 0, 3, 0, 1, 0, 2, 0, 1, 0],
  [7, 0, 1, 0, 2, 0, 1, 0, 3, 0, 1, 0, 2, 0, 1, 0, 4, 0, 1, 0, 2, 0, 1, 0, 3, 0, 1, 0, 2, 0, 1, 0],
  [5, 0, 1, 0, 2, 0, 1, 0, 3, 0, 1, 0, 2, 0, 1, 0, 4, 0, 1, 0, 2, 0, 1, 0, 3, 0, 1, 0, 2, 0, 1, 0],
  [6, 0, 1, 0, 2, 0, 1, 0, 3, 0, 1, 0, 2, 0, 1, 0, 4, 0, 1, 0, 2, 0, 1, 0, 3, 0, 1, 0, 2, 0, 1, 0],
  [5, 0, 1, 0, 2, 0, 1, 0, 3, 0, 1, 0, 2, 0, 1, 0, 4, 0, 1, 0, 2, 0, 1, 0, 3, 0, 1, 0, 2, 0, 1, 0],
  [0, 0, 0, 1, 0, 2, 2, 1, 0, 3, 3, 1, 3, 2, 2, 1, 0, 4, 4, 1, 4, 2, 2, 1, 4, 3, 3, 1, 3, 2, 2, 1],
  [0, 5, 5, 1, 5, 2, 2, 1, 5, 3, 3, 1, 3, 2, 2, 1, 5, 4, 4, 1, 4, 2, 2, 1, 4, 3, 3, 1, 3, 2, 2, 1],
  [0, 6, 6, 1, 6, 2, 2, 1, 6, 3, 3, 1, 3, 2, 2, 1, 6, 4, 4, 1, 4, 2, 2, 1, 4, 3, 3, 1, 3, 2, 2, 1],
  [6, 5, 5, 1, 5, 2, 2, 1, 5, 3, 3, 1, 3, 2, 2, 1, 5, 4, 4, 1, 4, 2, 2, 1, 4, 3, 3, 1, 3, 2, 2, 1],
  [0, 7, 7, 1, 7, 2, 2, 1, 7, 3, 3, 1, 3, 2, 2, 1, 7, 4, 4, 1, 4, 2, 2, 1, 4, 3, 3, 1, 3, 2, 2, 1],
  [7, 5, 5, 1, 5, 2, 2, 1, 5, 3, 3, 1, 3, 2, 2, 1, 5, 4, 4, 1, 4, 2, 2, 1, 4, 3, 3, 1, 3, 2, 2, 1],
  [7, 6, 6, 1, 6, 2, 2, 1, 6, 3, 3, 1, 3, 2, 2, 1, 6, 4, 4, 1, 4, 2, 2, 1, 4, 3, 3, 1, 3, 2, 2, 1],
  [6, 5, 5, 1, 5, 2, 2, 1, 5, 3, 3, 1, 3, 2, 2, 1, 5, 4, 4, 1, 4, 2, 2, 1, 4, 3, 3, 1, 3, 2, 2, 1],
  [0, 0, 0, 0, 0, 0, 0, 2, 0, 0, 0, 3, 0, 3, 3, 2, 0, 0, 0, 4, 0, 4, 4, 2, 0, 4, 4, 3, 4, 3, 3, 2],
  [0, 0, 0, 5, 0, 5, 5, 2, 0, 5, 5, 3, 5, 3, 3, 2, 0, 5, 5, 4, 5, 4, 4, 2, 5, 4, 4, 3, 4, 3, 3, 2],
  [0, 0, 0, 6, 0, 6, 6, 2, 0, 6, 6, 3, 6, 3, 3, 2, 0, 6, 6, 4, 6, 4, 4, 2, 6, 4, 4, 3, 4, 3, 3, 2],
  [0, 6, 6, 5, 6, 5, 5, 2, 6, 5, 5, 3, 5, 3, 3, 2, 6, 5, 5, 4, 5, 4, 4, 2, 5, 4, 4, 3, 4, 3, 3, 2],
  [0, 0, 0, 7, 0, 7, 7, 2, 0, 7, 7, 3, 7, 3, 3, 2, 0, 7, 7, 4, 7, 4, 4, 2, 7, 4, 4, 3, 4, 3, 3, 2],
  [0, 7, 7, 5, 7, 5, 5, 2, 7, 5, 5, 3, 5, 3, 3, 2, 7, 5, 5, 4, 5, 4, 4, 2, 5, 4, 4, 3, 4, 3, 3, 2],
  [0, 7, 7, 6, 7, 6, 6, 2, 7, 6, 6, 3, 6, 3, 3, 2, 7, 6, 6, 4, 6, 4, 4, 2, 6, 4, 4, 3, 4, 3, 3, 2],
  [7, 6, 6, 5, 6, 5, 5, 2, 6, 5, 5, 3, 5, 3, 3, 2, 6, 5, 5, 4, 5, 4, 4, 2, 5, 4, 4, 3, 4, 3, 3, 2],
  [0, 0, 0, 0, 0, 0, 0, 0, 0, 0, 0, 0, 0, 0, 0, 3, 0, 0, 0, 0, 0, 0, 0, 4, 0, 0, 0, 4, 0, 4, 4, 3],
  [0, 0, 0, 0, 0, 0, 0, 5, 0, 0, 0, 5, 0, 5, 5, 3, 0, 0, 0, 5, 0, 5, 5, 4, 0, 5, 5, 4, 5, 4, 4, 3],
  [0, 0, 0, 0, 0, 0, 0, 6, 0, 0, 0, 6, 0, 6, 6, 3, 0, 0, 0, 6, 0, 6, 6, 4, 0, 6, 6, 4, 6, 4, 4, 3],
  [0, 0, 0, 6, 0, 6, 6, 5, 0, 6, 6, 5, 6, 5, 5, 3, 0, 6, 6, 5, 6, 5, 5, 4, 6, 5, 5, 4, 5, 4, 4, 3],
  [0, 0, 0, 0, 0, 0, 0, 7, 0, 0, 0, 7, 0, 7, 7, 3, 0, 0, 0, 7, 0, 7, 7, 4, 0, 7, 7, 4, 7, 4, 4, 3],
  [0, 0, 0, 7, 0, 7, 7, 5, 0, 7, 7, 5, 7, 5, 5, 3, 0, 7, 7, 5, 7, 5, 5, 4, 7, 5, 5, 4, 5, 4, 4, 3],
  [0, 0, 0, 7, 0, 7, 7, 6, 0, 7, 7, 6, 7, 6, 6, 3, 0, 7, 7, 6, 7, 6, 6, 4, 7, 6, 6, 4, 6, 4, 4, 3],
  [0, 7, 7, 6, 7, 6, 6, 5, 7, 6, 6, 5, 6, 5, 5, 3, 7, 6, 6, 5, 6, 5, 5, 4, 6, 5, 5, 4, 5, 4, 4, 3],
  [0, 0, 0, 0, 0, 0, 0, 0, 0, 0, 0, 0, 0, 0, 0, 0, 0, 0, 0, 0, 0, 0, 0, 0, 0, 0, 0, 0, 0, 0, 0, 4],
  [0, 0, 0, 0, 0, 0, 0, 0, 0, 0, 0, 0, 0, 0, 0, 5, 0, 0, 0, 0, 0, 0, 0, 5, 0, 0, 0, 5, 0, 5, 5, 4],
  [0, 0, 0, 0, 0, 0, 0, 0, 0, 0, 0, 0, 0, 0, 0, 6, 0, 0, 0, 0, 0, 0, 0, 6, 0, 0, 0, 6, 0, 6, 6, 4],
  [0, 0, 0, 0, 0, 0, 0, 6, 0, 0, 0, 6, 0, 6, 6, 5, 0, 0, 0, 6, 0, 6, 6, 5, 0, 6, 6, 5, 6, 5, 5, 4],
  [0, 0, 0, 0, 0, 0, 0, 0, 0, 0, 0, 0, 0, 0, 0, 7, 0, 0, 0, 0, 0, 0, 0, 7, 0, 0, 0, 7, 0, 7, 7, 4],
  [0, 0, 0, 0, 0, 0, 0, 7, 0, 0, 0, 7, 0, 7, 7, 5, 0, 0, 0, 7, 0, 7, 7, 5, 0, 7, 7, 5, 7, 5, 5, 4],
  [0, 0, 0, 0, 0, 0, 0, 7, 0, 0, 0, 7, 0, 7, 7, 6, 0, 0, 0, 7, 0, 7, 7, 6, 0, 7, 7, 6, 7, 6, 6, 4],
  [0, 0, 0, 7, 0, 7, 7, 6, 0, 7, 7, 6, 7, 6, 6, 5, 0, 7, 7, 6, 7, 6, 6, 5, 7, 6, 6, 5, 6, 5, 5, 4],
  [0, 0, 0, 0, 0, 0, 0, 0, 0, 0, 0, 0, 0, 0, 0, 0, 0, 0, 0, 0, 0, 0, 0, 0, 0, 0, 0, 0, 0, 0, 0, 0],
  [0, 0, 0, 0, 0, 0, 0, 0, 0, 0, 0, 0, 0, 0, 0, 0, 0, 0, 0, 0, 0, 0, 0, 0, 0, 0, 0, 0, 0, 0, 0, 5],
  [0, 0, 0, 0, 0, 0, 0, 0, 0, 0, 0, 0, 0, 0, 0, 0, 0, 0, 0, 0, 0, 0, 0, 0, 0, 0, 0, 0, 0, 0, 0, 6],
  [0, 0, 0, 0, 0, 0, 0, 0, 0, 0, 0, 0, 0, 0, 0, 6, 0, 0, 0, 0, 0, 0, 0, 6, 0, 0, 0, 6, 0, 6, 6, 5],
  [0, 0, 0, 0, 0, 0, 0, 0, 0, 0, 0, 0, 0, 0, 0, 0, 0, 0, 0, 0, 0, 0, 0, 0, 0, 0, 0, 0, 0, 0, 0, 7],
  [0, 0, 0, 0, 0, 0, 0, 0, 0, 0, 0, 0, 0, 0, 0, 7, 0, 0, 0, 0, 0, 0, 0, 7, 0, 0, 0, 7, 0, 7, 7, 5],
  [0, 0, 0, 0, 0, 0, 0, 0, 0, 0, 0, 0, 0, 0, 0, 7, 0, 0, 0, 0, 0, 0, 0, 7, 0, 0, 0, 7, 0, 7, 7, 6],
  [0, 0, 0, 0, 0, 0, 0, 7, 0, 0, 0, 7, 0, 7, 7, 6, 0, 0, 0, 7, 0, 7, 7, 6, 0, 7, 7, 6, 7, 6, 6, 5],
  [0, 0, 0, 0, 0, 0, 0, 0, 0, 0, 0, 0, 0, 0, 0, 0, 0, 0, 0, 0, 0, 0, 0, 0, 0, 0, 0, 0, 0, 0, 0, 0],
  [0, 0, 0, 0, 0, 0, 0, 0, 0, 0, 0, 0, 0, 0, 0, 0, 0, 0, 0, 0, 0, 0, 0, 0, 0, 0, 0, 0, 0, 0, 0, 0],
  [0, 0, 0, 0, 0, 0, 0, 0, 0, 0, 0, 0, 0, 0, 0, 0, 0, 0, 0, 0, 0, 0, 0, 0, 0, 0, 0, 0, 0, 0, 0, 0],
  [0, 0, 0, 0, 0, 0, 0, 0, 0, 0, 0, 0, 0, 0, 0, 0, 0, 0, 0, 0, 0, 0, 0, 0, 0, 0, 0, 0, 0, 0, 0, 6],
  [0, 0, 0, 0, 0, 0, 0, 0, 0, 0, 0, 0, 0, 0, 0, 0, 0, 0, 0, 0, 0, 0, 0, 0, 0, 0, 0, 0, 0, 0, 0, 0],
  [0, 0, 0, 0, 0, 0, 0, 0, 0, 0, 0, 0, 0, 0, 0, 0, 0, 0, 0, 0, 0, 0, 0, 0, 0, 0, 0, 0, 0, 0, 0, 7],
  [0, 0, 0, 0, 0, 0, 0, 0, 0, 0, 0, 0, 0, 0, 0, 0, 0, 0, 0, 0, 0, 0, 0, 0, 0, 0, 0, 0, 0, 0, 0, 7],
  [0, 0, 0, 0, 0, 0, 0, 0, 0, 0, 0, 0, 0, 0, 0, 7, 0, 0, 0, 0, 0, 0, 0, 7, 0, 0, 0, 7, 0, 7, 7, 6],
  [0, 0, 0, 0, 0, 0, 0, 0, 0, 0, 0, 0, 0, 0, 0, 0, 0, 0, 0, 0, 0, 0, 0, 0, 0, 0, 0, 0, 0, 0, 0, 0],
  [0, 0, 0, 0, 0, 0, 0, 0, 0, 0, 0, 0, 0, 0, 0, 0, 0, 0, 0, 0, 0, 0, 0, 0, 0, 0, 0, 0, 0, 0, 0, 0],
  [0, 0, 0, 0, 0, 0, 0, 0, 0, 0, 0, 0, 0, 0, 0, 0, 0, 0, 0, 0, 0, 0, 0, 0, 0, 0, 0, 0, 0, 0, 0, 0],
  [0, 0, 0, 0, 0, 0, 0, 0, 0, 0, 0, 0, 0, 0, 0, 0, 0, 0, 0, 0, 0, 0, 0, 0, 0, 0, 0, 0, 0, 0, 0, 0],
  [0, 0, 0, 0, 0, 0, 0, 0, 0, 0, 0, 0, 0, 0, 0, 0, 0, 0, 0, 0, 0, 0, 0, 0, 0, 0, 0, 0, 0, 0, 0, 0],
  [0, 0, 0, 0, 0, 0, 0, 0, 0, 0, 0, 0, 0, 0, 0, 0, 0, 0, 0, 0, 0, 0, 0, 0, 0, 0, 0, 0, 0, 0, 0, 0],
  [0, 0, 0, 0, 0, 0, 0, 0, 0, 0, 0, 0, 0, 0, 0, 0, 0, 0, 0, 0, 0, 0, 0, 0, 0, 0, 0, 0, 0, 0, 0, 0],
  [0, 0, 0, 0, 0, 0, 0, 0, 0, 0, 0, 0, 0, 0, 0, 0, 0, 0, 0, 0, 0, 0, 0, 0, 0, 0, 0, 0, 0, 0, 0, 7]]

/-- `select_in_byte`, include/rank_select_algorithms/common.hpp lines 151-233 (2048 entries)., 32 per row. -/
def selectInByte : List (List Nat) := [
  [8, 0, 1, 0, 2, 0, 1, 0, 3, 0, 1, 0, 2, 0, 1, 0, 4, 0, 1, 0, 2, 0, 1, 0, 3, 0, 1, 0, 2, 0, 1, 0],
  [5, 0, 1, 0, 2, 0, 1, 0, 3, 0, 1, 0, 2, 0, 1, 0, 4, 0, 1, 0, 2, 0, 1, 0, 3, 0, 1, 0, 2, 0, 1, 0],
  [6, 0, 1, 0, 2, 0, 1, 0, 3, 0, 1, 0, 2, 0, 1, 0, 4, 0, 1, 0, 2, 0, 1, 0, 3, 0, 1, 0, 2, 0, 1, 0],
  [5, 0, 1, 0, 2, 0, 1, 0, 3, 0, 1, 0, 2, 0, 1, 0, 4, 0, 1, 0, 2, 0, 1, 0, 3, 0, 1, 0, 2, 0, 1, 0],
  [7, 0, 1, 0, 2, 0, 1, 0, 3, 0, 1, 0, 2, 0, 1, 0, 4, 0, 1, 0, 2, 0, 1, 0, 3, 0, 1, 0, 2, 0, 1, 0],
  [5, 0, 1, 0, 2, 0, 1, 0, 3, 0, 1, 0, 2, 0, 1, 0, 4, 0, 1, 0, 2, 0, 1, 0, 3, 0, 1, 0, 2, 0, 1, 0],
  [6, 0, 1, 0, 2, 0, 1, 0, 3, 0, 1, 0, 2, 0, 1, 0, 4, 0, 1, 0, 2, 0, 1, 0, 3, 0, 1, 0, 2, 0, 1, 0],
  [5, 0, 1, 0, 2, 0, 1, 0, 3, 0, 1, 0, 2, 0, 1, 0, 4, 0, 1, 0, 2, 0, 1, 0, 3, 0, 1, 0, 2, 0, 1, 0],
  [8, 8, 8, 1, 8, 2, 2, 1, 8, 3, 3, 1, 3, 2, 2, 1, 8, 4, 4, 1, 4, 2, 2, 1, 4, 3, 3, 1, 3, 2, 2, 1],
  [8, 5, 5, 1, 5, 2, 2, 1, 5, 3, 3, 1, 3, 2, 2, 1, 5, 4, 4, 1, 4, 2, 2, 1, 4, 3, 3, 1, 3, 2, 2, 1],
  [8, 6, 6, 1, 6, 2, 2, 1, 6, 3, 3, 1, 3, 2, 2, 1, 6, 4, 4, 1, 4, 2, 2, 1, 4, 3, 3, 1, 3, 2, 2, 1],
  [6, 5, 5, 1, 5, 2, 2, 1, 5, 3, 3, 1, 3, 2, 2, 1, 5, 4, 4, 1, 4, 2, 2, 1, 4, 3, 3, 1, 3, 2, 2, 1],
  [8, 7, 7, 1, 7, 2, 2, 1, 7, 3, 3, 1, 3, 2, 2, 1, 7, 4, 4, 1, 4, 2, 2, 1, 4, 3, 3, 1, 3, 2, 2, 1],
  [7, 5, 5, 1, 5, 2, 2, 1, 5, 3, 3, 1, 3, 2, 2, 1, 5, 4, 4, 1, 4, 2, 2, 1, 4, 3, 3, 1, 3, 2, 2, 1],
  [7, 6, 6, 1, 6, 2, 2, 1, 6, 3, 3, 1, 3, 2, 2, 1, 6, 4, 4, 1, 4, 2, 2, 1, 4, 3, 3, 1, 3, 2, 2, 1],
  [6, 5, 5, 1, 5, 2, 2, 1, 5, 3, 3, 1, 3, 2, 2, 1, 5, 4, 4, 1, 4, 2, 2, 1, 4, 3, 3, 1, 3, 2, 2, 1],
  [8, 8, 8, 8, 8, 8, 8, 2, 8, 8, 8, 3, 8, 3, 3, 2, 8, 8, 8, 4, 8, 4, 4, 2, 8, 4, 4, 3, 4, 3, 3, 2],
  [8, 8, 8, 5, 8, 5, 5, 2, 8, 5, 5, 3, 5, 3, 3, 2, 8, 5, 5, 4, 5, 4, 4, 2, 5, 4, 4, 3, 4, 3, 3, 2],
  [8, 8, 8, 6, 8, 6, 6, 2, 8, 6, 6, 3, 6, 3, 3, 2, 8, 6, 6, 4, 6, 4, 4, 2, 6, 4, 4, 3, 4, 3, 3, 2],
  [8, 6, 6, 5, 6, 5, 5, 2, 6, 5, 5, 3, 5, 3, 3, 2, 6, 5, 5, 4, 5, 4, 4, 2, 5, 4, 4, 3, 4, 3, 3, 2],
  [8, 8, 8, 7, 8, 7, 7, 2, 8, 7, 7, 3, 7, 3, 3, 2, 8, 7, 7, 4, 7, 4, 4, 2, 7, 4, 4, 3, 4, 3, 3, 2],
  [8, 7, 7, 5, 7, 5, 5, 2, 7, 5, 5, 3, 5, 3, 3, 2, 7, 5, 5, 4, 5, 4, 4, 2, 5, 4, 4, 3, 4, 3, 3, 2],
  [8, 7, 7, 6, 7, 6, 6, 2, 7, 6, 6, 3, 6, 3, 3, 2, 7, 6, 6, 4, 6, 4, 4, 2, 6, 4, 4, 3, 4, 3, 3, 2],
  [7, 6, 6, 5, 6, 5, 5, 2, 6, 5, 5, 3, 5, 3, 3, 2, 6, 5, 5, 4, 5, 4, 4, 2, 5, 4, 4, 3, 4, 3, 3, 2],
  [8, 8, 8, 8, 8, 8, 8, 8, 8, 8, 8, 8, 8, 8, 8, 3, 8, 8, 8, 8, 8, 8, 8, 4, 8, 8, 8, 4, 8, 4, 4, 3],
  [8, 8, 8, 8, 8, 8, 8, 5, 8, 8, 8, 5, 8, 5, 5, 3, 8, 8, 8, 5, 8, 5, 5, 4, 8, 5, 5, 4, 5, 4, 4, 3],
  [8, 8, 8, 8, 8, 8, 8, 6, 8, 8, 8, 6, 8, 6, 6, 3, 8, 8, 8, 6, 8, 6, 6, 4, 8, 6, 6, 4, 6, 4, 4, 3],
  [8, 8, 8, 6, 8, 6, 6, 5, 8, 6, 6, 5, 6, 5, 5, 3, 8, 6, 6, 5, 6, 5, 5, 4, 6, 5, 5, 4, 5, 4, 4, 3],
  [8, 8, 8, 8, 8, 8, 8, 7, 8, 8, 8, 7, 8, 7, 7, 3, 8, 8, 8, 7, 8, 7, 7, 4, 8, 7, 7, 4, 7, 4, 4, 3],
  [8, 8, 8, 7, 8, 7, 7, 5, 8, 7, 7, 5, 7, 5, 5, 3, 8, 7, 7, 5, 7, 5, 5, 4, 7, 5, 5, 4, 5, 4, 4, 3],
  [8, 8, 8, 7, 8, 7, 7, 6, 8, 7, 7, 6, 7, 6, 6, 3, 8, 7, 7, 6, 7, 6, 6, 4, 7, 6, 6, 4, 6, 4, 4, 3],
  [8, 7, 7, 6, 7, 6, 6, 5, 7, 6, 6, 5, 6, 5, 5, 3, 7, 6, 6, 5, 6, 5, 5, 4, 6, 5, 5, 4, 5, 4, 4, 3],
  [8, 8, 8, 8, 8, 8, 8, 8, 8, 8, 8, 8, 8, 8, 8, 8, 8, 8, 8, 8, 8, 8, 8, 8, 8, 8, 8, 8, 8, 8, 8, 4],
  [8, 8, 8, 8, 8, 8, 8, 8, 8, 8, 8, 8, 8, 8, 8, 5, 8, 8, 8, 8, 8, 8, 8, 5, 8, 8, 8, 5, 8, 5, 5, 4],
  [8, 8, 8, 8, 8, 8, 8, 8, 8, 8, 8, 8, 8, 8, 8, 6, 8, 8, 8, 8, 8, 8, 8, 6, 8, 8, 8, 6, 8, 6, 6, 4],
  [8, 8, 8, 8, 8, 8, 8, 6, 8, 8, 8, 6, 8, 6, 6, 5, 8, 8, 8, 6, 8, 6, 6, 5, 8, 6, 6, 5, 6, 5, 5, 4],
  [8, 8, 8, 8, 8, 8, 8, 8, 8, 8, 8, 8, 8, 8, 8, 7, 8, 8, 8, 8, 8, 8, 8, 7, 8, 8, 8, 7, 8, 7, 7, 4],
  [8, 8, 8, 8, 8, 8, 8, 7, 8, 8, 8, 7, 8, 7, 7, 5, 8, 8, 8, 7, 8, 7, 7, 5, 8, 7, 7, 5, 7, 5, 5, 4],
  [8, 8, 8, 8, 8, 8, 8, 7, 8, 8, 8, 7, 8, 7, 7, 6, 8, 8, 8, 7, 8, 7, 7, 6, 8, 7, 7, 6, 7, 6, 6, 4],
  [8, 8, 8, 7, 8, 7, 7, 6, 8, 7, 7, 6, 7, 6, 6, 5, 8, 7, 7, 6, 7, 6, 6, 5, 7, 6, 6, 5, 6, 5, 5, 4],
  [8, 8, 8, 8, 8, 8, 8, 8, 8, 8, 8, 8, 8, 8, 8, 8, 8, 8, 8, 8, 8, 8, 8, 8, 8, 8, 8, 8, 8, 8, 8, 8],
  [8, 8, 8, 8, 8, 8, 8, 8, 8, 8, 8, 8, 8, 8, 8, 8, 8, 8, 8, 8, 8, 8, 8, 8, 8, 8, 8, 8, 8, 8, 8, 5],
  [8, 8, 8, 8, 8, 8, 8, 8, 8, 8, 8, 8, 8, 8, 8, 8, 8, 8, 8, 8, 8, 8, 8, 8, 8, 8, 8, 8, 8, 8, 8, 6],
  [8, 8, 8, 8, 8, 8, 8, 8, 8, 8, 8, 8, 8, 8, 8, 6, 8, 8, 8, 8, 8, 8, 8, 6, 8, 8, 8, 6, 8, 6, 6, 5],
  [8, 8, 8, 8, 8, 8, 8, 8, 8, 8, 8, 8, 8, 8, 8, 8, 8, 8, 8, 8, 8, 8, 8, 8, 8, 8, 8, 8, 8, 8, 8, 7],
  [8, 8, 8, 8, 8, 8, 8, 8, 8, 8, 8, 8, 8, 8, 8, 7, 8, 8, 8, 8, 8, 8, 8, 7, 8, 8, 8, 7, 8, 7, 7, 5],
  [8, 8, 8, 8, 8, 8, 8, 8, 8, 8, 8, 8, 8, 8, 8, 7, 8, 8, 8, 8, 8, 8, 8, 7, 8, 8, 8, 7, 8, 7, 7, 6],
  [8, 8, 8, 8, 8, 8, 8, 7, 8, 8, 8, 7, 8, 7, 7, 6, 8, 8, 8, 7, 8, 7, 7, 6, 8, 7, 7, 6, 7, 6, 6, 5],
  [8, 8, 8, 8, 8, 8, 8, 8, 8, 8, 8, 8, 8, 8, 8, 8, 8, 8, 8, 8, 8, 8, 8, 8, 8, 8, 8, 8, 8, 8, 8, 8],
  [8, 8, 8, 8, 8, 8, 8, 8, 8, 8, 8, 8, 8, 8, 8, 8, 8, 8, 8, 8, 8, 8, 8, 8, 8, 8, 8, 8, 8, 8, 8, 8],
  [8, 8, 8, 8, 8, 8, 8, 8, 8, 8, 8, 8, 8, 8, 8, 8, 8, 8, 8, 8, 8, 8, 8, 8, 8, 8, 8, 8, 8, 8, 8, 8],
  [8, 8, 8, 8, 8, 8, 8, 8, 8, 8, 8, 8, 8, 8, 8, 8, 8, 8, 8, 8, 8, 8, 8, 8, 8, 8, 8, 8, 8, 8, 8, 6],
  [8, 8, 8, 8, 8, 8, 8, 8, 8, 8, 8, 8, 8, 8, 8, 8, 8, 8, 8, 8, 8, 8, 8, 8, 8, 8, 8, 8, 8, 8, 8, 8],
  [8, 8, 8, 8, 8, 8, 8, 8, 8, 8, 8, 8, 8, 8, 8, 8, 8, 8, 8, 8, 8, 8, 8, 8, 8, 8, 8, 8, 8, 8, 8, 7],
  [8, 8, 8, 8, 8, 8, 8, 8, 8, 8, 8, 8, 8, 8, 8, 8, 8, 8, 8, 8, 8, 8, 8, 8, 8, 8, 8, 8, 8, 8, 8, 7],
  [8, 8, 8, 8, 8, 8, 8, 8, 8, 8, 8, 8, 8, 8, 8, 7, 8, 8, 8, 8, 8, 8, 8, 7, 8, 8, 8, 7, 8, 7, 7, 6],
  [8, 8, 8, 8, 8, 8, 8, 8, 8, 8, 8, 8, 8, 8, 8, 8, 8, 8, 8, 8, 8, 8, 8, 8, 8, 8, 8, 8, 8, 8, 8, 8],
  [8, 8, 8, 8, 8, 8, 8, 8, 8, 8, 8, 8, 8, 8, 8, 8, 8, 8, 8, 8, 8, 8, 8, 8, 8, 8, 8, 8, 8, 8, 8, 8],
  [8, 8, 8, 8, 8, 8, 8, 8, 8, 8, 8, 8, 8, 8, 8, 8, 8, 8, 8, 8, 8, 8, 8, 8, 8, 8, 8, 8, 8, 8, 8, 8],
  [8, 8, 8, 8, 8, 8, 8, 8, 8, 8, 8, 8, 8, 8, 8, 8, 8, 8, 8, 8, 8, 8, 8, 8, 8, 8, 8, 8, 8, 8, 8, 8],
  [8, 8, 8, 8, 8, 8, 8, 8, 8, 8, 8, 8, 8, 8, 8, 8, 8, 8, 8, 8, 8, 8, 8, 8, 8, 8, 8, 8, 8, 8, 8, 8],
  [8, 8, 8, 8, 8, 8, 8, 8, 8, 8, 8, 8, 8, 8, 8, 8, 8, 8, 8, 8, 8, 8, 8, 8, 8, 8, 8, 8, 8, 8, 8, 8],
  [8, 8, 8, 8, 8, 8, 8, 8, 8, 8, 8, 8, 8, 8, 8, 8, 8, 8, 8, 8, 8, 8, 8, 8, 8, 8, 8, 8, 8, 8, 8, 8],
  [8, 8, 8, 8, 8, 8, 8, 8, 8, 8, 8, 8, 8, 8, 8, 8, 8, 8, 8, 8, 8, 8, 8, 8, 8, 8, 8, 8, 8, 8, 8, 7]]

/-- `update_4_64`, include/segment_tree/avx2/tables.hpp lines 16-24 (32 entries)., 4 per row. -/
def update_4_64 : List (List Int) := [
  [o, p, p, p],
  [o, o, p, p],
  [o, o, o, p],
  [o, o, o, o],
  [o, n, n, n],
  [o, o, n, n],
  [o, o, o, n],
  [o, o, o, o]]

/-- `update_8_32`, include/segment_tree/avx2/tables.hpp lines 27-39 (144 entries)., 8 per row. -/
def update_8_32 : List (List Int) := [
  [p, p, p, p, p, p, p, p],
  [o, p, p, p, p, p, p, p],
  [o, o, p, p, p, p, p, p],
  [o, o, o, p, p, p, p, p],
  [o, o, o, o, p, p, p, p],
  [o, o, o, o, o, p, p, p],
  [o, o, o, o, o, o, p, p],
  [o, o, o, o, o, o, o, p],
  [o, o, o, o, o, o, o, o],
  [n, n, n, n, n, n, n, n],
  [o, n, n, n, n, n, n, n],
  [o, o, n, n, n, n, n, n],
  [o, o, o, n, n, n, n, n],
  [o, o, o, o, n, n, n, n],
  [o, o, o, o, o, n, n, n],
  [o, o, o, o, o, o, n, n],
  [o, o, o, o, o, o, o, n],
  [o, o, o, o, o, o, o, o]]

/-- `update_16_16`, include/segment_tree/avx2/tables.hpp lines 42-74 (512 entries)., 16 per row. -/
def update_16_16 : List (List Int) := [
  [p, p, p, p, p, p, p, p, p, p, p, p, p, p, p, p],
  [o, p, p, p, p, p, p, p, p, p, p, p, p, p, p, p],
  [o, o, p, p, p, p, p, p, p, p, p, p, p, p, p, p],
  [o, o, o, p, p, p, p, p, p, p, p, p, p, p, p, p],
  [o, o, o, o, p, p, p, p, p, p, p, p, p, p, p, p],
  [o, o, o, o, o, p, p, p, p, p, p, p, p, p, p, p],
  [o, o, o, o, o, o, p, p, p, p, p, p, p, p, p, p],
  [o, o, o, o, o, o, o, p, p, p, p, p, p, p, p, p],
  [o, o, o, o, o, o, o, o, p, p, p, p, p, p, p, p],
  [o, o, o, o, o, o, o, o, o, p, p, p, p, p, p, p],
  [o, o, o, o, o, o, o, o, o, o, p, p, p, p, p, p],
  [o, o, o, o, o, o, o, o, o, o, o, p, p, p, p, p],
  [o, o, o, o, o, o, o, o, o, o, o, o, p, p, p, p],
  [o, o, o, o, o, o, o, o, o, o, o, o, o, p, p, p],
  [o, o, o, o, o, o, o, o, o, o, o, o, o, o, p, p],
  [o, o, o, o, o, o, o, o, o, o, o, o, o, o, o, p],
  [n, n, n, n, n, n, n, n, n, n, n, n, n, n, n, n],
  [o, n, n, n, n, n, n, n, n, n, n, n, n, n, n, n],
  [o, o, n, n, n, n, n, n, n, n, n, n, n, n, n, n],
  [o, o, o, n, n, n, n, n, n, n, n, n, n, n, n, n],
  [o, o, o, o, n, n, n, n, n, n, n, n, n, n, n, n],
  [o, o, o, o, o, n, n, n, n, n, n, n, n, n, n, n],
  [o, o, o, o, o, o, n, n, n, n, n, n, n, n, n, n],
  [o, o, o, o, o, o, o, n, n, n, n, n, n, n, n, n],
  [o, o, o, o, o, o, o, o, n, n, n, n, n, n, n, n],
  [o, o, o, o, o, o, o, o, o, n, n, n, n, n, n, n],
  [o, o, o, o, o, o, o, o, o, o, n, n, n, n, n, n],
  [o, o, o, o, o, o, o, o, o, o, o, n, n, n, n, n],
  [o, o, o, o, o, o, o, o, o, o, o, o, n, n, n, n],
  [o, o, o, o, o, o, o, o, o, o, o, o, o, n, n, n],
  [o, o, o, o, o, o, o, o, o, o, o, o, o, o, n, n],
  [o, o, o, o, o, o, o, o, o, o, o, o, o, o, o, n]]

/-- `update_8_64`, include/segment_tree/avx512/tables.hpp lines 16-28 (128 entries)., 8 per row. -/
def update_8_64 : List (List Int) := [
  [o, p, p, p, p, p, p, p],
  [o, o, p, p, p, p, p, p],
  [o, o, o, p, p, p, p, p],
  [o, o, o, o, p, p, p, p],
  [o, o, o, o, o, p, p, p],
  [o, o, o, o, o, o, p, p],
  [o, o, o, o, o, o, o, p],
  [o, o, o, o, o, o, o, o],
  [o, n, n, n, n, n, n, n],
  [o, o, n, n, n, n, n, n],
  [o, o, o, n, n, n, n, n],
  [o, o, o, o, n, n, n, n],
  [o, o, o, o, o, n, n, n],
  [o, o, o, o, o, o, n, n],
  [o, o, o, o, o, o, o, n],
  [o, o, o, o, o, o, o, o]]

/-- `update_16_32`, include/segment_tree/avx512/tables.hpp lines 31-65 (544 entries)., 16 per row. -/
def update_16_32 : List (List Int) := [
  [p, p, p, p, p, p, p, p, p, p, p, p, p, p, p, p],
  [o, p, p, p, p, p, p, p, p, p, p, p, p, p, p, p],
  [o, o, p, p, p, p, p, p, p, p, p, p, p, p, p, p],
  [o, o, o, p, p, p, p, p, p, p, p, p, p, p, p, p],
  [o, o, o, o, p, p, p, p, p, p, p, p, p, p, p, p],
  [o, o, o, o, o, p, p, p, p, p, p, p, p, p, p, p],
  [o, o, o, o, o, o, p, p, p, p, p, p, p, p, p, p],
  [o, o, o, o, o, o, o, p, p, p, p, p, p, p, p, p],
  [o, o, o, o, o, o, o, o, p, p, p, p, p, p, p, p],
  [o, o, o, o, o, o, o, o, o, p, p, p, p, p, p, p],
  [o, o, o, o, o, o, o, o, o, o, p, p, p, p, p, p],
  [o, o, o, o, o, o, o, o, o, o, o, p, p, p, p, p],
  [o, o, o, o, o, o, o, o, o, o, o, o, p, p, p, p],
  [o, o, o, o, o, o, o, o, o, o, o, o, o, p, p, p],
  [o, o, o, o, o, o, o, o, o, o, o, o, o, o, p, p],
  [o, o, o, o, o, o, o, o, o, o, o, o, o, o, o, p],
  [o, o, o, o, o, o, o, o, o, o, o, o, o, o, o, o],
  [n, n, n, n, n, n, n, n, n, n, n, n, n, n, n, n],
  [o, n, n, n, n, n, n, n, n, n, n, n, n, n, n, n],
  [o, o, n, n, n, n, n, n, n, n, n, n, n, n, n, n],
  [o, o, o, n, n, n, n, n, n, n, n, n, n, n, n, n],
  [o, o, o, o, n, n, n, n, n, n, n, n, n, n, n, n],
  [o, o, o, o, o, n, n, n, n, n, n, n, n, n, n, n],
  [o, o, o, o, o, o, n, n, n, n, n, n, n, n, n, n],
  [o, o, o, o, o, o, o, n, n, n, n, n, n, n, n, n],
  [o, o, o, o, o, o, o, o, n, n, n, n, n, n, n, n],
  [o, o, o, o, o, o, o, o, o, n, n, n, n, n, n, n],
  [o, o, o, o, o, o, o, o, o, o, n, n, n, n, n, n],
  [o, o, o, o, o, o, o, o, o, o, o, n, n, n, n, n],
  [o, o, o, o, o, o, o, o, o, o, o, o, n, n, n, n],
  [o, o, o, o, o, o, o, o, o, o, o, o, o, n, n, n],
  [o, o, o, o, o, o, o, o, o, o, o, o, o, o, n, n],
  [o, o, o, o, o, o, o, o, o, o, o, o, o, o, o, n],
  [o, o, o, o, o, o, o, o, o, o, o, o, o, o, o, o]]

/-- `update_32_16`, include/segment_tree/avx512/tables.hpp lines 68-180 (2048 entries)., 32 per row. -/
def update_32_16 : List (List Int) := [
  [p, p, p, p, p, p, p, p, p, p, p, p, p, p, p, p, p, p, p, p, p, p, p, p, p, p, p, p, p, p, p, p],
  [o, p, p, p, p, p, p, p, p, p, p, p, p, p, p, p, p, p, p, p, p, p, p, p, p, p, p, p, p, p, p, p],
  [o, o, p, p, p, p, p, p, p, p, p, p, p, p, p, p, p, p, p, p, p, p, p, p, p, p, p, p, p, p, p, p],
  [o, o, o, p, p, p, p, p, p, p, p, p, p, p, p, p, p, p, p, p, p, p, p, p, p, p, p, p, p, p, p, p],
  [o, o, o, o, p, p, p, p, p, p, p, p, p, p, p, p, p, p, p, p, p, p, p, p, p, p, p, p, p, p, p, p],
  [o, o, o, o, o, p, p, p, p, p, p, p, p, p, p, p, p, p, p, p, p, p, p, p, p, p, p, p, p, p, p, p],
  [o, o, o, o, o, o, p, p, p, p, p, p, p, p, p, p, p, p, p, p, p, p, p, p, p, p, p, p, p, p, p, p],
  [o, o, o, o, o, o, o, p, p, p, p, p, p, p, p, p, p, p, p, p, p, p, p, p, p, p, p, p, p, p, p, p],
  [o, o, o, o, o, o, o, o, p, p, p, p, p, p, p, p, p, p, p, p, p, p, p, p, p, p, p, p, p, p, p, p],
  [o, o, o, o, o, o, o, o, o, p, p, p, p, p, p, p, p, p, p, p, p, p, p, p, p, p, p, p, p, p, p, p],
  [o, o, o, o, o, o, o, o, o, o, p, p, p, p, p, p, p, p, p, p, p, p, p, p, p, p, p, p, p, p, p, p],
  [o, o, o, o, o, o, o, o, o, o, o, p, p, p, p, p, p, p, p, p, p, p, p, p, p, p, p, p, p, p, p, p],
  [o, o, o, o, o, o, o, o, o, o, o, o, p, p, p, p, p, p, p, p, p, p, p, p, p, p, p, p, p, p, p, p],
  [o, o, o, o, o, o, o, o, o, o, o, o, o, p, p, p, p, p, p, p, p, p, p, p, p, p, p, p, p, p, p, p],
  [o, o, o, o, o, o, o, o, o, o, o, o, o, o, p, p, p, p, p, p, p, p, p, p, p, p, p, p, p, p, p, p],
  [o, o, o, o, o, o, o, o, o, o, o, o, o, o, o, p, p, p, p, p, p, p, p, p, p, p, p, p, p, p, p, p],
  [o, o, o, o, o, o, o, o, o, o, o, o, o, o, o, o, p, p, p, p, p, p, p, p, p, p, p, p, p, p, p, p],
  [o, o, o, o, o, o, o, o, o, o, o, o, o, o, o, o, o, p, p, p, p, p, p, p, p, p, p, p, p, p, p, p],
  [o, o, o, o, o, o, o, o, o, o, o, o, o, o, o, o, o, o, p, p, p, p, p, p, p, p, p, p, p, p, p, p],
  [o, o, o, o, o, o, o, o, o, o, o, o, o, o, o, o, o, o, o, p, p, p, p, p, p, p, p, p, p, p, p, p],
  [o, o, o, o, o, o, o, o, o, o, o, o, o, o, o, o, o, o, o, o, p, p, p, p, p, p, p, p, p, p, p, p],
  [o, o, o, o, o, o, o, o, o, o, o, o, o, o, o, o, o, o, o, o, o, p, p, p, p, p, p, p, p, p, p, p],
  [o, o, o, o, o, o, o, o, o, o, o, o, o, o, o, o, o, o, o, o, o, o, p, p, p, p, p, p, p, p, p, p],
  [o, o, o, o, o, o, o, o, o, o, o, o, o, o, o, o, o, o, o, o, o, o, o, p, p, p, p, p, p, p, p, p],
  [o, o, o, o, o, o, o, o, o, o, o, o, o, o, o, o, o, o, o, o, o, o, o, o, p, p, p, p, p, p, p, p],
  [o, o, o, o, o, o, o, o, o, o, o, o, o, o, o, o, o, o, o, o, o, o, o, o, o, p, p, p, p, p, p, p],
  [o, o, o, o, o, o, o, o, o, o, o, o, o, o, o, o, o, o, o, o, o, o, o, o, o, o, p, p, p, p, p, p],
  [o, o, o, o, o, o, o, o, o, o, o, o, o, o, o, o, o, o, o, o, o, o, o, o, o, o, o, p, p, p, p, p],
  [o, o, o, o, o, o, o, o, o, o, o, o, o, o, o, o, o, o, o, o, o, o, o, o, o, o, o, o, p, p, p, p],
  [o, o, o, o, o, o, o, o, o, o, o, o, o, o, o, o, o, o, o, o, o, o, o, o, o, o, o, o, o, p, p, p],
  [o, o, o, o, o, o, o, o, o, o, o, o, o, o, o, o, o, o, o, o, o, o, o, o, o, o, o, o, o, o, p, p],
  [o, o, o, o, o, o, o, o, o, o, o, o, o, o, o, o, o, o, o, o, o, o, o, o, o, o, o, o, o, o, o, p],
  [n, n, n, n, n, n, n, n, n, n, n, n, n, n, n, n, n, n, n, n, n, n, n, n, n, n, n, n, n, n, n, n],
  [o, n, n, n, n, n, n, n, n, n, n, n, n, n, n, n, n, n, n, n, n, n, n, n, n, n, n, n, n, n, n, n],
  [o, o, n, n, n, n, n, n, n, n, n, n, n, n, n, n, n, n, n, n, n, n, n, n, n, n, n, n, n, n, n, n],
  [o, o, o, n, n, n, n, n, n, n, n, n, n, n, n, n, n, n, n, n, n, n, n, n, n, n, n, n, n, n, n, n],
  [o, o, o, o, n, n, n, n, n, n, n, n, n, n, n, n, n, n, n, n, n, n, n, n, n, n, n, n, n, n, n, n],
  [o, o, o, o, o, n, n, n, n, n, n, n, n, n, n, n, n, n, n, n, n, n, n, n, n, n, n, n, n, n, n, n],
  [o, o, o, o, o, o, n, n, n, n, n, n, n, n, n, n, n, n, n, n, n, n, n, n, n, n, n, n, n, n, n, n],
  [o, o, o, o, o, o, o, n, n, n, n, n, n, n, n, n, n, n, n, n, n, n, n, n, n, n, n, n, n, n, n, n],
  [o, o, o, o, o, o, o, o, n, n, n, n, n, n, n, n, n, n, n, n, n, n, n, n, n, n, n, n, n, n, n, n],
  [o, o, o, o, o, o, o, o, o, n, n, n, n, n, n, n, n, n, n, n, n, n, n, n, n, n, n, n, n, n, n, n],
  [o, o, o, o, o, o, o, o, o, o, n, n, n, n, n, n, n, n, n, n, n, n, n, n, n, n, n, n, n, n, n, n],
  [o, o, o, o, o, o, o, o, o, o, o, n, n, n, n, n, n, n, n, n, n, n, n, n, n, n, n, n, n, n, n, n],
  [o, o, o, o, o, o, o, o, o, o, o, o, n, n, n, n, n, n, n, n, n, n, n, n, n, n, n, n, n, n, n, n],
  [o, o, o, o, o, o, o, o, o, o, o, o, o, n, n, n, n, n, n, n, n, n, n, n, n, n, n, n, n, n, n, n],
  [o, o, o, o, o, o, o, o, o, o, o, o, o, o, n, n, n, n, n, n, n, n, n, n, n, n, n, n, n, n, n, n],
  [o, o, o, o, o, o, o, o, o, o, o, o, o, o, o, n, n, n, n, n, n, n, n, n, n, n, n, n, n, n, n, n],
  [o, o, o, o, o, o, o, o, o, o, o, o, o, o, o, o, n, n, n, n, n, n, n, n, n, n, n, n, n, n, n, n],
  [o, o, o, o, o, o, o, o, o, o, o, o, o, o, o, o, o, n, n, n, n, n, n, n, n, n, n, n, n, n, n, n],
  [o, o, o, o, o, o, o, o, o, o, o, o, o, o, o, o, o, o, n, n, n, n, n, n, n, n, n, n, n, n, n, n],
  [o, o, o, o, o, o, o, o, o, o, o, o, o, o, o, o, o, o, o, n, n, n, n, n, n, n, n, n, n, n, n, n],
  [o, o, o, o, o, o, o, o, o, o, o, o, o, o, o, o, o, o, o, o, n, n, n, n, n, n, n, n, n, n, n, n],
  [o, o, o, o, o, o, o, o, o, o, o, o, o, o, o, o, o, o, o, o, o, n, n, n, n, n, n, n, n, n, n, n],
  [o, o, o, o, o, o, o, o, o, o, o, o, o, o, o, o, o, o, o, o, o, o, n, n, n, n, n, n, n, n, n, n],
  [o, o, o, o, o, o, o, o, o, o, o, o, o, o, o, o, o, o, o, o, o, o, o, n, n, n, n, n, n, n, n, n],
  [o, o, o, o, o, o, o, o, o, o, o, o, o, o, o, o, o, o, o, o, o, o, o, o, n, n, n, n, n, n, n, n],
  [o, o, o, o, o, o, o, o, o, o, o, o, o, o, o, o, o, o, o, o, o, o, o, o, o, n, n, n, n, n, n, n],
  [o, o, o, o, o, o, o, o, o, o, o, o, o, o, o, o, o, o, o, o, o, o, o, o, o, o, n, n, n, n, n, n],
  [o, o, o, o, o, o, o, o, o, o, o, o, o, o, o, o, o, o, o, o, o, o, o, o, o, o, o, n, n, n, n, n],
  [o, o, o, o, o, o, o, o, o, o, o, o, o, o, o, o, o, o, o, o, o, o, o, o, o, o, o, o, n, n, n, n],
  [o, o, o, o, o, o, o, o, o, o, o, o, o, o, o, o, o, o, o, o, o, o, o, o, o, o, o, o, o, n, n, n],
  [o, o, o, o, o, o, o, o, o, o, o, o, o, o, o, o, o, o, o, o, o, o, o, o, o, o, o, o, o, o, n, n],
  [o, o, o, o, o, o, o, o, o, o, o, o, o, o, o, o, o, o, o, o, o, o, o, o, o, o, o, o, o, o, o, n]]

end MRS.Tables
