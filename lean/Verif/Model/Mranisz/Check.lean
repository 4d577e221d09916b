import Verif.Model.Mranisz.Select

/-!
# `testRank` and `testSelect`: the self-checks of the compressed structures

The queries are a parameter: an object that is built, of whichever class.  `cin.ignore()` after each report waits
for the user and changes nothing else; it is left out.  Numbers are `unsigned int` (`W = 2^32`) or
`unsigned long long` (`W = 2^64`).
-/

set_option autoImplicit false

namespace MRS.Mran
open Outcome

/-- `rankTest` or `selectTest`, and what was printed: query, expected answer, answer. -/
structure Checked where
  cnt : Nat
  out : List (Nat × Nat × Nat)

/-- `if (want != query(q)) { cout << ...; cin.ignore(); }`; for the report the query is made again. -/
def compare1 (query : Nat → Outcome Nat) (q want : Nat) (s : Checked) : Outcome Checked := do
  let r ← query q
  if want ≠ r then do
    let r ← query q
    ok ⟨s.cnt, s.out ++ [(q, want, r)]⟩
  else ok s

/-- `testRank`, rank.hpp lines 509-524 (and 1037-1052, 1430-1445, 1786-1801, 3350-3365, 4999-5014). -/
def testRank (W : Nat) (rank : Nat → Outcome Nat) (t : Vec Byte) : Outcome Checked :=
  forN t.len (fun i s => do
    let bits ← t.get i
    forN 8 (fun j s => do
      let s := if ((bits >>> (7 - j)) &&& 1#8) == 1#8 then ⟨(s.cnt + 1) % W, s.out⟩ else s
      compare1 rank ((8 * i + j + 1) % W) s.cnt s) s) ⟨0, []⟩

/-- `testSelect`, select.hpp lines 649-664 (and 1355-1370, 2856-2871, 4495-4510). -/
def testSelect (W : Nat) (select : Nat → Outcome Nat) (t : Vec Byte) : Outcome Checked :=
  forN t.len (fun i s =>
    forN 8 (fun j s => do
      let c ← t.get i
      if ((c >>> (7 - j)) &&& 1#8) == 1#8 then do
        let s : Checked := ⟨(s.cnt + 1) % W, s.out⟩
        compare1 select s.cnt ((8 * i + j) % W) s
      else ok s) s) ⟨0, []⟩

end MRS.Mran
