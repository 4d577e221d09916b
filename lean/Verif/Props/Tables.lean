import Verif.Model.Node
import Verif.Model.Word

/-!
# C37 and C43: the constant tables

Complete finite tables, compared entry by entry with a closed form.
-/

set_option autoImplicit false
set_option maxRecDepth 100000

namespace MRS.Props
open MRS Outcome

/-- Row `r`, lane `l` of a table of `rows` rows for `+1` followed by as many for `-1`: in row `r` the
lanes from `r + shift` on are stepped. -/
def stepEntry (rows shift r l : Nat) : Int :=
  if l < r % rows + shift then 0 else if r < rows then 1 else -1

/-- `t` is the step table with `2 * rows` rows of `lanes` lanes. -/
def IsStepTable (t : List (List Int)) (rows lanes shift : Nat) : Prop :=
  t.length = 2 * rows ∧ (∀ row ∈ t, row.length = lanes) ∧
  ∀ r, r < 2 * rows → ∀ l, l < lanes → (t.getD r []).getD l 0 = stepEntry rows shift r l

/-- C37: every `update_*` table.  Row `r` of the first half holds 0 below lane `r` (tables with
`rows = lanes + 1`, which have a row that changes nothing and one that changes every lane) or up to and
including lane `r` (tables used with exclusive summaries only), and `+1` after; the second half holds
the negated rows. -/
theorem C37 :
    IsStepTable Tables.update_4_64 4 4 1 ∧ IsStepTable Tables.update_8_32 9 8 0 ∧
    IsStepTable Tables.update_16_16 16 16 0 ∧ IsStepTable Tables.update_8_64 8 8 1 ∧
    IsStepTable Tables.update_16_32 17 16 0 ∧ IsStepTable Tables.update_32_16 32 32 0 := by
  unfold IsStepTable stepEntry
  refine ⟨⟨rfl, ?_, ?_⟩, ⟨rfl, ?_, ?_⟩, ⟨rfl, ?_, ?_⟩, ⟨rfl, ?_, ?_⟩, ⟨rfl, ?_, ?_⟩, ⟨rfl, ?_, ?_⟩⟩ <;>
    decide +kernel

/-- The six node classes read the rows the two `update` loads name: for child `i`, the summary row
steps every segment after the one of `i`, the key row every key of the segment from `i` on. -/
def RowsFit (c : NodeCfg) : Prop :=
  ∀ i, i < c.fanout → ∀ sign : Bool,
    (∀ s, s < c.num → ((c.sumTab.getD (i / c.seg + c.sumRow + if sign then c.sumSign else 0) []).getD s 0) =
      if i / c.seg < s then (if sign then -1 else 1) else 0) ∧
    ∀ k, k < c.seg → ((c.keyTab.getD (i % c.seg + if sign then c.keySign else 0) []).getD k 0) =
      if i % c.seg ≤ k then (if sign then -1 else 1) else 0

theorem C37_rows : RowsFit avx2Node128 ∧ RowsFit avx2Node64 ∧ RowsFit avx2Node32 ∧
    RowsFit avx512Node512 ∧ RowsFit avx512Node256 ∧ RowsFit avx512Node128 := by
  have key : ∀ c : NodeCfg, 0 < c.seg → c.fanout = c.num * c.seg →
      (∀ j, j < c.num → ∀ sign : Bool, ∀ s, s < c.num →
        ((c.sumTab.getD (j + c.sumRow + if sign then c.sumSign else 0) []).getD s 0) =
          if j < s then (if sign then -1 else 1) else 0) →
      (∀ j, j < c.seg → ∀ sign : Bool, ∀ k, k < c.seg →
        ((c.keyTab.getD (j + if sign then c.keySign else 0) []).getD k 0) =
          if j ≤ k then (if sign then -1 else 1) else 0) → RowsFit c := by
    intro c h0 hf h1 h2 i hi sign
    refine ⟨h1 (i / c.seg) ?_ sign, h2 (i % c.seg) (Nat.mod_lt _ h0) sign⟩
    rw [hf] at hi
    exact (Nat.div_lt_iff_lt_mul h0).2 hi
  refine ⟨?_, ?_, ?_, ?_, ?_, ?_⟩ <;> refine key _ (by decide) rfl ?_ ?_ <;> decide +kernel

/-! ## Byte tables -/

/-- Number of ones of a byte below position `p`. -/
def byteOnes (a p : Nat) : Nat := ((List.range p).filter fun j => a.testBit j).length

/-- Position of the one number `k` of byte `a`. -/
def byteSelect (a k : Nat) : Option Nat :=
  (List.range 8).find? fun p => a.testBit p && byteOnes a p == k

/-- C43: the byte tables.  `lt_cnt` counts ones; `select_in_byte` and `lt_sel` give the position of the
`k`-th one, and where there is none 8 and 0 respectively; `ps_overflow[k]` has `128 - k` in every
byte. -/
theorem C43 :
    (∀ a, a < 256 → ltCntAt a = ok (byteOnes a 8)) ∧
    (∀ k, k < 8 → ∀ a, a < 256 → selectInByteAt (k * 256 + a) = ok ((byteSelect a k).getD 8)) ∧
    (∀ k, k < 8 → ∀ a, a < 256 → ltSelAt (k * 256 + a) = ok ((byteSelect a k).getD 0)) ∧
    (∀ k, k < 65 → psOverflowAt k = ok (0x0101010101010101 * (128 - k))) := by
  refine ⟨?_, ?_, ?_, ?_⟩ <;> decide +kernel

/-- The tables have no further entries: any other index is out of bounds. -/
theorem C43_bounds :
    (∀ i, 256 ≤ i → ltCntAt i = ub .oob) ∧ (∀ i, 2048 ≤ i → selectInByteAt i = ub .oob) ∧
    (∀ i, 2048 ≤ i → ltSelAt i = ub .oob) ∧ (∀ i, 65 ≤ i → psOverflowAt i = ub .oob) := by
  have key : ∀ (t : List (List Nat)) (per i : Nat), t.length ≤ i / per → look t per i = ub .oob := by
    intro t per i h
    unfold look
    rw [List.getElem?_eq_none h]
  refine ⟨fun i h => key _ _ _ ?_, fun i h => key _ _ _ ?_, fun i h => key _ _ _ ?_,
    fun i h => key _ _ _ ?_⟩
  · show 8 ≤ i / 32; omega
  · show 64 ≤ i / 32; omega
  · show 64 ≤ i / 32; omega
  · show 65 ≤ i / 1; omega

/-- Byte 0b10010100: three ones, at 2, 4 and 7; there is no one number 3. -/
example : ltCntAt 0x94 = ok 3 ∧ selectInByteAt (2 * 256 + 0x94) = ok 7 ∧
    selectInByteAt (3 * 256 + 0x94) = ok 8 ∧ ltSelAt (1 * 256 + 0x94) = ok 4 ∧
    ltSelAt (3 * 256 + 0x94) = ok 0 := by
  refine ⟨C43.1 0x94 (by decide), C43.2.1 2 (by decide) 0x94 (by decide),
    C43.2.1 3 (by decide) 0x94 (by decide), C43.2.2.1 1 (by decide) 0x94 (by decide),
    C43.2.2.1 3 (by decide) 0x94 (by decide)⟩

end MRS.Props
