import Verif.Proofs.Copy

/-!
# Bits of one bitmap, index of another

What a query answers when the index describes other bits than the object holds, and when the index is gone.
-/

set_option autoImplicit false

namespace MRS
open Outcome Spec

section
variable {c : Config} {n : Nat} {bm : Bitmap}

/-- The blocks before the queried one are counted by the index, the rest in the bits. -/
theorem bmRank_mixed (h : BmInv c n bm) {v : Vec Word} (hv : v.len = bm.bits.len) {g : Scratch}
    (hg : g.sums 0 = 0) {i : Nat} (hi : i < 64 * v.len) :
    ∃ r, bmRank c g ⟨bm.index, v⟩ i = ok r ∧
      r + fcnt v.f (c.blk.width.bits * (i / c.blk.width.bits)) =
        fcnt bm.bits.f (c.blk.width.bits * (i / c.blk.width.bits)) + fcnt v.f (i + 1) := by
  have hW := Width.words_pos c.blk.width
  have hb := Width.bits_eq c.blk.width
  have hW8 := Width.words_le c.blk.width
  have hn := h.nle
  have hw : W64 = 2 ^ 64 := rfl
  have hsz : bmSize ⟨bm.index, v⟩ = 64 * v.len := by
    have := h.size
    unfold bmSize at this ⊢
    show mul64 (mul64 v.len 8) 8 = _
    rw [hv]; exact this
  unfold bmRank
  rw [hsz, massert_ok (by simpa using hi), ok_bind]
  have hi' : i < c.blk.width.bits * n := by
    rw [hb, Nat.mul_assoc, ← h.len, ← hv]; exact hi
  have hqn : i / c.blk.width.bits < n := by
    rw [Nat.div_lt_iff_lt_mul (by omega), Nat.mul_comm]; exact hi'
  have hmod := Nat.mod_lt i (show 0 < c.blk.width.bits by omega)
  have hdm := Nat.div_add_mod i c.blk.width.bits
  generalize i / c.blk.width.bits = q at hqn hdm
  generalize i % c.blk.width.bits = o at hmod hdm
  have hs : (if q ≠ 0 then c.fam.sum c.b c.H bm.index (q - 1) else ok 0)
      = ok (fcnt bm.bits.f (64 * (c.blk.width.words * q))) := by
    by_cases hq : q ≠ 0
    · rw [if_pos hq, tree_sum_ok h.hlo h.hhi h.tree (Width.bits_le _) h.align (by omega),
        psum_blkCnt _ (by omega), Nat.sub_add_cancel (by omega)]
    · have : q = 0 := by omega
      subst this; rw [if_neg hq]; rfl
  show ∃ r, (do
    let s ← (if q ≠ 0 then c.fam.sum c.b c.H bm.index (q - 1) else ok 0)
    let p ← v.ptr (mul64 c.blk.width.words q)
    let r ← c.blk.rank c.b g p o
    ok (add64 s r)) = ok r ∧ _
  rw [hs, ok_bind]
  have hmul : c.blk.width.words * q ≤ 8 * 2 ^ 24 := Nat.mul_le_mul hW8 (by omega)
  rw [mul64_eq (by omega)]
  obtain ⟨p, e, hp⟩ := Vec.ptr_ok hW (hv.trans h.len) hqn
  rw [e, ok_bind, BlockType.rank_ok c.b h.sup hg hp hmod, ok_bind]
  have hsum := fcnt_shift v.f (c.blk.width.words * q) (o + 1)
  have hle := fcnt_le bm.bits.f (64 * (c.blk.width.words * q))
  have hle' := fcnt_le v.f (64 * (c.blk.width.words * q) + (o + 1))
  have hbl := Width.bits_le c.blk.width
  refine ⟨_, rfl, ?_⟩
  have e1 : c.blk.width.bits * q = 64 * (c.blk.width.words * q) := by rw [hb, Nat.mul_assoc]
  rw [add64_eq (by omega), ← hdm, e1,
    show 64 * (c.blk.width.words * q) + o + 1 = 64 * (c.blk.width.words * q) + (o + 1) from rfl]
  omega

end

/-- An index that is gone gives no sum. -/
theorem load_gone {b : Build} {m : Mem} {off w : Nat} (h : m.size = 0) (hw : 0 < w) :
    load b m off w = ub .oob := by
  unfold load chk
  rw [if_neg (by omega)]
  rfl

theorem nodeSum_gone {b : Build} {nc : NodeCfg} {m : Mem} (h : m.size = 0) (hw : 0 < nc.sumB) (off i : Nat) :
    ∀ r, nodeSum b nc m off i ≠ ok r := by
  intro r e
  unfold nodeSum at e
  cases hm : massert b (decide (i < nc.fanout)) with
  | ok u => rw [hm, ok_bind, load_gone h hw] at e; cases e
  | ub f => rw [hm] at e; cases e
  | abort => rw [hm] at e; cases e

theorem bind_not_ok {α β : Type} {x : Outcome α} {f : α → Outcome β} (h : ∀ r, x ≠ ok r) :
    ∀ r, (x >>= f) ≠ ok r := by
  intro r e
  cases x with
  | ok a => exact h a rfl
  | ub f => cases e
  | abort => cases e

theorem nn_gone {b : Build} {t : Tree} (h : t.mem.size = 0) (l : Nat) : ∀ r, t.nn b l ≠ ok r := by
  intro r e
  unfold Tree.nn at e
  cases hn : t.num with
  | none => rw [hn] at e; cases e
  | some p =>
    rw [hn] at e
    simp only [load_gone h (show 0 < 4 by decide)] at e
    cases e

theorem bind_not_ok' {α β : Type} {x : Outcome α} {f : α → Outcome β} (h : ∀ a r, f a ≠ ok r) :
    ∀ r, (x >>= f) ≠ ok r := by
  intro r e
  cases x with
  | ok a => exact h a r e
  | ub f => cases e
  | abort => cases e

theorem sum_gone {fam : TreeFam} {b : Build} {H : Nat} {t : Tree} (h : t.mem.size = 0) (i : Nat) :
    ∀ r, fam.sum b H t i ≠ ok r := by
  have un : ∀ r : Nat, (ub .unsupported : Outcome Nat) ≠ ok r := fun r e => by cases e
  have h1 : ∀ nc ∈ nodeClasses, 0 < nc.sumB := by decide
  cases fam with
  | avx2 =>
    refine bind_not_ok' fun _ => ?_
    split
    · exact bind_not_ok' fun p => nodeSum_gone h (by decide) _ _
    · exact bind_not_ok' fun p => bind_not_ok (nodeSum_gone h (by decide) _ _)
    · exact bind_not_ok' fun p => bind_not_ok (nn_gone h _)
    · exact bind_not_ok' fun p => bind_not_ok (nn_gone h _)
    · exact un
  | avx512 =>
    refine bind_not_ok' fun _ => ?_
    split
    · exact bind_not_ok' fun p => nodeSum_gone h (by decide) _ _
    · exact bind_not_ok' fun p => bind_not_ok (nodeSum_gone h (by decide) _ _)
    · exact bind_not_ok' fun p => bind_not_ok (nn_gone h _)
    · exact un

/-- `rank` beyond the first block needs the index. -/
theorem bmRank_gone {c : Config} {g : Scratch} {bm : Bitmap} (h : bm.index.mem.size = 0) {i : Nat}
    (hi : c.blk.width.bits ≤ i) : ∀ r, bmRank c g bm i ≠ ok r := by
  unfold bmRank
  refine bind_not_ok' fun _ => bind_not_ok ?_
  rw [if_pos (by have := Nat.div_pos hi (Width.bits_pos c.blk.width); omega)]
  exact sum_gone h _

/-- The members of the tree other than the buffer depend on the number of blocks only. -/
theorem index_ext {c : Config} {n : Nat} {bm bm' : Bitmap} (h : BmInv c n bm) (h' : BmInv c n bm') :
    (⟨bm.index.size, bm.index.num, bm.index.ptr, bm'.index.mem⟩ : Tree) = bm'.index := by
  have t := h.tree
  have t' := h'.tree
  have e1 : bm.index.size = bm'.index.size := by rw [TreeInv.size t, TreeInv.size t']
  have e2 : bm.index.num = bm'.index.num := by rw [TreeInv.num t, TreeInv.num t']
  have e3 : bm.index.ptr = bm'.index.ptr := by rw [TreeInv.ptr t, TreeInv.ptr t']
  rw [e1, e2, e3]

/-- An object with the bits `B` and the index of `B` with bit `i` inverted miscounts behind the block of
`i`. -/
theorem rank_stale {c : Config} {bm bm' : Bitmap} {B : List Bool} (h : Alive c bm B) {i : Nat}
    (hi : i < B.length) (e : bmFlip c bm i = ok bm') {g : Scratch} (hg : g.sums 0 = 0) {j : Nat}
    (hj : j < B.length) :
    ∃ r, bmRank c g ⟨⟨bm.index.size, bm.index.num, bm.index.ptr, bm'.index.mem⟩, bm.bits⟩ j = ok r ∧
      r + ones B (c.blk.width.bits * (j / c.blk.width.bits)) =
        ones (Spec.flip B i) (c.blk.width.bits * (j / c.blk.width.bits)) + Spec.rank B j := by
  obtain ⟨n, hn⟩ := h.bmRep_lt hi
  obtain ⟨bm2, e2, hr, _⟩ := hn.flip (h.up.resolve_left (by rintro rfl; exact absurd hi (Nat.not_lt_zero i))) hi
  have : bm' = bm2 := by rw [e] at e2; injection e2
  subst this
  rw [index_ext hn.inv hr.inv]
  have hl : bm.bits.len = bm'.bits.len := by rw [hn.inv.len, hr.inv.len]
  obtain ⟨r, er, hsum⟩ := bmRank_mixed hr.inv hl hg (i := j) (by rw [← hn.len]; exact hj)
  have hle : c.blk.width.bits * (j / c.blk.width.bits) ≤ j := Nat.mul_div_le _ _
  refine ⟨r, er, ?_⟩
  unfold Spec.rank
  rw [hn.rep.ones (by omega), hn.rep.ones (by omega), hr.rep.ones (by rw [flip_length]; omega)]
  exact hsum

end MRS
