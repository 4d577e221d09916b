import Verif.Proofs.History

/-!
# Segment trees against arrays of counters
-/

set_option autoImplicit false

namespace MRS
open Outcome Spec

/-- The array as a function, 0 beyond the end. -/
def arr (vals : List Nat) (j : Nat) : Nat := vals.getD j 0

theorem arr_lt {vals : List Nat} {j : Nat} (h : j < vals.length) : arr vals j = vals[j] := by
  unfold arr; rw [List.getD_eq_getElem?_getD, List.getElem?_eq_getElem h]; rfl

theorem arr_ge {vals : List Nat} {j : Nat} (h : vals.length ≤ j) : arr vals j = 0 := by
  unfold arr; rw [List.getD_eq_getElem?_getD, List.getElem?_eq_none h]; rfl

theorem psum_arr (vals : List Nat) (k : Nat) : psum (arr vals) k = total vals k := by
  induction k with
  | zero => simp [psum, total]
  | succ k ih =>
    rw [psum_succ, ih]
    unfold total
    rw [List.take_add_one, List.sum_append]
    by_cases h : k < vals.length
    · rw [arr_lt h, List.getElem?_eq_getElem h]; simp
    · rw [arr_ge (by omega), List.getElem?_eq_none (by omega)]; simp

theorem bump_length (vals : List Nat) (i : Nat) (s : Bool) : (Spec.bump vals i s).length = vals.length := by
  simp [Spec.bump]

theorem bumps_length (us : List (Nat × Bool)) : ∀ vals : List Nat,
    (bumps vals us).length = vals.length := by
  induction us with
  | nil => intro v; rfl
  | cons u us ih => intro v; show (bumps (Spec.bump v u.1 u.2) us).length = _; rw [ih, bump_length]

theorem arr_bump {vals : List Nat} {i : Nat} {s : Bool} (hi : i < vals.length) :
    arr (Spec.bump vals i s) = updA (arr vals) i s := by
  funext j
  unfold updA
  by_cases h : j < vals.length
  · rw [arr_lt (by rw [bump_length]; exact h)]
    unfold Spec.bump
    rw [List.getElem_modify]
    by_cases e : i = j
    · subst e; rw [if_pos rfl, if_pos rfl, arr_lt h]
    · rw [if_neg e, if_neg (fun h => e h.symm), arr_lt h]
  · rw [arr_ge (by rw [bump_length]; omega), if_neg (by omega), arr_ge (by omega)]

theorem arr_le {vals : List Nat} {M : Nat} (h : ∀ v ∈ vals, v ≤ M) (j : Nat) : arr vals j ≤ M := by
  by_cases hj : j < vals.length
  · rw [arr_lt hj]; exact h _ (List.getElem_mem hj)
  · rw [arr_ge (by omega)]; omega

/-- `t` holds the array `vals`. -/
structure TreeRep (fam : TreeFam) (b : Build) (H M : Nat) (vals : List Nat) (t : Tree) : Prop where
  lo : 1 ≤ H
  hi : H ≤ fam.maxH
  cap : M ≤ 512
  inv : fam.Inv H M (arr vals) vals.length t
  align : fam.Aligned b t.mem.addr vals.length H
  up : fam.UpAligned b t.mem.addr H

section
variable {fam : TreeFam} {b : Build} {H M addr : Nat} {vals : List Nat} {t : Tree}

theorem TreeFam.Valid.build (h : fam.Valid b H M addr vals) :
    ∃ t, fam.build b H addr vals = ok t ∧ TreeRep fam b H M vals t ∧ t.mem.addr = addr := by
  obtain ⟨h1, h2⟩ := tree_height_range (fam := fam) h.le
  rw [← h.height] at h1 h2
  have ha : fam.Aligned b addr vals.length H := aligned_of_addr h1 h2 h.align
  obtain ⟨t, e, hadr, hi⟩ := tree_build_ok (b := b) (fam := fam) (t := Tree.empty) h.pos h.le h.height
    h.cap (InputOK.mk (A := arr vals) (input := ⟨vals.length, fun j => vals.getD j 0⟩) rfl
      (fun j _ => rfl) (arr_le h.vals) (fun j hj => arr_ge hj)
      (h.debug.imp_right (fun hm j => Nat.le_trans (arr_le h.vals j) hm))) ha
  exact ⟨t, e, ⟨h1, h2, h.cap, hi, by rw [hadr]; exact ha, by rw [hadr]; exact upAligned_of_addr h.align⟩, hadr⟩

theorem TreeRep.sum (h : TreeRep fam b H M vals t) {i : Nat} (hi : i < vals.length) :
    fam.sum b H t i = ok (total vals (i + 1)) := by
  rw [tree_sum_ok h.lo h.hi h.inv h.cap h.align hi, psum_arr]

theorem TreeRep.update (h : TreeRep fam b H M vals t) {i : Nat} {s : Bool} (hi : i < vals.length)
    (hp : s = true → 1 ≤ vals.getD i 0) (hq : s = false → vals.getD i 0 + 1 ≤ M) :
    ∃ t', fam.update b H t i s = ok t' ∧ TreeRep fam b H M (Spec.bump vals i s) t' := by
  obtain ⟨t', e, hadr, hinv⟩ := tree_update_ok h.lo h.hi h.inv h.cap h.align h.up hi hp hq
  refine ⟨t', e, h.lo, h.hi, h.cap, ?_, ?_, by rw [hadr]; exact h.up⟩
  · rw [arr_bump hi, bump_length]; exact hinv
  · rw [hadr, bump_length]; exact h.align

theorem TreeRep.updates (us : List (Nat × Bool)) : ∀ {vals : List Nat} {t : Tree},
    TreeRep fam b H M vals t → BumpsOK M vals us →
    ∃ t', fam.updates b H t us = ok t' ∧ TreeRep fam b H M (bumps vals us) t' := by
  induction us with
  | nil => intro vals t h _; exact ⟨t, rfl, h⟩
  | cons u us ih =>
    intro vals t h hu
    obtain ⟨hi, hp, hq, hr⟩ := hu
    obtain ⟨t1, e1, h1⟩ := h.update hi hp hq
    obtain ⟨t2, e2, h2⟩ := ih h1 hr
    refine ⟨t2, ?_, h2⟩
    unfold TreeFam.updates
    rw [e1, ok_bind]; exact e2

theorem TreeRep.search (h : TreeRep fam b H M vals t)
    (hs : fam.SearchSafe b H M (total vals vals.length)) {x : Nat}
    (hx : x < total vals vals.length) :
    ∃ p s, fam.search b H t x = ok (p, s) ∧ p < vals.length ∧ s = total vals p ∧
      total vals p ≤ x ∧ x < total vals (p + 1) := by
  rw [← psum_arr] at hs hx
  obtain ⟨⟨p, s⟩, e, hr⟩ := tree_search_ok h.lo h.hi h.inv h.cap h.align hs hx
  have h1 := hr.sum
  have h2 := hr.lo
  have h3 := hr.hi
  rw [psum_arr] at h1 h2 h3
  exact ⟨p, s, e, hr.lt, h1, h2, h3⟩

theorem TreeFam.run_ok (h : fam.Valid b H M addr vals) {us : List (Nat × Bool)}
    (hu : BumpsOK M vals us) :
    ∃ t, fam.run b H addr vals us = ok t ∧ TreeRep fam b H M (bumps vals us) t := by
  obtain ⟨t0, e0, h0, _⟩ := h.build
  obtain ⟨t, e, ht⟩ := h0.updates us hu
  refine ⟨t, ?_, ht⟩
  unfold TreeFam.run
  rw [e0, ok_bind]; exact e

end

end MRS
