import Verif.Proofs.BitmapInv

/-!
# From words to lists of bits
-/

set_option autoImplicit false

namespace MRS
open Outcome Spec

/-- The logical bitmap `B` is what the first `B.length` bits of `ws` spell. -/
structure Rep (ws : Nat → Word) (B : List Bool) : Prop where
  bit : ∀ i, i < B.length → B[i]? = some (fbit ws i)

theorem Rep.get {ws : Nat → Word} {B : List Bool} (h : Rep ws B) {i : Nat} (hi : i < B.length) :
    B[i] = fbit ws i := by
  have := h.bit i hi
  rw [List.getElem?_eq_getElem hi] at this
  exact Option.some.inj this

theorem ones_succ {B : List Bool} {i : Nat} (hi : i < B.length) :
    ones B (i + 1) = ones B i + if B[i] then 1 else 0 := by
  unfold ones
  rw [List.take_add_one, List.count_append, List.getElem?_eq_getElem hi]
  cases B[i] <;> simp

theorem Rep.ones {ws : Nat → Word} {B : List Bool} (h : Rep ws B) {i : Nat} (hi : i ≤ B.length) :
    ones B i = fcnt ws i := by
  induction i with
  | zero => simp [Spec.ones, fcnt, psum]
  | succ i ih =>
    rw [ones_succ (by omega), ih (by omega), h.get (by omega)]
    rfl

theorem flip_length (B : List Bool) (i : Nat) : (flip B i).length = B.length := by
  simp [Spec.flip]

theorem flips_length (is : List Nat) : ∀ B : List Bool, (flips B is).length = B.length := by
  induction is with
  | nil => intro B; rfl
  | cons i is ih => intro B; show (flips (Spec.flip B i) is).length = _; rw [ih, flip_length]

theorem flips_cons (B : List Bool) (i : Nat) (is : List Nat) :
    flips B (i :: is) = flips (Spec.flip B i) is := rfl

theorem flip_get {B : List Bool} {i t : Nat} (ht : t < B.length) :
    (Spec.flip B i)[t]? = some (if t = i then !B[t] else B[t]) := by
  unfold Spec.flip
  rw [List.getElem?_modify, List.getElem?_eq_getElem ht]
  by_cases e : t = i
  · subst e; simp
  · have : i ≠ t := fun h => e h.symm
    simp [e, this]

theorem Rep.flip {f g : Nat → Word} {B : List Bool} (h : Rep f B) {i : Nat} (hi : i < B.length)
    (hg : ∀ t, fbit g t = if t = i then !fbit f i else fbit f t) : Rep g (Spec.flip B i) := by
  refine ⟨fun t ht => ?_⟩
  rw [flip_length] at ht
  rw [flip_get ht, hg]
  by_cases e : t = i
  · subst e; rw [if_pos rfl, if_pos rfl, h.get ht]
  · rw [if_neg e, if_neg e, h.get ht]

theorem bitsOf_cons (w : Word) (ws : List Word) :
    bitsOf (w :: ws) = (List.range 64).map (fun j => w.getLsbD j) ++ bitsOf ws := by
  simp [bitsOf]

theorem bitsOf_length (ws : List Word) : (bitsOf ws).length = 64 * ws.length := by
  induction ws with
  | nil => rfl
  | cons w ws ih => rw [bitsOf_cons, List.length_append, ih]; simp; omega

theorem bitsOf_get (ws : List Word) : ∀ i, i < 64 * ws.length →
    (bitsOf ws)[i]? = some ((ws.getD (i / 64) 0#64).getLsbD (i % 64)) := by
  induction ws with
  | nil => intro i hi; simp at hi
  | cons w ws ih =>
    intro i hi
    rw [bitsOf_cons]
    by_cases h : i < 64
    · rw [List.getElem?_append_left (by simpa using h), List.getElem?_map,
        List.getElem?_range h]
      rw [show i / 64 = 0 by omega, show i % 64 = i by omega]
      rfl
    · rw [List.getElem?_append_right (by simpa using h)]
      simp only [List.length_map, List.length_range]
      simp only [List.length_cons] at hi
      rw [ih (i - 64) (by omega), show i / 64 = (i - 64) / 64 + 1 by omega,
        show i % 64 = (i - 64) % 64 by omega]
      rfl

theorem pad_length {B : List Bool} {m : Nat} (hm : 0 < m) :
    (pad B m).length = m * ceilDiv B.length m := by
  unfold pad
  rw [List.length_append, List.length_replicate]
  unfold ceilDiv
  have h1 := Nat.div_add_mod B.length m
  have h2 := Nat.mod_lt B.length hm
  generalize B.length / m = q at *
  generalize B.length % m = r at *
  by_cases hr : r = 0
  · subst hr
    rw [Nat.sub_zero, Nat.mod_self, ← h1]
    rw [show m * q + 0 + m - 1 = m - 1 + m * q by omega, Nat.add_mul_div_left _ _ hm,
      Nat.div_eq_of_lt (by omega), Nat.zero_add]
    omega
  · rw [Nat.mod_eq_of_lt (by omega), ← h1]
    rw [show m * q + r + m - 1 = r - 1 + m * (q + 1) by rw [Nat.mul_succ]; omega,
      Nat.add_mul_div_left _ _ hm, Nat.div_eq_of_lt (by omega), Nat.zero_add, Nat.mul_succ]
    omega

theorem ceilDiv_scale (nw W : Nat) (hW : 0 < W) : ceilDiv (64 * nw) (64 * W) = ceilDiv nw W := by
  unfold ceilDiv
  rw [← Nat.div_div_eq_div_mul]
  congr 1
  omega

theorem rep_pad {f : Nat → Word} {ws : List Word} {m : Nat}
    (hf : ∀ j, f j = if j < ws.length then ws.getD j 0#64 else 0#64) : Rep f (pad (bitsOf ws) m) := by
  refine ⟨fun i hi => ?_⟩
  unfold pad at hi ⊢
  by_cases h : i < 64 * ws.length
  · rw [List.getElem?_append_left (by rw [bitsOf_length]; exact h), bitsOf_get ws i h]
    unfold fbit; rw [hf, if_pos (by omega)]
  · rw [List.getElem?_append_right (by rw [bitsOf_length]; omega)]
    rw [List.length_append] at hi
    rw [List.getElem?_replicate, if_pos (by have := bitsOf_length ws; simp only [List.length_replicate] at hi; omega)]
    unfold fbit; rw [hf, if_neg (by omega)]; simp

/-! ## Operations on a represented bitmap -/

/-- `bm` is a consistent bitmap with logical content `B`. -/
structure BmRep (c : Config) (n : Nat) (bm : Bitmap) (B : List Bool) : Prop where
  inv : BmInv c n bm
  len : B.length = 64 * bm.bits.len
  rep : Rep bm.bits.f B

section
variable {c : Config} {n : Nat} {bm : Bitmap} {B : List Bool}

theorem BmRep.access (h : BmRep c n bm B) {i : Nat} (hi : i < B.length) :
    bmAccess c bm i = ok B[i] := by
  rw [bmAccess_ok h.inv (by rw [← h.len]; exact hi), h.rep.get hi]

theorem BmRep.flip (h : BmRep c n bm B) (hu : c.fam.UpAligned c.b bm.index.mem.addr c.H) {i : Nat}
    (hi : i < B.length) :
    ∃ bm', bmFlip c bm i = ok bm' ∧ BmRep c n bm' (Spec.flip B i) ∧
      bm'.index.mem.addr = bm.index.mem.addr := by
  obtain ⟨bm', e, hinv, hl, ha, hb⟩ := bmFlip_ok h.inv hu (i := i) (by rw [← h.len]; exact hi)
  exact ⟨bm', e, ⟨hinv, by rw [flip_length, hl]; exact h.len, h.rep.flip hi hb⟩, ha⟩

theorem BmRep.rank (h : BmRep c n bm B) {g : Scratch} (hg : g.sums 0 = 0) {i : Nat}
    (hi : i < B.length) : bmRank c g bm i = ok (Spec.rank B i) := by
  rw [bmRank_ok h.inv hg (by rw [← h.len]; exact hi)]
  unfold Spec.rank
  rw [h.rep.ones (by omega)]

theorem BmRep.select (h : BmRep c n bm B) {g : Scratch} (hg : g.sums 0 = 0)
    (hsafe : c.fam.SearchSafe c.b c.H c.blk.width.bits (Spec.ones B B.length)) {k : Nat}
    (hk : k < Spec.ones B B.length) : ∃ p, bmSelect c g bm k = ok p ∧ IsSelect B k p := by
  have ho := h.rep.ones (Nat.le_refl _)
  rw [ho] at hsafe hk
  rw [h.len] at hsafe hk
  obtain ⟨p, e, hp, hb, hc⟩ := bmSelect_ok h.inv hg hsafe hk
  rw [← h.len] at hp
  refine ⟨p, e, ?_, ?_⟩
  · rw [h.rep.bit p hp, hb]
  · rw [h.rep.ones (by omega), hc]

/-- The partial sums of the index, read off the bits. -/
theorem BmRep.psum (h : BmRep c n bm B) (q : Nat) :
    Spec.psum (blkCnt c.blk.width.words n bm.bits.f) q = Spec.ones B (c.blk.width.bits * q) := by
  have hb := Width.bits_eq c.blk.width
  have hl : B.length = c.blk.width.bits * n := by rw [h.len, h.inv.len, hb, Nat.mul_assoc]
  rcases Nat.le_total q n with hq | hq
  · have h1 : c.blk.width.bits * q ≤ c.blk.width.bits * n := Nat.mul_le_mul_left _ hq
    rw [psum_blkCnt _ hq, h.rep.ones (by omega), hb, Nat.mul_assoc]
  · have h1 : c.blk.width.bits * n ≤ c.blk.width.bits * q := Nat.mul_le_mul_left _ hq
    rw [psum_beyond h.inv.tree.zero hq, psum_blkCnt _ (Nat.le_refl _)]
    have : Spec.ones B (c.blk.width.bits * q) = Spec.ones B B.length := by
      unfold Spec.ones
      rw [List.take_of_length_le (by omega), List.take_of_length_le (Nat.le_refl _)]
    rw [this, h.rep.ones (Nat.le_refl _), hl, hb, Nat.mul_assoc]

theorem BmRep.selectBad (h : BmRep c n bm B) (k : Nat) :
    c.fam.SearchBad c.b c.H (Spec.psum (blkCnt c.blk.width.words n bm.bits.f)) k ↔ c.SelectBad B k := by
  unfold Config.SelectBad
  rw [show Spec.psum (blkCnt c.blk.width.words n bm.bits.f) = _ from funext h.psum]

/-- `select` outside the bad ranks. -/
theorem BmRep.select_sharp (h : BmRep c n bm B) {g : Scratch} (hg : g.sums 0 = 0) {k : Nat}
    (hbad : ¬ c.SelectBad B k) (hk : k < Spec.ones B B.length) :
    ∃ p, bmSelect c g bm k = ok p ∧ IsSelect B k p := by
  have ho := h.rep.ones (Nat.le_refl _)
  rw [ho, h.len] at hk
  obtain ⟨p, e, hp, hb, hc⟩ := bmSelect_sharp h.inv hg (fun hb => hbad ((h.selectBad k).1 hb)) hk
  rw [← h.len] at hp
  refine ⟨p, e, ?_, ?_⟩
  · rw [h.rep.bit p hp, hb]
  · rw [h.rep.ones (by omega), hc]

theorem isSelect_unique {B : List Bool} {k p q : Nat} (hp : IsSelect B k p) (hq : IsSelect B k q) :
    p = q := by
  have mono : ∀ a d : Nat, Spec.ones B a ≤ Spec.ones B (a + d) := by
    intro a d
    unfold Spec.ones
    rw [List.take_add, List.count_append]
    omega
  have step : ∀ p q, IsSelect B k p → IsSelect B k q → ¬ p < q := by
    intro p q hp hq hlt
    obtain ⟨hl, hb⟩ := List.getElem?_eq_some_iff.1 hp.1
    have h1 := ones_succ hl
    rw [hb] at h1
    have h2 := mono (p + 1) (q - (p + 1))
    rw [show p + 1 + (q - (p + 1)) = q by omega, hq.2, h1, hp.2] at h2
    simp at h2
    omega
  have h1 := step p q hp hq
  have h2 := step q p hq hp
  omega

end

end MRS
