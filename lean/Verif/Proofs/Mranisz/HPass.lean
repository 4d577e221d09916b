import Verif.Proofs.Mranisz.Pass32

/-! # 32-bit compressed rank: the pass of `RankCF32`, in 4-byte units -/

set_option autoImplicit false

namespace MRS.Mran
open Outcome Spec Poppy

/-! ## 4-byte units -/

/-- Unit `x` of the text after `j` of its bytes were added. -/
def hpart (t : Vec Byte) (x : Nat) : Nat → Half
  | 0 => 0#32
  | j + 1 => hpart t x j + (tbyte t (4 * x + j)).setWidth 32 <<< (8 * (4 - j - 1))

/-- Unit `x` of the text, first byte most significant. -/
def thalf (t : Vec Byte) (x : Nat) : Half := hpart t x 4

theorem shl_bit32 (b : Byte) {j l : Nat} (hj : j < 4) (hl : l < 32) :
    (b.setWidth 32 <<< (8 * (4 - j - 1))).getLsbD l =
      (decide (8 * (4 - j - 1) ≤ l) && b.getLsbD (l - 8 * (4 - j - 1))) := by
  rw [BitVec.getLsbD_shiftLeft, BitVec.getLsbD_setWidth, decide_eq_true hl,
    decide_eq_true (show l - 8 * (4 - j - 1) < 32 by omega)]
  by_cases h : 8 * (4 - j - 1) ≤ l
  · rw [decide_eq_true h, decide_eq_false (by omega)]; simp
  · rw [decide_eq_false h, decide_eq_true (by omega)]; simp

theorem hpart_bit (t : Vec Byte) (x : Nat) {j : Nat} (hj : j ≤ 4) {l : Nat} (hl : l < 32) :
    (hpart t x j).getLsbD l = (decide (31 - l < 8 * j) && tbit t (32 * x + (31 - l))) := by
  induction j generalizing l with
  | zero => simp [hpart]
  | succ j ih =>
    have key : ∀ l, l < 32 → ((hpart t x j).getLsbD l = true →
        ((tbyte t (4 * x + j)).setWidth 32 <<< (8 * (4 - j - 1)) : Half).getLsbD l = false) := by
      intro l hl h
      rw [ih (by omega) hl] at h
      rw [shl_bit32 _ (by omega) hl]
      simp only [Bool.and_eq_true, decide_eq_true_eq] at h
      by_cases h1 : 8 * (4 - j - 1) ≤ l
      · rw [BitVec.getLsbD_of_ge _ _ (by omega), Bool.and_false]
      · rw [decide_eq_false h1, Bool.false_and]
    show (hpart t x j + _ : Half).getLsbD l = _
    rw [BitVec.add_eq_or_of_and_eq_zero _ _ (by
      apply BitVec.eq_of_getLsbD_eq
      intro l hl
      rw [BitVec.getLsbD_and]
      cases h : (hpart t x j).getLsbD l
      · simp
      · rw [key l hl h]; simp), BitVec.getLsbD_or, ih (by omega) hl, shl_bit32 _ (by omega) hl]
    by_cases h1 : 31 - l < 8 * j
    · rw [decide_eq_true h1, decide_eq_true (show 31 - l < 8 * (j + 1) by omega)]
      rw [BitVec.getLsbD_of_ge _ (l - 8 * (4 - j - 1)) (by omega)]
      simp
    · rw [decide_eq_false h1]
      by_cases h2 : 31 - l < 8 * (j + 1)
      · rw [decide_eq_true h2, decide_eq_true (show 8 * (4 - j - 1) ≤ l by omega)]
        unfold tbit
        rw [show (32 * x + (31 - l)) / 8 = 4 * x + j by omega,
          show 7 - (32 * x + (31 - l)) % 8 = l - 8 * (4 - j - 1) by omega]
        simp
      · rw [decide_eq_false h2, decide_eq_false (show ¬ 8 * (4 - j - 1) ≤ l by omega)]
        simp

theorem thalf_bit (t : Vec Byte) (x : Nat) {l : Nat} (hl : l < 32) :
    (thalf t x).getLsbD l = tbit t (32 * x + (31 - l)) := by
  unfold thalf
  rw [hpart_bit t x (Nat.le_refl _) hl, decide_eq_true (by omega), Bool.true_and]

theorem T_half_all (t : Vec Byte) (x : Nat) :
    T t (32 * x) + popcnt ((thalf t x).setWidth 64) = T t (32 * (x + 1)) := by
  rw [popcnt_eq, ← mcnt_all]
  have h0 : ∀ j, j ≤ 32 → mcnt ((thalf t x).setWidth 64) j = 0 := by
    intro j
    induction j with
    | zero => intro _; rfl
    | succ j ih =>
      intro hj
      rw [mcnt_succ, ih (by omega), BitVec.getLsbD_setWidth, BitVec.getLsbD_of_ge (thalf t x) _ (by omega),
        Bool.and_false]
      rfl
  have h1 : ∀ j, j ≤ 32 → T t (32 * x) + mcnt ((thalf t x).setWidth 64) (32 + j) = T t (32 * x + j) := by
    intro j
    induction j with
    | zero => intro _; rw [h0 32 (Nat.le_refl _)]; rfl
    | succ j ih =>
      intro hj
      have := ih (by omega)
      rw [← Nat.add_assoc, ← Nat.add_assoc, mcnt_succ, BitVec.getLsbD_setWidth, T_succ,
        thalf_bit t x (show 63 - (32 + j) < 32 by omega), decide_eq_true (show 63 - (32 + j) < 64 by omega),
        Bool.true_and, show 31 - (63 - (32 + j)) = j by omega]
      omega
  have := h1 32 (Nat.le_refl _)
  rw [show 32 * (x + 1) = 32 * x + 32 by omega]
  exact this

/-! ## Two units loaded as one word -/

/-- Words whose halves are swapped. -/
def Swap (v u : Word) : Prop := ∀ l, l < 32 → v.getLsbD l = u.getLsbD (l + 32) ∧ v.getLsbD (l + 32) = u.getLsbD l

theorem swap_half {v u : Word} (h : Swap v u) : ∀ j, j ≤ 32 → mcnt v j + mcnt u 32 = mcnt u (32 + j) := by
  intro j
  induction j with
  | zero => intro _; rw [Nat.add_zero]; exact Nat.zero_add _
  | succ j ih =>
    intro hj
    have := ih (by omega)
    have hb := (h (31 - j) (by omega)).2
    rw [show 31 - j + 32 = 63 - j by omega, show 31 - j = 63 - (32 + j) by omega] at hb
    rw [mcnt_succ v j, ← Nat.add_assoc, mcnt_succ u (32 + j), hb]
    omega

theorem swap_popcnt {v u : Word} (h : Swap v u) : popcnt v = popcnt u := by
  have h' : Swap u v := fun l hl => ⟨(h l hl).2.symm, (h l hl).1.symm⟩
  have h1 : _ = mcnt u 64 := swap_half h 32 (Nat.le_refl _)
  have h2 : _ = mcnt v 64 := swap_half h' 32 (Nat.le_refl _)
  rw [popcnt_eq, popcnt_eq, ← mcnt_all, ← mcnt_all]
  omega

theorem swap_and {v u v' u' : Word} (h : Swap v u) (h' : Swap v' u') : Swap (v &&& v') (u &&& u') := by
  intro l hl
  simp only [BitVec.getLsbD_and]
  rw [(h l hl).1, (h l hl).2, (h' l hl).1, (h' l hl).2]
  exact ⟨rfl, rfl⟩

theorem swap_pair (t : Vec Byte) (x : Nat) : Swap (thalf t (2 * x + 1) ++ thalf t (2 * x)) (tword t x) := by
  intro l hl
  rw [BitVec.getLsbD_append, BitVec.getLsbD_append, if_pos hl, if_neg (by omega), thalf_bit _ _ hl,
    show l + 32 - 32 = l by omega, thalf_bit _ _ hl]
  have h1 := tword_bit t x (show 31 - l < 64 by omega)
  have h2 := tword_bit t x (show 63 - l < 64 by omega)
  rw [show 63 - (31 - l) = l + 32 by omega] at h1
  rw [show 63 - (63 - l) = l by omega] at h2
  rw [h1, h2]
  exact ⟨by congr 1; omega, by congr 1; omega⟩

theorem masksCF32_table : ∀ k : Fin 64, ∀ l : Fin 32,
    (BitVec.ofNat 64 (masksCF32Table.getD k.1 0)).getLsbD l.1 =
      (BitVec.allOnes 64 <<< (64 - k.1)).getLsbD (l.1 + 32) ∧
    (BitVec.ofNat 64 (masksCF32Table.getD k.1 0)).getLsbD (l.1 + 32) =
      (BitVec.allOnes 64 <<< (64 - k.1)).getLsbD l.1 := by decide +kernel

theorem maskCF32At_ok {k : Nat} (h : k < 64) : ∃ m, maskCF32At k = ok m ∧
    Swap m (BitVec.allOnes 64 <<< (64 - k)) := by
  unfold maskCF32At
  rw [if_pos h]
  exact ⟨_, rfl, fun l hl => masksCF32_table ⟨k, h⟩ ⟨l, hl⟩⟩

/-! ## One block -/

/-- Inside block `q`, after `j` bytes. -/
structure HByteInv (t : Vec Byte) (q m : Nat) (s0 : HPass) (j : Nat) (s : HPass) : Prop where
  ranks : s.ranks = s0.ranks
  rc : s.rc = s0.rc
  len : s.bits.len = s0.bits.len
  bc : s.bc = 16 * m + j / 4
  rank : s.rank = T t (32 * (16 * q + j / 4)) % W32
  full : ∀ k, k < j / 4 → s.bits.f (16 * m + k) = some (thalf t (16 * q + k))
  part : 0 < j % 4 → s.bits.f (16 * m + j / 4) = some (hpart t (16 * q + j / 4) (j % 4))
  rest : ∀ x, x < 16 * m ∨ 16 * m + 16 ≤ x → s.bits.f x = s0.bits.f x

theorem hpassByte_ok {t : Vec Byte} {q m : Nat} {s0 s : HPass} {j : Nat} (hj : j < 64)
    (hm : 16 * m + 16 ≤ s0.bits.len) (h : HByteInv t q m s0 j s) :
    ∃ s', hpassByte t (64 * q) j s = ok s' ∧ HByteInv t q m s0 (j + 1) s' := by
  have hb : s.bc < s.bits.len := by rw [h.bc, h.len]; omega
  -- the cell after the first step
  have h1 : ∃ b1 : Vec (Option Half), (if j % 4 = 0 then s.bits.set s.bc (some 0#32) else ok s.bits) = ok b1 ∧
      b1.len = s.bits.len ∧ b1.f s.bc = some (hpart t (16 * q + j / 4) (j % 4)) ∧
      ∀ x, x ≠ s.bc → b1.f x = s.bits.f x := by
    by_cases h0 : j % 4 = 0
    · rw [if_pos h0, Vec.set_ok _ hb]
      refine ⟨_, rfl, rfl, ?_, fun x hx => if_neg hx⟩
      show (if s.bc = s.bc then _ else _) = _
      rw [if_pos rfl, h0]; rfl
    · rw [if_neg h0]
      refine ⟨_, rfl, rfl, ?_, fun _ _ => rfl⟩
      rw [h.bc]; exact h.part (by omega)
  obtain ⟨b1, e1, l1, c1, r1⟩ := h1
  have h2 : ∃ b2 : Vec (Option Half), (if 64 * q + j < t.len then do
      let c ← t.get (64 * q + j)
      let w ← uget b1 s.bc
      b1.set s.bc (some (w + (c.setWidth 32 <<< (8 * (4 - j % 4 - 1)))))
    else ok b1) = ok b2 ∧ b2.len = s.bits.len ∧
      b2.f s.bc = some (hpart t (16 * q + j / 4) (j % 4 + 1)) ∧ ∀ x, x ≠ s.bc → b2.f x = s.bits.f x := by
    have ht : tbyte t (4 * (16 * q + j / 4) + j % 4) = if 64 * q + j < t.len then t.f (64 * q + j) else 0#8 := by
      unfold tbyte
      rw [show 4 * (16 * q + j / 4) + j % 4 = 64 * q + j by omega]
    by_cases h0 : 64 * q + j < t.len
    · rw [if_pos h0, Vec.get_ok h0, ok_bind, uget_ok (by omega) c1, ok_bind, Vec.set_ok _ (by omega)]
      refine ⟨_, rfl, l1, ?_, fun x hx => by
        show (if x = s.bc then _ else _) = _
        rw [if_neg hx]; exact r1 x hx⟩
      show (if s.bc = s.bc then _ else _) = _
      rw [if_pos rfl]
      show _ = some (hpart t (16 * q + j / 4) (j % 4) + _)
      rw [ht, if_pos h0]
    · rw [if_neg h0]
      refine ⟨_, rfl, l1, ?_, r1⟩
      rw [c1]
      show _ = some (hpart t (16 * q + j / 4) (j % 4) + _)
      rw [ht, if_neg h0]
      simp
  obtain ⟨b2, e2, l2, c2, r2⟩ := h2
  unfold hpassByte
  simp only [e1, ok_bind]
  simp only [e2, ok_bind]
  by_cases h3 : j % 4 = 3
  · rw [if_pos h3, uget_ok (by omega) c2, ok_bind]
    have hw : hpart t (16 * q + j / 4) (j % 4 + 1) = thalf t (16 * q + j / 4) := by rw [h3]; rfl
    refine ⟨_, rfl, h.ranks, h.rc, by show b2.len = _; rw [l2, h.len], ?_, ?_, ?_, ?_, ?_⟩
    · show s.bc + 1 = _; rw [h.bc]; omega
    · show add32 s.rank (popcnt _) = _
      unfold add32
      rw [h.rank, hw, Nat.mod_add_mod, T_half_all, show 16 * q + (j + 1) / 4 = 16 * q + j / 4 + 1 by omega]
    · intro k hk
      show b2.f _ = _
      by_cases hkj : k = j / 4
      · rw [hkj, ← h.bc, c2, hw]
      · rw [r2 _ (by rw [h.bc]; omega), h.full k (by omega)]
    · intro hp; omega
    · intro x hx
      show b2.f x = _
      rw [r2 x (by rw [h.bc]; omega), h.rest x hx]
  · rw [if_neg h3]
    refine ⟨_, rfl, h.ranks, h.rc, by show b2.len = _; rw [l2, h.len], ?_, ?_, ?_, ?_, ?_⟩
    · show s.bc = _; rw [h.bc]; omega
    · show s.rank = _; rw [h.rank, show (j + 1) / 4 = j / 4 by omega]
    · intro k hk
      show b2.f _ = _
      rw [r2 _ (by rw [h.bc]; omega), h.full k (by omega)]
    · intro _
      show b2.f _ = _
      rw [show (j + 1) / 4 = j / 4 by omega, show (j + 1) % 4 = j % 4 + 1 by omega, ← h.bc, c2]
    · intro x hx
      show b2.f x = _
      rw [r2 x (by rw [h.bc]; omega), h.rest x hx]

/-! ## The pass -/

/-- State of the pass before block `q`. -/
structure HPInv (t : Vec Byte) (R L q : Nat) (s : HPass) : Prop where
  rlen : s.ranks.len = R
  blen : s.bits.len = L
  rank : s.rank = T t (512 * q) % W32
  rc : s.rc = 2 * q
  bc : s.bc = 16 * ne t q
  r0 : ∀ k, k < q → s.ranks.f (2 * k) = some (T t (512 * k) % W32)
  r1 : ∀ k, k < q → s.ranks.f (2 * k + 1) = some (16 * ne t k)
  w : ∀ k, k < q → ¬ Hom t k → ∀ j, j < 16 → s.bits.f (16 * ne t k + j) = some (thalf t (16 * k + j))
  rn : ∀ x, 2 * q ≤ x → s.ranks.f x = none
  bn : ∀ x, 16 * ne t q ≤ x → s.bits.f x = none

theorem hpassBlock_ok {t : Vec Byte} {e : Vec (Option Bool)} (he : EmptyOK t e) {R L q : Nat} {s : HPass}
    (hR : 2 * nblk t + 1 ≤ R) (hL : 16 * ne t (nblk t) ≤ L) (hq : q < nblk t) (h : HPInv t R L q s) :
    ∃ s', hpassBlock t e q s = ok s' ∧ HPInv t R L (q + 1) s' := by
  unfold hpassBlock
  have hr := h.rlen
  have hb := h.blen
  rw [Vec.set_ok _ (by rw [hr, h.rc]; omega), ok_bind, Vec.set_ok _ (by
    show s.rc + 1 < s.ranks.len
    rw [hr, h.rc]; omega), ok_bind]
  simp only []
  rw [he.get hq, ok_bind]
  -- the ranks after the two stores
  generalize hrr : (⟨s.ranks.len, fun j => if j = s.rc + 1 then some s.bc else
    if j = s.rc then some s.rank else s.ranks.f j⟩ : Vec (Option Nat)) = r'
  have f0 : ∀ k, k < q + 1 → r'.f (2 * k) = some (T t (512 * k) % W32) := by
    intro k hk
    rw [← hrr]
    show (if 2 * k = s.rc + 1 then _ else if 2 * k = s.rc then _ else _) = _
    rw [if_neg (by rw [h.rc]; omega)]
    by_cases hkq : k = q
    · rw [if_pos (by rw [h.rc, hkq]), h.rank, hkq]
    · rw [if_neg (by rw [h.rc]; omega), h.r0 k (by omega)]
  have f1 : ∀ k, k < q + 1 → r'.f (2 * k + 1) = some (16 * ne t k) := by
    intro k hk
    rw [← hrr]
    show (if 2 * k + 1 = s.rc + 1 then _ else if 2 * k + 1 = s.rc then _ else _) = _
    by_cases hkq : k = q
    · rw [if_pos (by rw [h.rc, hkq]), h.bc, hkq]
    · rw [if_neg (by rw [h.rc]; omega), if_neg (by rw [h.rc]; omega), h.r1 k (by omega)]
  have fn : ∀ x, 2 * (q + 1) ≤ x → r'.f x = none := by
    intro x hx
    rw [← hrr]
    show (if x = s.rc + 1 then _ else if x = s.rc then _ else _) = _
    rw [if_neg (by rw [h.rc]; omega), if_neg (by rw [h.rc]; omega), h.rn x (by omega)]
  have fl : r'.len = R := by rw [← hrr]; exact hr
  by_cases hh : Hom t q
  · simp only [hh, decide_true, if_true]
    have hlen := hh.1
    rw [Vec.get_ok (by omega), ok_bind]
    have hne : ne t (q + 1) = ne t q := by rw [ne_succ, if_pos hh]; rfl
    have hw : ∀ k, k < q + 1 → ¬ Hom t k → ∀ j, j < 16 →
        s.bits.f (16 * ne t k + j) = some (thalf t (16 * k + j)) := by
      intro k hk hn
      have : k ≠ q := fun hkq => hn (hkq ▸ hh)
      exact h.w k (by omega) hn
    have hrank : T t (512 * (q + 1)) = T t (512 * q) + if (t.f (64 * q)).toNat = 255 then 512 else 0 := by
      rw [show 512 * (q + 1) = 512 * q + 512 by omega]
      rcases hh.2 with hc | hc
      · rw [T_zeros hlen hc (Nat.le_refl _)]
        have := hc 0 (by omega)
        rw [Nat.add_zero] at this
        rw [this]; rfl
      · rw [T_ones hlen hc (Nat.le_refl _)]
        have := hc 0 (by omega)
        rw [Nat.add_zero] at this
        rw [this]; rfl
    by_cases h255 : (t.f (64 * q)).toNat = 255
    · rw [if_pos h255]
      rw [if_pos h255] at hrank
      refine ⟨_, rfl, fl, hb, ?_, ?_, ?_, f0, f1, hw, fn, ?_⟩
      · show add32 s.rank 512 = _
        unfold add32
        rw [h.rank, hrank, Nat.mod_add_mod]
      · show s.rc + 2 = _; rw [h.rc]; omega
      · show s.bc = _; rw [h.bc, hne]
      · rw [hne]; exact h.bn
    · rw [if_neg h255]
      rw [if_neg h255] at hrank
      refine ⟨_, rfl, fl, hb, ?_, ?_, ?_, f0, f1, hw, fn, ?_⟩
      · show s.rank = _; rw [h.rank, hrank]; rfl
      · show s.rc + 2 = _; rw [h.rc]; omega
      · show s.bc = _; rw [h.bc, hne]
      · rw [hne]; exact h.bn
  · simp only [hh, decide_false, Bool.false_eq_true, if_false]
    have hne : ne t (q + 1) = ne t q + 1 := by rw [ne_succ, if_neg hh]
    have hmono := ne_mono t (show q + 1 ≤ nblk t by omega)
    obtain ⟨s', e', i'⟩ := forN_inv (body := hpassByte t (64 * q))
      (HByteInv t q (ne t q) { s with ranks := r', rc := s.rc + 2 }) 64 { s with ranks := r', rc := s.rc + 2 }
      ⟨rfl, rfl, rfl, h.bc, by show s.rank = _; rw [h.rank, show 32 * (16 * q + 0 / 4) = 512 * q by omega],
        by intro k hk; omega, by intro hk; omega, fun _ _ => rfl⟩
      (by
        intro j s' hj hi
        exact hpassByte_ok hj (by show _ ≤ s.bits.len; rw [hb]; omega) hi)
    rw [e']
    refine ⟨s', rfl, ?_, ?_, ?_, ?_, ?_, ?_, ?_, ?_, ?_, ?_⟩
    · rw [i'.ranks]; exact fl
    · rw [i'.len]; exact hb
    · rw [i'.rank, show 32 * (16 * q + 64 / 4) = 512 * (q + 1) by omega]
    · rw [i'.rc]; show s.rc + 2 = _; rw [h.rc]; omega
    · rw [i'.bc, hne]; omega
    · rw [i'.ranks]; exact f0
    · rw [i'.ranks]; exact f1
    · intro k hk hn j hj
      by_cases hkq : k = q
      · subst hkq; exact i'.full j (by omega)
      · have hlt : ne t k + 1 ≤ ne t q := by
          have h1 := ne_succ t k
          rw [if_neg hn] at h1
          have h2 := ne_mono t (show k + 1 ≤ q by omega)
          omega
        rw [i'.rest _ (Or.inl (by omega))]
        exact h.w k (by omega) hn j hj
    · rw [i'.ranks]; exact fn
    · intro x hx
      rw [i'.rest _ (Or.inr (by omega))]
      exact h.bn x (by omega)

/-- What the pass leaves. -/
structure HPassOK (t : Vec Byte) (R L : Nat) (s : HPass) : Prop where
  rlen : s.ranks.len = R
  blen : s.bits.len = L
  rc : s.rc = 2 * nblk t + 1
  r0 : ∀ k, k ≤ nblk t → s.ranks.f (2 * k) = some (T t (512 * k) % W32)
  r1 : ∀ k, k < nblk t → s.ranks.f (2 * k + 1) = some (16 * ne t k)
  w : ∀ k, k < nblk t → ¬ Hom t k → ∀ j, j < 16 → s.bits.f (16 * ne t k + j) = some (thalf t (16 * k + j))
  rn : ∀ x, 2 * nblk t + 1 ≤ x → s.ranks.f x = none
  bn : ∀ x, 16 * ne t (nblk t) ≤ x → s.bits.f x = none

theorem hpass_ok {t : Vec Byte} (hlen : t.len ≤ 2 ^ 32 - 64) {e : Vec (Option Bool)} (he : EmptyOK t e) {R L : Nat}
    (hR : 2 * nblk t + 1 ≤ R) (hL : 16 * ne t (nblk t) ≤ L) :
    ∃ s, hpass t e (fresh R) (fresh L) = ok s ∧ HPassOK t R L s := by
  unfold hpass
  rw [nblk32_eq hlen]
  obtain ⟨s, e1, i⟩ := forN_inv (body := hpassBlock t e) (HPInv t R L) (nblk t) ⟨fresh R, fresh L, 0, 0, 0⟩
    ⟨rfl, rfl, by show 0 = T t 0 % W32; rw [T_zero]; exact (Nat.zero_mod _).symm, rfl, rfl, by intro k hk; omega, by intro k hk; omega, by intro k hk; omega,
      fun _ _ => rfl, fun _ _ => rfl⟩
    (fun q s hq hi => hpassBlock_ok he hR hL hq hi)
  rw [e1, ok_bind, Vec.set_ok _ (by rw [i.rlen, i.rc]; omega), ok_bind]
  refine ⟨_, rfl, i.rlen, i.blen, ?_, ?_, ?_, i.w, ?_, i.bn⟩
  · show s.rc + 1 = _; rw [i.rc]
  · intro k hk
    show (if 2 * k = s.rc then _ else _) = _
    by_cases hkq : k = nblk t
    · rw [if_pos (by rw [i.rc, hkq]), i.rank, hkq]
    · rw [if_neg (by rw [i.rc]; omega), i.r0 k (by omega)]
  · intro k hk
    show (if 2 * k + 1 = s.rc then _ else _) = _
    rw [if_neg (by rw [i.rc]; omega), i.r1 k hk]
  · intro x hx
    show (if x = s.rc then _ else _) = _
    rw [if_neg (by rw [i.rc]; omega), i.rn x (by omega)]

end MRS.Mran
