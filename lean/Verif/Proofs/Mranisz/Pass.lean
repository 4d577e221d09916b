import Verif.Proofs.Mranisz.Text

/-! # Compressed rank: homogeneous blocks and the pass over the text -/

set_option autoImplicit false

namespace MRS.Mran
open Outcome Spec Poppy

/-! ## `emptyBlock` -/

theorem scan_eq (t : Vec Byte) (stop : Byte → Bool) (i : Nat) : ∀ n j,
    ∃ b, scan t stop i n j = ok b ∧
      (b = true ↔ ∀ k, j ≤ k → k < j + n → i + k < t.len ∧ stop (t.f (i + k)) = false) := by
  intro n
  induction n with
  | zero => intro j; exact ⟨true, rfl, by simp; omega⟩
  | succ n ih =>
    intro j
    unfold scan
    by_cases h : i + j ≥ t.len
    · rw [if_pos h]
      refine ⟨false, rfl, by simp, fun hk => ?_⟩
      have := (hk j (Nat.le_refl _) (by omega)).1
      omega
    · rw [if_neg h, Vec.get_ok (by omega), ok_bind]
      cases hs : stop (t.f (i + j))
      · obtain ⟨b, e, hb⟩ := ih (j + 1)
        refine ⟨b, ?_, ?_⟩
        · simpa using e
        · rw [hb]
          constructor
          · intro hk k h1 h2
            by_cases hkj : k = j
            · subst hkj; exact ⟨by omega, hs⟩
            · exact hk k (by omega) (by omega)
          · intro hk k h1 h2
            exact hk k (by omega) (by omega)
      · refine ⟨false, by simp, by simp, fun hk => ?_⟩
        have := (hk j (Nat.le_refl _) (by omega)).2
        rw [hs] at this
        exact absurd this (by simp)

theorem emptyStep_eq (t : Vec Byte) (q : Nat) (e : Vec (Option Bool)) :
    emptyStep t q e = e.set q (some (decide (Hom t q))) := by
  unfold emptyStep
  obtain ⟨b1, e1, h1⟩ := scan_eq t (fun c => decide (c.toNat > 0)) (64 * q) 64 0
  obtain ⟨b2, e2, h2⟩ := scan_eq t (fun c => decide (c.toNat < 255)) (64 * q) 64 0
  rw [e1, ok_bind]
  have k1 : b1 = true ↔ 64 * q + 64 ≤ t.len ∧ ∀ j, j < 64 → t.f (64 * q + j) = 0#8 := by
    rw [h1]
    constructor
    · intro h
      refine ⟨by have := (h 63 (by omega) (by omega)).1; omega, fun j hj => ?_⟩
      have := (h j (by omega) (by omega)).2
      simp only [decide_eq_false_iff_not] at this
      apply BitVec.eq_of_toNat_eq
      simpa using this
    · intro h j _ hj
      refine ⟨by omega, ?_⟩
      rw [h.2 j (by omega)]; rfl
  have k2 : b2 = true ↔ 64 * q + 64 ≤ t.len ∧ ∀ j, j < 64 → t.f (64 * q + j) = 255#8 := by
    rw [h2]
    constructor
    · intro h
      refine ⟨by have := (h 63 (by omega) (by omega)).1; omega, fun j hj => ?_⟩
      have := (h j (by omega) (by omega)).2
      simp only [decide_eq_false_iff_not] at this
      apply BitVec.eq_of_toNat_eq
      have := (t.f (64 * q + j)).isLt
      show _ = 255
      omega
    · intro h j _ hj
      refine ⟨by omega, ?_⟩
      rw [h.2 j (by omega)]; rfl
  cases b1
  · simp only [Bool.not_false, if_true, e2, ok_bind]
    congr 2
    rw [Bool.eq_iff_iff, k2, decide_eq_true_iff]
    unfold Hom
    have : ¬ (64 * q + 64 ≤ t.len ∧ ∀ j, j < 64 → t.f (64 * q + j) = 0#8) := by
      rw [← k1]; simp
    constructor
    · exact fun h => ⟨h.1, Or.inr h.2⟩
    · rintro ⟨a, h | h⟩
      · exact absurd ⟨a, h⟩ this
      · exact ⟨a, h⟩
  · simp only [Bool.not_true, Bool.false_eq_true, if_false, ok_bind]
    congr 2
    rw [Bool.eq_iff_iff, decide_eq_true_iff]
    exact ⟨fun _ => ⟨(k1.1 rfl).1, Or.inl (k1.1 rfl).2⟩, fun _ => rfl⟩

/-- What `emptyBlock` holds. -/
structure EmptyOK (t : Vec Byte) (e : Vec (Option Bool)) : Prop where
  len : e.len = nblk t
  val : ∀ q, q < nblk t → e.f q = some (decide (Hom t q))

theorem EmptyOK.get {t : Vec Byte} {e : Vec (Option Bool)} (h : EmptyOK t e) {q : Nat}
    (hq : q < nblk t) : uget e q = ok (decide (Hom t q)) :=
  uget_ok (by rw [h.len]; exact hq) (h.val q hq)

theorem emptyBlocks_ok (t : Vec Byte) : ∃ e, emptyBlocks t = ok e ∧ EmptyOK t e := by
  unfold emptyBlocks
  obtain ⟨e, h, hl, hv⟩ := forN_inv (body := emptyStep t)
    (fun i e => e.len = nblk t ∧ ∀ q, q < i → e.f q = some (decide (Hom t q))) (nblk t) (fresh (nblk t))
    ⟨rfl, by intro q hq; omega⟩
    (by
      intro i e hi ⟨hl, hv⟩
      rw [emptyStep_eq, Vec.set_ok _ (by rw [hl]; exact hi)]
      refine ⟨_, rfl, hl, fun q hq => ?_⟩
      show (if q = i then _ else _) = _
      by_cases hqi : q = i
      · rw [if_pos hqi, hqi]
      · rw [if_neg hqi, hv q (by omega)])
  exact ⟨e, h, hl, hv⟩

theorem notEmpty_ok {t : Vec Byte} {e : Vec (Option Bool)} (h : EmptyOK t e) :
    notEmpty t e = ok (ne t (nblk t)) := by
  unfold notEmpty
  obtain ⟨n, e1, hn⟩ := forN_inv (body := fun i n => do
      let b ← uget e i
      ok (if b then n else n + 1))
    (fun i n => n = ne t i) (nblk t) 0 rfl
    (by
      intro i n hi hn
      rw [h.get hi]
      refine ⟨_, rfl, ?_⟩
      rw [ne_succ, hn]
      by_cases hh : Hom t i <;> simp [hh])
  rw [e1, hn]

/-! ## One block -/

/-- Inside block `q`, after `j` bytes. -/
structure ByteInv (t : Vec Byte) (q m : Nat) (s0 : Pass) (j : Nat) (s : Pass) : Prop where
  ranks : s.ranks = s0.ranks
  rc : s.rc = s0.rc
  len : s.bits.len = s0.bits.len
  bc : s.bc = 8 * m + j / 8
  rank : s.rank = T t (64 * (8 * q + j / 8))
  full : ∀ k, k < j / 8 → s.bits.f (8 * m + k) = some (tword t (8 * q + k))
  part : 0 < j % 8 → s.bits.f (8 * m + j / 8) = some (wpart t (8 * q + j / 8) (j % 8))
  rest : ∀ x, x < 8 * m ∨ 8 * m + 8 ≤ x → s.bits.f x = s0.bits.f x

theorem passByte_ok {t : Vec Byte} {q m : Nat} {s0 s : Pass} {j : Nat} (hj : j < 64)
    (hm : 8 * m + 8 ≤ s0.bits.len) (h : ByteInv t q m s0 j s) :
    ∃ s', passByte t (64 * q) j s = ok s' ∧ ByteInv t q m s0 (j + 1) s' := by
  have hb : s.bc < s.bits.len := by rw [h.bc, h.len]; omega
  -- the cell after the first step
  have h1 : ∃ b1 : Vec (Option Word), (if j % 8 = 0 then s.bits.set s.bc (some 0#64) else ok s.bits) = ok b1 ∧
      b1.len = s.bits.len ∧ b1.f s.bc = some (wpart t (8 * q + j / 8) (j % 8)) ∧
      ∀ x, x ≠ s.bc → b1.f x = s.bits.f x := by
    by_cases h0 : j % 8 = 0
    · rw [if_pos h0, Vec.set_ok _ hb]
      refine ⟨_, rfl, rfl, ?_, fun x hx => if_neg hx⟩
      show (if s.bc = s.bc then _ else _) = _
      rw [if_pos rfl, h0]; rfl
    · rw [if_neg h0]
      refine ⟨_, rfl, rfl, ?_, fun _ _ => rfl⟩
      rw [h.bc]; exact h.part (by omega)
  obtain ⟨b1, e1, l1, c1, r1⟩ := h1
  have h2 : ∃ b2 : Vec (Option Word), (if 64 * q + j < t.len then do
      let c ← t.get (64 * q + j)
      let w ← uget b1 s.bc
      b1.set s.bc (some (w + (c.setWidth 64 <<< (8 * (8 - j % 8 - 1)))))
    else ok b1) = ok b2 ∧ b2.len = s.bits.len ∧
      b2.f s.bc = some (wpart t (8 * q + j / 8) (j % 8 + 1)) ∧ ∀ x, x ≠ s.bc → b2.f x = s.bits.f x := by
    have ht : tbyte t (8 * (8 * q + j / 8) + j % 8) = if 64 * q + j < t.len then t.f (64 * q + j) else 0#8 := by
      unfold tbyte
      rw [show 8 * (8 * q + j / 8) + j % 8 = 64 * q + j by omega]
    by_cases h0 : 64 * q + j < t.len
    · rw [if_pos h0, Vec.get_ok h0, ok_bind, uget_ok (by omega) c1, ok_bind, Vec.set_ok _ (by omega)]
      refine ⟨_, rfl, l1, ?_, fun x hx => by
        show (if x = s.bc then _ else _) = _
        rw [if_neg hx]; exact r1 x hx⟩
      show (if s.bc = s.bc then _ else _) = _
      rw [if_pos rfl]
      show _ = some (wpart t (8 * q + j / 8) (j % 8) + _)
      rw [ht, if_pos h0]
    · rw [if_neg h0]
      refine ⟨_, rfl, l1, ?_, r1⟩
      rw [c1]
      show _ = some (wpart t (8 * q + j / 8) (j % 8) + _)
      rw [ht, if_neg h0]
      simp
  obtain ⟨b2, e2, l2, c2, r2⟩ := h2
  unfold passByte
  simp only [e1, ok_bind]
  simp only [e2, ok_bind]
  by_cases h7 : j % 8 = 7
  · rw [if_pos h7, uget_ok (by omega) c2, ok_bind]
    have hw : wpart t (8 * q + j / 8) (j % 8 + 1) = tword t (8 * q + j / 8) := by rw [h7]; rfl
    refine ⟨_, rfl, h.ranks, h.rc, by show b2.len = _; rw [l2, h.len], ?_, ?_, ?_, ?_, ?_⟩
    · show s.bc + 1 = _; rw [h.bc]; omega
    · show s.rank + popcnt _ = _
      rw [h.rank, hw, T_word_all, show 8 * q + (j + 1) / 8 = 8 * q + j / 8 + 1 by omega]
    · intro k hk
      show b2.f _ = _
      by_cases hkj : k = j / 8
      · rw [hkj, ← h.bc, c2, hw]
      · rw [r2 _ (by rw [h.bc]; omega), h.full k (by omega)]
    · intro hp; omega
    · intro x hx
      show b2.f x = _
      rw [r2 x (by rw [h.bc]; omega), h.rest x hx]
  · rw [if_neg h7]
    refine ⟨_, rfl, h.ranks, h.rc, by show b2.len = _; rw [l2, h.len], ?_, ?_, ?_, ?_, ?_⟩
    · show s.bc = _; rw [h.bc]; omega
    · show s.rank = _; rw [h.rank, show (j + 1) / 8 = j / 8 by omega]
    · intro k hk
      show b2.f _ = _
      rw [r2 _ (by rw [h.bc]; omega), h.full k (by omega)]
    · intro _
      show b2.f _ = _
      rw [show (j + 1) / 8 = j / 8 by omega, show (j + 1) % 8 = j % 8 + 1 by omega, ← h.bc, c2]
    · intro x hx
      show b2.f x = _
      rw [r2 x (by rw [h.bc]; omega), h.rest x hx]

/-! ## The pass -/

/-- State of the pass before block `q`. -/
structure PInv (t : Vec Byte) (R L q : Nat) (s : Pass) : Prop where
  rlen : s.ranks.len = R
  blen : s.bits.len = L
  rank : s.rank = T t (512 * q)
  rc : s.rc = 2 * q
  bc : s.bc = 8 * ne t q
  r0 : ∀ k, k < q → s.ranks.f (2 * k) = some (T t (512 * k))
  r1 : ∀ k, k < q → s.ranks.f (2 * k + 1) = some (8 * ne t k)
  w : ∀ k, k < q → ¬ Hom t k → ∀ j, j < 8 → s.bits.f (8 * ne t k + j) = some (tword t (8 * k + j))
  rn : ∀ x, 2 * q ≤ x → s.ranks.f x = none
  bn : ∀ x, 8 * ne t q ≤ x → s.bits.f x = none

theorem passBlock_ok {t : Vec Byte} {e : Vec (Option Bool)} (he : EmptyOK t e) {R L q : Nat} {s : Pass}
    (hR : 2 * nblk t + 1 ≤ R) (hL : 8 * ne t (nblk t) ≤ L) (hq : q < nblk t) (h : PInv t R L q s) :
    ∃ s', passBlock t e q s = ok s' ∧ PInv t R L (q + 1) s' := by
  unfold passBlock
  have hr := h.rlen
  have hb := h.blen
  rw [Vec.set_ok _ (by rw [hr, h.rc]; omega), ok_bind, Vec.set_ok _ (by
    show s.rc + 1 < s.ranks.len
    rw [hr, h.rc]; omega), ok_bind]
  simp only []
  rw [he.get hq, ok_bind]
  -- the ranks after the two stores
  generalize hrr : (⟨s.ranks.len, fun j => if j = s.rc + 1 then some s.bc else
    if j = s.rc then some s.rank else s.ranks.f j⟩ : Vec (Option Nat)) = r'
  have f0 : ∀ k, k < q + 1 → r'.f (2 * k) = some (T t (512 * k)) := by
    intro k hk
    rw [← hrr]
    show (if 2 * k = s.rc + 1 then _ else if 2 * k = s.rc then _ else _) = _
    rw [if_neg (by rw [h.rc]; omega)]
    by_cases hkq : k = q
    · rw [if_pos (by rw [h.rc, hkq]), h.rank, hkq]
    · rw [if_neg (by rw [h.rc]; omega), h.r0 k (by omega)]
  have f1 : ∀ k, k < q + 1 → r'.f (2 * k + 1) = some (8 * ne t k) := by
    intro k hk
    rw [← hrr]
    show (if 2 * k + 1 = s.rc + 1 then _ else if 2 * k + 1 = s.rc then _ else _) = _
    by_cases hkq : k = q
    · rw [if_pos (by rw [h.rc, hkq]), h.bc, hkq]
    · rw [if_neg (by rw [h.rc]; omega), if_neg (by rw [h.rc]; omega), h.r1 k (by omega)]
  have fn : ∀ x, 2 * (q + 1) ≤ x → r'.f x = none := by
    intro x hx
    rw [← hrr]
    show (if x = s.rc + 1 then _ else if x = s.rc then _ else _) = _
    rw [if_neg (by rw [h.rc]; omega), if_neg (by rw [h.rc]; omega), h.rn x (by omega)]
  have fl : r'.len = R := by rw [← hrr]; exact hr
  by_cases hh : Hom t q
  · simp only [hh, decide_true, if_true]
    have hlen := hh.1
    rw [Vec.get_ok (by omega), ok_bind]
    have hne : ne t (q + 1) = ne t q := by rw [ne_succ, if_pos hh]; rfl
    have hw : ∀ k, k < q + 1 → ¬ Hom t k → ∀ j, j < 8 →
        s.bits.f (8 * ne t k + j) = some (tword t (8 * k + j)) := by
      intro k hk hn
      have : k ≠ q := fun hkq => hn (hkq ▸ hh)
      exact h.w k (by omega) hn
    have hrank : T t (512 * (q + 1)) = T t (512 * q) + if (t.f (64 * q)).toNat = 255 then 512 else 0 := by
      rw [show 512 * (q + 1) = 512 * q + 512 by omega]
      rcases hh.2 with hc | hc
      · rw [T_zeros hlen hc (Nat.le_refl _)]
        have := hc 0 (by omega)
        rw [Nat.add_zero] at this
        rw [this]; rfl
      · rw [T_ones hlen hc (Nat.le_refl _)]
        have := hc 0 (by omega)
        rw [Nat.add_zero] at this
        rw [this]; rfl
    by_cases h255 : (t.f (64 * q)).toNat = 255
    · rw [if_pos h255]
      rw [if_pos h255] at hrank
      refine ⟨_, rfl, fl, hb, ?_, ?_, ?_, f0, f1, hw, fn, ?_⟩
      · show s.rank + 512 = _; rw [h.rank, hrank]
      · show s.rc + 2 = _; rw [h.rc]; omega
      · show s.bc = _; rw [h.bc, hne]
      · rw [hne]; exact h.bn
    · rw [if_neg h255]
      rw [if_neg h255] at hrank
      refine ⟨_, rfl, fl, hb, ?_, ?_, ?_, f0, f1, hw, fn, ?_⟩
      · show s.rank = _; rw [h.rank, hrank]; rfl
      · show s.rc + 2 = _; rw [h.rc]; omega
      · show s.bc = _; rw [h.bc, hne]
      · rw [hne]; exact h.bn
  · simp only [hh, decide_false, Bool.false_eq_true, if_false]
    have hne : ne t (q + 1) = ne t q + 1 := by rw [ne_succ, if_neg hh]
    have hmono := ne_mono t (show q + 1 ≤ nblk t by omega)
    obtain ⟨s', e', i'⟩ := forN_inv (body := passByte t (64 * q))
      (ByteInv t q (ne t q) { s with ranks := r', rc := s.rc + 2 }) 64 { s with ranks := r', rc := s.rc + 2 }
      ⟨rfl, rfl, rfl, h.bc, by show s.rank = _; rw [h.rank, show 64 * (8 * q + 0 / 8) = 512 * q by omega],
        by intro k hk; omega, by intro hk; omega, fun _ _ => rfl⟩
      (by
        intro j s' hj hi
        exact passByte_ok hj (by show _ ≤ s.bits.len; rw [hb]; omega) hi)
    rw [e']
    refine ⟨s', rfl, ?_, ?_, ?_, ?_, ?_, ?_, ?_, ?_, ?_, ?_⟩
    · rw [i'.ranks]; exact fl
    · rw [i'.len]; exact hb
    · rw [i'.rank, show 64 * (8 * q + 64 / 8) = 512 * (q + 1) by omega]
    · rw [i'.rc]; show s.rc + 2 = _; rw [h.rc]; omega
    · rw [i'.bc, hne]; omega
    · rw [i'.ranks]; exact f0
    · rw [i'.ranks]; exact f1
    · intro k hk hn j hj
      by_cases hkq : k = q
      · subst hkq; exact i'.full j (by omega)
      · have hlt : ne t k + 1 ≤ ne t q := by
          have h1 := ne_succ t k
          rw [if_neg hn] at h1
          have h2 := ne_mono t (show k + 1 ≤ q by omega)
          omega
        rw [i'.rest _ (Or.inl (by omega))]
        exact h.w k (by omega) hn j hj
    · rw [i'.ranks]; exact fn
    · intro x hx
      rw [i'.rest _ (Or.inr (by omega))]
      exact h.bn x (by omega)

/-- What the pass leaves. -/
structure PassOK (t : Vec Byte) (R L : Nat) (s : Pass) : Prop where
  rlen : s.ranks.len = R
  blen : s.bits.len = L
  rc : s.rc = 2 * nblk t + 1
  r0 : ∀ k, k ≤ nblk t → s.ranks.f (2 * k) = some (T t (512 * k))
  r1 : ∀ k, k < nblk t → s.ranks.f (2 * k + 1) = some (8 * ne t k)
  w : ∀ k, k < nblk t → ¬ Hom t k → ∀ j, j < 8 → s.bits.f (8 * ne t k + j) = some (tword t (8 * k + j))
  rn : ∀ x, 2 * nblk t + 1 ≤ x → s.ranks.f x = none
  bn : ∀ x, 8 * ne t (nblk t) ≤ x → s.bits.f x = none

theorem pass_ok {t : Vec Byte} {e : Vec (Option Bool)} (he : EmptyOK t e) {R L : Nat}
    (hR : 2 * nblk t + 1 ≤ R) (hL : 8 * ne t (nblk t) ≤ L) :
    ∃ s, pass t e (fresh R) (fresh L) = ok s ∧ PassOK t R L s := by
  unfold pass
  obtain ⟨s, e1, i⟩ := forN_inv (body := passBlock t e) (PInv t R L) (nblk t) ⟨fresh R, fresh L, 0, 0, 0⟩
    ⟨rfl, rfl, (T_zero t).symm, rfl, rfl, by intro k hk; omega, by intro k hk; omega, by intro k hk; omega,
      fun _ _ => rfl, fun _ _ => rfl⟩
    (fun q s hq hi => passBlock_ok he hR hL hq hi)
  rw [e1, ok_bind, Vec.set_ok _ (by rw [i.rlen, i.rc]; omega), ok_bind]
  refine ⟨_, rfl, i.rlen, i.blen, ?_, ?_, ?_, i.w, ?_, i.bn⟩
  · show s.rc + 1 = _; rw [i.rc]
  · intro k hk
    show (if 2 * k = s.rc then _ else _) = _
    by_cases hkq : k = nblk t
    · rw [if_pos (by rw [i.rc, hkq]), i.rank, hkq]
    · rw [if_neg (by rw [i.rc]; omega), i.r0 k (by omega)]
  · intro k hk
    show (if 2 * k + 1 = s.rc then _ else _) = _
    rw [if_neg (by rw [i.rc]; omega), i.r1 k hk]
  · intro x hx
    show (if x = s.rc then _ else _) = _
    rw [if_neg (by rw [i.rc]; omega), i.rn x (by omega)]

/-! ## The last step of a query -/

theorem inBlock_ok {t : Vec Byte} {bits : Vec (Option Word)} {off q i : Nat} (hi : i < 512)
    (hl : off + 8 ≤ bits.len) (hw : ∀ j, j < 8 → bits.f (off + j) = some (tword t (8 * q + j))) :
    inBlock bits off (T t (512 * q)) i = ok (T t (512 * q + i)) := by
  unfold inBlock
  obtain ⟨r, e, hr⟩ := forN_inv (body := fun k r => do
      let w ← uget bits (off + k)
      ok (r + popcnt w))
    (fun k r => r = T t (64 * (8 * q + k))) (i / 64) (T t (512 * q)) (by
      rw [show 64 * (8 * q + 0) = 512 * q by omega])
    (by
      intro k r hk hr
      rw [uget_ok (by omega) (hw k (by omega))]
      exact ⟨_, rfl, by rw [hr]; exact T_word_all t (8 * q + k)⟩)
  rw [e, ok_bind, uget_ok (by omega) (hw (i / 64) (by omega)), ok_bind, maskAt_ok (by omega), ok_bind,
    popcnt_mask _ (by omega), hr, ← T_word t _ (by omega)]
  congr 2
  omega

end MRS.Mran
