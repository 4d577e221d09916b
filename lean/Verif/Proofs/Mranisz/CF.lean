import Verif.Proofs.Mranisz.Basic

/-! # Compressed rank: `RankCF64` -/

set_option autoImplicit false

namespace MRS.Mran
open Outcome Spec Poppy

theorem ne_step (t : Vec Byte) (q : Nat) : ne t (q + 1) ≤ ne t q + 1 := by
  rw [ne_succ]; split <;> omega

/-- Homogeneous blocks are counted monotonically too. -/
theorem he_mono (t : Vec Byte) {a b : Nat} (h : a ≤ b) : a + ne t b ≤ b + ne t a := by
  obtain ⟨d, rfl⟩ := Nat.le.dest h
  induction d with
  | zero => exact Nat.le_refl _
  | succ d ih =>
    have := ne_step t (a + d)
    have := ih (by omega)
    rw [← Nat.add_assoc]
    omega

/-! ## The border -/

theorem findBorder_ok {t : Vec Byte} {e : Vec (Option Bool)} (he : EmptyOK t e) : ∀ n q,
    q + n = nblk t → q < max 1 (ne t (nblk t)) → 0 < n →
    findBorder e n q (q - ne t q) (ne t (nblk t) - ne t q) = ok (max 1 (ne t (nblk t))) := by
  intro n
  induction n with
  | zero => intro q _ _ h; omega
  | succ n ih =>
    intro q hq hlt _
    unfold findBorder
    rw [he.get (by omega), ok_bind]
    have hle := ne_le t q
    have hmono := ne_mono t (show q + 1 ≤ nblk t by omega)
    have hN := ne_le t (nblk t)
    have hs := ne_succ t q
    have h1 : (if decide (Hom t q) = true then q - ne t q + 1 else q - ne t q) = q + 1 - ne t (q + 1) := by
      by_cases hh : Hom t q
      · rw [if_pos hh] at hs; rw [decide_eq_true hh, if_pos rfl]; omega
      · rw [if_neg hh] at hs; rw [decide_eq_false hh, if_neg (by simp)]; omega
    have h2 : (if decide (Hom t q) = true then ne t (nblk t) - ne t q else ne t (nblk t) - ne t q - 1) =
        ne t (nblk t) - ne t (q + 1) := by
      by_cases hh : Hom t q
      · rw [if_pos hh] at hs; rw [decide_eq_true hh, if_pos rfl]; omega
      · rw [if_neg hh] at hs; rw [decide_eq_false hh, if_neg (by simp)]; omega
    simp only [h1, h2]
    have hle1 := ne_le t (q + 1)
    by_cases hc : q + 1 ≥ ne t (nblk t)
    · rw [if_pos (by omega)]
      congr 1; omega
    · rw [if_neg (by omega)]
      exact ih (q + 1) (by omega) (by omega) (by omega)

/-! ## The next stored block -/

theorem findRight_ok {t : Vec Byte} {e : Vec (Option Bool)} (he : EmptyOK t e) : ∀ fuel rr oc,
    nblk t + 1 ≤ rr + fuel → ne t rr < ne t (nblk t) → rr ≤ nblk t →
    ∃ k, findRight e fuel rr oc = ok (k, oc + 2 * (k - rr)) ∧ rr ≤ k ∧ k < nblk t ∧ ¬ Hom t k ∧
      ne t k = ne t rr := by
  intro fuel
  induction fuel with
  | zero => intro rr oc h1 h2 h3; omega
  | succ fuel ih =>
    intro rr oc h1 h2 h3
    have hlt : rr < nblk t := by
      have : rr ≠ nblk t := fun h => by rw [h] at h2; omega
      omega
    unfold findRight
    rw [he.get hlt, ok_bind]
    by_cases hh : Hom t rr
    · rw [decide_eq_true hh]
      have hs := ne_succ t rr
      rw [if_pos hh] at hs
      obtain ⟨k, e1, k1, k2, k3, k4⟩ := ih (rr + 1) (oc + 2) (by omega) (by omega) (by omega)
      refine ⟨k, ?_, by omega, k2, k3, by omega⟩
      show findRight e fuel (rr + 1) (oc + 2) = _
      rw [e1]
      congr 2; omega
    · rw [decide_eq_false hh]
      refine ⟨rr, ?_, Nat.le_refl _, hlt, hh, rfl⟩
      rw [Nat.sub_self]
      rfl

theorem findRight_oob {t : Vec Byte} {e : Vec (Option Bool)} (he : EmptyOK t e) : ∀ fuel rr oc,
    nblk t + 1 ≤ rr + fuel → (∀ k, rr ≤ k → k < nblk t → Hom t k) → rr ≤ nblk t →
    findRight e fuel rr oc = ub .oob := by
  intro fuel
  induction fuel with
  | zero => intro rr oc h1 h2 h3; omega
  | succ fuel ih =>
    intro rr oc h1 h2 h3
    unfold findRight
    by_cases hlt : rr < nblk t
    · rw [he.get hlt, ok_bind, decide_eq_true (h2 rr (Nat.le_refl _) hlt)]
      exact ih (rr + 1) (oc + 2) (by omega) (fun k h4 h5 => h2 k (by omega) h5) (by omega)
    · unfold uget Vec.get
      rw [he.len, if_neg hlt]
      rfl

/-! ## Copying the words of a block -/

theorem copyWords_ok {tmp : Vec (Option Word)} {off : Nat} {s : CFSt} {w : Nat → Word}
    (ho : off + 8 ≤ tmp.len) (hw : ∀ j, j < 8 → tmp.f (off + j) = some (w j))
    (hl : s.lc + 8 ≤ s.out.len) :
    ∃ o, copyWords tmp off s = ok { s with out := o, lc := s.lc + 8 } ∧ o.len = s.out.len ∧
      (∀ j, j < 8 → o.f (s.lc + j) = some (w j)) ∧ ∀ y, y < s.lc ∨ s.lc + 8 ≤ y → o.f y = s.out.f y := by
  unfold copyWords
  obtain ⟨s', e, o, h1, h2, h3, h4⟩ := forN_inv (body := fun j (s : CFSt) => do
      let w ← uget tmp (off + j)
      let o ← s.out.set s.lc (some w)
      ok { s with out := o, lc := s.lc + 1 })
    (fun j s' => ∃ o, s' = { s with out := o, lc := s.lc + j } ∧ o.len = s.out.len ∧
      (∀ j', j' < j → o.f (s.lc + j') = some (w j')) ∧ ∀ y, y < s.lc ∨ s.lc + j ≤ y → o.f y = s.out.f y)
    8 s ⟨s.out, rfl, rfl, by intro j hj; omega, fun _ _ => rfl⟩
    (by
      intro j s' hj ⟨o, h1, h2, h3, h4⟩
      subst h1
      rw [uget_ok (by omega) (hw j hj), ok_bind]
      rw [Vec.set_ok _ (by show s.lc + j < o.len; omega)]
      refine ⟨_, rfl, _, rfl, h2, ?_, ?_⟩
      · intro j' hj'
        show (if s.lc + j' = s.lc + j then _ else _) = _
        by_cases hjj : j' = j
        · rw [if_pos (by omega), hjj]
        · rw [if_neg (by omega), h3 j' (by omega)]
      · intro y hy
        show (if y = s.lc + j then _ else _) = _
        rw [if_neg (by omega), h4 y (by omega)])
  subst h1
  exact ⟨o, e, h2, h3, h4⟩

/-! ## The loop over the blocks left of the border -/

/-- State before block `q`; `N` is the border and the number of stored blocks. -/
structure CInv (t : Vec Byte) (N L q : Nat) (s : CFSt) : Prop where
  olen : s.out.len = L
  rlen : s.ranks.len = 2 * nblk t + 1
  lc : s.lc = 9 * q
  rr : N ≤ s.rr ∧ s.rr ≤ nblk t
  oc : s.oc = 2 * s.rr + 1
  cnt : ne t s.rr = ne t N + (q - ne t q)
  r0 : ∀ k, k ≤ nblk t → s.ranks.f (2 * k) = some (T t (512 * k))
  r1 : ∀ k, k < nblk t → k < N ∨ s.rr ≤ k ∨ Hom t k → s.ranks.f (2 * k + 1) = some (8 * ne t k)
  moved : ∀ k, N ≤ k → k < s.rr → ¬ Hom t k → ∃ P, s.ranks.f (2 * k + 1) = some P ∧ P + 8 ≤ 9 * q ∧
    ∀ j, j < 8 → s.out.f (P + j) = some (tword t (8 * k + j))
  o0 : ∀ k, k < q → s.out.f (9 * k) = some (BitVec.ofNat 64 (T t (512 * k)))
  ow : ∀ k, k < q → ¬ Hom t k → ∀ j, j < 8 → s.out.f (9 * k + 1 + j) = some (tword t (8 * k + j))
  on : ∀ y, 9 * q ≤ y → s.out.f y = none

theorem cfStep_ok {t : Vec Byte} {e : Vec (Option Bool)} (he : EmptyOK t e) {R N L q : Nat} {p : Pass}
    (hp : PassOK t R (8 * ne t (nblk t)) p) (hN : N = ne t (nblk t)) (hL : 9 * N ≤ L) {s : CFSt} (hq : q < N)
    (h : CInv t N L q s) : ∃ s', cfStep e p.bits q s = ok s' ∧ CInv t N L (q + 1) s' := by
  have hNle := ne_le t (nblk t)
  have hol := h.olen
  have hrl := h.rlen
  have hlc := h.lc
  have hpb := hp.blen
  unfold cfStep
  rw [uget_ok (by omega) (h.r0 q (by omega)), ok_bind, Vec.set_ok _ (by omega), ok_bind]
  simp only []
  rw [he.get (by omega), ok_bind]
  generalize ho : (⟨s.out.len, fun j => if j = s.lc then some (BitVec.ofNat 64 (T t (512 * q))) else s.out.f j⟩ :
    Vec (Option Word)) = o1
  have ol1 : o1.len = L := by rw [← ho]; exact hol
  have of1 : ∀ y, y ≠ 9 * q → o1.f y = s.out.f y := by
    intro y hy
    rw [← ho]
    show (if y = s.lc then _ else _) = _
    rw [if_neg (by omega)]
  have of2 : o1.f (9 * q) = some (BitVec.ofNat 64 (T t (512 * q))) := by
    rw [← ho]
    show (if 9 * q = s.lc then _ else _) = _
    rw [if_pos (by omega)]
  have hqle := ne_le t q
  by_cases hh : Hom t q
  · simp only [hh, decide_true, if_true]
    have hs := ne_succ t q
    rw [if_pos hh] at hs
    have hmono := he_mono t (show q + 1 ≤ N by omega)
    have hcnt := h.cnt
    obtain ⟨k, e1, k1, k2, k3, k4⟩ := findRight_ok he (e.len + 1) s.rr s.oc
      (by rw [he.len]; omega) (by omega) h.rr.2
    rw [e1, ok_bind]
    simp only []
    have hoc : s.oc + 2 * (k - s.rr) = 2 * k + 1 := by have := h.oc; omega
    have hst := stored_lt k2 k3
    rw [hoc, uget_ok (by omega) (h.r1 k k2 (Or.inr (Or.inl k1))), ok_bind, Vec.set_ok _ (by omega), ok_bind]
    obtain ⟨o, e2, l2, c2, r2⟩ := copyWords_ok (tmp := p.bits) (off := 8 * ne t k)
      (s := ⟨o1, ⟨s.ranks.len, fun j => if j = 2 * k + 1 then some (s.lc + 1) else s.ranks.f j⟩,
        s.lc + 1, s.rr, s.oc⟩) (w := fun j => tword t (8 * k + j)) (by omega) (fun j hj => hp.w k k2 k3 j hj)
      (by show s.lc + 1 + 8 ≤ o1.len; omega)
    rw [e2, ok_bind]
    have c2' : ∀ j, j < 8 → o.f (9 * q + 1 + j) = some (tword t (8 * k + j)) := by
      intro j hj
      rw [← hlc]; exact c2 j hj
    have r2' : ∀ y, y < 9 * q + 1 ∨ 9 * (q + 1) ≤ y → o.f y = o1.f y := by
      intro y hy
      exact r2 y (by show y < s.lc + 1 ∨ s.lc + 1 + 8 ≤ y; omega)
    have hks := ne_succ t k
    rw [if_neg k3] at hks
    refine ⟨_, rfl, by show o.len = _; rw [l2]; exact ol1, hrl, ?_, ?_, ?_, ?_, ?_, ?_, ?_, ?_, ?_, ?_⟩
    · show s.lc + 1 + 8 = _; omega
    · show N ≤ k + 1 ∧ k + 1 ≤ nblk t; have := h.rr.1; omega
    · show 2 * k + 1 + 2 = 2 * (k + 1) + 1; omega
    · show ne t (k + 1) = _; omega
    · intro k' hk'
      show (if 2 * k' = 2 * k + 1 then _ else _) = _
      rw [if_neg (by omega)]; exact h.r0 k' hk'
    · intro k' hk' hc
      show (if 2 * k' + 1 = 2 * k + 1 then _ else _) = _
      have hne : k' ≠ k := by
        intro hkk
        subst hkk
        rcases hc with hc | hc | hc
        · have := h.rr.1; omega
        · exact absurd hc (by show ¬ k' + 1 ≤ k'; omega)
        · exact k3 hc
      rw [if_neg (by omega)]
      apply h.r1 k' hk'
      rcases hc with hc | hc | hc
      · exact Or.inl hc
      · right; left; exact Nat.le_trans k1 (by have : k + 1 ≤ k' := hc; omega)
      · exact Or.inr (Or.inr hc)
    · intro k' hN' hlt hn
      have hlt' : k' < k + 1 := hlt
      by_cases hkk : k' = k
      · subst hkk
        refine ⟨s.lc + 1, if_pos rfl, by omega, c2⟩
      · have hkr : k' < s.rr := by
          -- blocks between `rr` and `k` are homogeneous
          refine Nat.lt_of_not_le (fun hge => ?_)
          have h1 := ne_succ t k'
          rw [if_neg hn] at h1
          have h2 := ne_mono t (show k' + 1 ≤ k by omega)
          have h3 := ne_mono t hge
          omega
        obtain ⟨P, p1, p2, p3⟩ := h.moved k' hN' hkr hn
        refine ⟨P, ?_, by omega, fun j hj => ?_⟩
        · show (if 2 * k' + 1 = 2 * k + 1 then _ else _) = _
          rw [if_neg (by omega)]; exact p1
        · show o.f _ = _
          rw [r2' _ (Or.inl (by omega)), of1 _ (by omega), p3 j hj]
    · intro k' hk'
      show o.f _ = _
      rw [r2' _ (Or.inl (by omega))]
      by_cases hkq : k' = q
      · rw [hkq, of2]
      · rw [of1 _ (by omega), h.o0 k' (by omega)]
    · intro k' hk' hn j hj
      have hkq : k' ≠ q := fun hkq => hn (hkq ▸ hh)
      show o.f _ = _
      rw [r2' _ (Or.inl (by omega)), of1 _ (by omega), h.ow k' (by omega) hn j hj]
    · intro y hy
      show o.f y = _
      rw [r2' _ (Or.inr (by omega)), of1 _ (by omega), h.on y (by omega)]
  · simp only [hh, decide_false, Bool.false_eq_true, if_false]
    have hs := ne_succ t q
    rw [if_neg hh] at hs
    have hst := stored_lt (show q < nblk t by omega) hh
    rw [uget_ok (by omega) (h.r1 q (by omega) (Or.inl hq)), ok_bind]
    obtain ⟨o, e2, l2, c2, r2⟩ := copyWords_ok (tmp := p.bits) (off := 8 * ne t q)
      (s := ⟨o1, s.ranks, s.lc + 1, s.rr, s.oc⟩) (w := fun j => tword t (8 * q + j)) (by omega)
      (fun j hj => hp.w q (by omega) hh j hj) (by show s.lc + 1 + 8 ≤ o1.len; omega)
    rw [e2]
    have c2' : ∀ j, j < 8 → o.f (9 * q + 1 + j) = some (tword t (8 * q + j)) := by
      intro j hj
      rw [← hlc]; exact c2 j hj
    have r2' : ∀ y, y < 9 * q + 1 ∨ 9 * (q + 1) ≤ y → o.f y = o1.f y := by
      intro y hy
      exact r2 y (by show y < s.lc + 1 ∨ s.lc + 1 + 8 ≤ y; omega)
    refine ⟨_, rfl, by show o.len = _; rw [l2]; exact ol1, hrl, ?_, h.rr, h.oc, ?_, h.r0, h.r1, ?_, ?_, ?_, ?_⟩
    · show s.lc + 1 + 8 = _; omega
    · show ne t s.rr = _; rw [h.cnt, hs]; omega
    · intro k' hN' hlt hn
      obtain ⟨P, p1, p2, p3⟩ := h.moved k' hN' hlt hn
      refine ⟨P, p1, by omega, fun j hj => ?_⟩
      show o.f _ = _
      rw [r2' _ (Or.inl (by omega)), of1 _ (by omega), p3 j hj]
    · intro k' hk'
      show o.f _ = _
      rw [r2' _ (Or.inl (by omega))]
      by_cases hkq : k' = q
      · rw [hkq, of2]
      · rw [of1 _ (by omega), h.o0 k' (by omega)]
    · intro k' hk' hn j hj
      show o.f _ = _
      by_cases hkq : k' = q
      · subst hkq; exact c2' j hj
      · rw [r2' _ (Or.inl (by omega)), of1 _ (by omega), h.ow k' (by omega) hn j hj]
    · intro y hy
      show o.f y = _
      rw [r2' _ (Or.inr (by omega)), of1 _ (by omega), h.on y (by omega)]

/-! ## The whole of `build` -/

/-- What `build` leaves. -/
structure CFOK (t : Vec Byte) (aB : Nat) (x : CF) : Prop where
  border : x.border = ne t (nblk t)
  bb : x.blockBorder = 9 * ne t (nblk t)
  tl : x.textLen = t.len
  bl : x.bitsLen = 7 * ne t (nblk t) + 2 * nblk t + 1
  len : x.bits.len = 7 * ne t (nblk t) + 2 * nblk t + 1 + room aB
  l0 : ∀ k, k < ne t (nblk t) → x.bits.f (9 * k) = some (BitVec.ofNat 64 (T t (512 * k)))
  lw : ∀ k, k < ne t (nblk t) → ¬ Hom t k → ∀ j, j < 8 → x.bits.f (9 * k + 1 + j) = some (tword t (8 * k + j))
  r0 : ∀ k, ne t (nblk t) ≤ k → k ≤ nblk t →
    x.bits.f (9 * ne t (nblk t) + 2 * (k - ne t (nblk t))) = some (BitVec.ofNat 64 (T t (512 * k)))
  rw : ∀ k, ne t (nblk t) ≤ k → k < nblk t → ¬ Hom t k → ∃ P,
    x.bits.f (9 * ne t (nblk t) + 2 * (k - ne t (nblk t)) + 1) = some (BitVec.ofNat 64 P) ∧
    P + 8 ≤ 9 * ne t (nblk t) ∧ ∀ j, j < 8 → x.bits.f (P + j) = some (tword t (8 * k + j))
  none : ∀ y, 7 * ne t (nblk t) + 2 * nblk t + 1 ≤ y → x.bits.f y = none

theorem cf_len {b n : Nat} (hb : b ≤ n) (hn : n < 2 ^ 60) :
    add64 (add64 (mul64 (sub64 b 1) 9) (mul64 (sub64 n (sub64 b 1)) 2)) 8 = 7 * b + 2 * n + 1 := by
  unfold add64 mul64 sub64
  simp only [W64]
  omega

theorem buildCF_ok {t : Vec Byte} (aB : Nat) (hlen : t.len < 2 ^ 60) (h : 0 < ne t (nblk t) ∨ nblk t = 0) :
    ∃ x, buildCF aB t = ok x ∧ CFOK t aB x := by
  obtain ⟨e, e1, he⟩ := emptyBlocks_ok t
  have hNle := ne_le t (nblk t)
  have hnl := nblk_le t
  unfold buildCF
  rw [e1, ok_bind, notEmpty_ok he, ok_bind]
  simp only [show ne t (nblk t) * 8 = 8 * ne t (nblk t) by omega]
  obtain ⟨p, e2, hp⟩ := pass_ok he (R := 2 * nblk t + 1) (L := 8 * ne t (nblk t)) (by omega) (by omega)
  rw [e2, ok_bind]
  have hbord : findBorder e (nblk t) 0 0 (ne t (nblk t)) = ok (ne t (nblk t)) := by
    by_cases h0 : nblk t = 0
    · rw [h0, ne_zero]; rfl
    · have := findBorder_ok he (nblk t) 0 (by omega) (by omega) (by omega)
      rw [ne_zero, Nat.sub_zero, Nat.sub_zero] at this
      rw [this]; congr 1; omega
  rw [hbord, ok_bind, cf_len hNle (by omega)]
  generalize hN : ne t (nblk t) = N at *
  have hrr := hp.rlen
  obtain ⟨s, e3, hs⟩ := forN_inv (body := cfStep e p.bits) (CInv t N (7 * N + 2 * nblk t + 1 + room aB)) N
    ⟨fresh (7 * N + 2 * nblk t + 1 + room aB), p.ranks, 0, N, 2 * N + 1⟩
    ⟨rfl, hrr, rfl, ⟨Nat.le_refl _, hNle⟩, rfl, rfl, hp.r0, fun k hk _ => hp.r1 k hk,
      fun k h1 h2 => absurd h2 (by show ¬ k < N; omega), by intro k hk; omega, by intro k hk; omega,
      fun _ _ => rfl⟩
    (fun q s hq hi => cfStep_ok he (R := 2 * nblk t + 1) (by rw [hN]; exact hp) hN.symm (by omega) hq hi)
  rw [e3, ok_bind]
  have hol := hs.olen
  have hrl := hs.rlen
  have hlc := hs.lc
  -- every cell that is copied holds a value
  have hfull : ∀ k, k < nblk t → ∃ P, s.ranks.f (2 * k + 1) = some P := by
    intro k hk
    by_cases hc : k < N ∨ s.rr ≤ k ∨ Hom t k
    · exact ⟨_, hs.r1 k hk hc⟩
    · have h1 : ¬ k < N := fun hh => hc (Or.inl hh)
      have h2 : ¬ s.rr ≤ k := fun hh => hc (Or.inr (Or.inl hh))
      have h3 : ¬ Hom t k := fun hh => hc (Or.inr (Or.inr hh))
      obtain ⟨P, hP, -⟩ := hs.moved k (by omega) (by omega) h3
      exact ⟨P, hP⟩
  obtain ⟨c, e4, hc1, hc2, hc3, hc4, hc5⟩ := forFrom_inv (body := fun i (c : CFSt) => do
      let r ← uget c.ranks i
      let o ← c.out.set c.lc (some (BitVec.ofNat 64 r))
      ok { c with out := o, lc := c.lc + 1 })
    (fun i c => c.ranks = s.ranks ∧ c.out.len = s.out.len ∧ c.lc + 2 * N = 9 * N + i ∧
      (∀ y, y < 9 * N ∨ 9 * N + i ≤ y + 2 * N → c.out.f y = s.out.f y) ∧
      ∀ i', 2 * N ≤ i' → i' < i → ∃ v, s.ranks.f i' = some v ∧
        c.out.f (9 * N + (i' - 2 * N)) = some (BitVec.ofNat 64 v))
    (2 * nblk t + 1 - 2 * N) (2 * N) s ⟨rfl, rfl, by omega, fun _ _ => rfl, by intro i h1 h2; omega⟩
    (by
      intro i c h1 h2 ⟨a1, a2, a3, a4, a5⟩
      have hv : ∃ v, s.ranks.f i = some v := by
        by_cases hpar : i % 2 = 0
        · exact ⟨_, by rw [show i = 2 * (i / 2) by omega]; exact hs.r0 (i / 2) (by omega)⟩
        · obtain ⟨P, hP⟩ := hfull (i / 2) (by omega)
          exact ⟨P, by rw [show i = 2 * (i / 2) + 1 by omega]; exact hP⟩
      obtain ⟨v, hv⟩ := hv
      rw [a1, uget_ok (by omega) hv, ok_bind, Vec.set_ok _ (by omega)]
      refine ⟨_, rfl, rfl, a2, by show c.lc + 1 + 2 * N = _; omega, ?_, ?_⟩
      · intro y hy
        show (if y = c.lc then _ else _) = _
        rw [if_neg (by omega), a4 y (by omega)]
      · intro i' h3 h4
        by_cases hii : i' = i
        · subst hii
          refine ⟨v, hv, ?_⟩
          show (if 9 * N + (i' - 2 * N) = c.lc then _ else _) = _
          rw [if_pos (by omega)]
        · obtain ⟨v', b1, b2⟩ := a5 i' h3 (by omega)
          refine ⟨v', b1, ?_⟩
          show (if 9 * N + (i' - 2 * N) = c.lc then _ else _) = _
          rw [if_neg (by omega), b2])
  rw [show 2 * N + (2 * nblk t + 1 - 2 * N) = 2 * nblk t + 1 by omega] at hc3 hc4 hc5
  rw [e4, ok_bind]
  refine ⟨_, rfl, hN.symm, by show N * 9 = _; omega, rfl,
    by show 7 * N + 2 * nblk t + 1 = 7 * ne t (nblk t) + 2 * nblk t + 1; rw [hN], ?_, ?_, ?_, ?_, ?_, ?_⟩
  · show c.out.len = _; rw [hN]; omega
  · intro k hk
    rw [hN] at hk
    show c.out.f _ = _
    rw [hc4 _ (Or.inl (by omega)), hs.o0 k hk]
  · intro k hk hn j hj
    rw [hN] at hk
    show c.out.f _ = _
    rw [hc4 _ (Or.inl (by omega)), hs.ow k hk hn j hj]
  · intro k hk1 hk2
    rw [hN] at hk1
    rw [hN]
    show c.out.f _ = _
    obtain ⟨v, v1, v2⟩ := hc5 (2 * k) (by omega) (by omega)
    rw [hs.r0 k hk2] at v1
    injection v1 with v1
    rw [show 9 * N + 2 * (k - N) = 9 * N + (2 * k - 2 * N) by omega, v2, v1]
  · intro k hk1 hk2 hn
    rw [hN] at hk1
    rw [hN]
    have hkr : k < s.rr := by
      refine Nat.lt_of_not_le (fun hge => ?_)
      have h1 := ne_succ t k
      rw [if_neg hn] at h1
      have h2 := ne_mono t (show k + 1 ≤ nblk t by omega)
      have h3 := ne_mono t hge
      have h4 := hs.cnt
      have h5 := ne_le t N
      omega
    obtain ⟨P, p1, p2, p3⟩ := hs.moved k hk1 hkr hn
    refine ⟨P, ?_, p2, fun j hj => ?_⟩
    · show c.out.f _ = _
      obtain ⟨v, v1, v2⟩ := hc5 (2 * k + 1) (by omega) (by omega)
      rw [p1] at v1
      injection v1 with v1
      rw [show 9 * N + 2 * (k - N) + 1 = 9 * N + (2 * k + 1 - 2 * N) by omega, v2, v1]
    · show c.out.f _ = _
      rw [hc4 _ (Or.inl (by omega)), p3 j hj]
  · intro y hy
    rw [hN] at hy
    show c.out.f y = _
    rw [hc4 y (Or.inr (by omega)), hs.on y (by omega)]

/-- A text all of whose blocks are homogeneous cannot be built. -/
theorem buildCF_oob {t : Vec Byte} (aB : Nat) (hlen : t.len < 2 ^ 60) (h0 : 0 < nblk t)
    (h : ne t (nblk t) = 0) : buildCF aB t = ub .oob := by
  obtain ⟨e, e1, he⟩ := emptyBlocks_ok t
  have hnl := nblk_le t
  unfold buildCF
  rw [e1, ok_bind, notEmpty_ok he, ok_bind]
  simp only [show ne t (nblk t) * 8 = 8 * ne t (nblk t) by omega]
  obtain ⟨p, e2, hp⟩ := pass_ok he (R := 2 * nblk t + 1) (L := 8 * ne t (nblk t)) (by omega) (by omega)
  have hbord := findBorder_ok he (nblk t) 0 (by omega) (by omega) (by omega)
  rw [ne_zero, Nat.sub_zero, Nat.sub_zero, h] at hbord
  rw [e2, ok_bind, h, hbord, ok_bind]
  rw [show max 1 0 = 1 by rfl, cf_len (by omega) (by omega)]
  have hH : ∀ k, k < nblk t → Hom t k := by
    intro k hk
    by_cases hh : Hom t k
    · exact hh
    · have := stored_lt hk hh; omega
  have hstep : ∀ s : CFSt, s.lc = 0 → 0 < s.out.len → s.ranks = p.ranks → s.rr = 1 →
      cfStep e p.bits 0 s = ub .oob := by
    intro s s1 s2 s3 s4
    unfold cfStep
    rw [s3, uget_ok (by rw [hp.rlen]; omega) (hp.r0 0 (by omega)), ok_bind, s1, Vec.set_ok _ s2, ok_bind]
    simp only []
    rw [he.get h0, ok_bind, decide_eq_true (hH 0 h0), if_pos rfl, s4,
      findRight_oob he _ 1 _ (by rw [he.len]; omega) (fun k _ hk => hH k hk) (by omega)]
    rfl
  have : forN 1 (cfStep e p.bits) ⟨fresh (7 * 1 + 2 * nblk t + 1 + room aB), p.ranks, 0, 1, 2 * 1 + 1⟩ =
      ub .oob := by
    unfold forN forFrom
    rw [hstep _ rfl (by show 0 < 7 * 1 + 2 * nblk t + 1 + room aB; omega) rfl rfl]
    rfl
  rw [this]
  rfl

/-! ## Queries -/

theorem toNat_T {t : Vec Byte} (hlen : t.len < 2 ^ 60) {k : Nat} (hk : k ≤ nblk t) :
    (BitVec.ofNat 64 (T t (512 * k))).toNat = T t (512 * k) := by
  have h1 := T_le t (512 * k)
  have h2 := nblk_le t
  rw [BitVec.toNat_ofNat]
  exact Nat.mod_eq_of_lt (by omega)

theorem rankCF_ok {t : Vec Byte} {aB : Nat} {x : CF} (hx : CFOK t aB x) (hlen : t.len < 2 ^ 60) {i : Nat}
    (hi : i < 512 * nblk t) : rankCF x i = ok (T t i) := by
  have hq : i / 512 < nblk t := by omega
  have hl := hx.len
  have hN := ne_le t (nblk t)
  have hnl := nblk_le t
  have hfin : 512 * (i / 512) + i % 512 = i := by omega
  have him : i % 512 < 512 := Nat.mod_lt _ (by decide)
  unfold rankCF
  simp only []
  rw [hx.border, hx.bb]
  generalize i / 512 = q at *
  by_cases hb : q < ne t (nblk t)
  · rw [if_pos hb, show q * 8 + q = 9 * q by omega, uget_ok (by omega) (hx.l0 q hb), ok_bind]
    have hnext : x.bits.f (9 * q + 9) = some (BitVec.ofNat 64 (T t (512 * (q + 1)))) := by
      by_cases hb1 : q + 1 < ne t (nblk t)
      · exact hx.l0 (q + 1) hb1
      · have := hx.r0 (q + 1) (by omega) (by omega)
        rw [show 9 * ne t (nblk t) + 2 * (q + 1 - ne t (nblk t)) = 9 * q + 9 by omega] at this
        exact this
    rw [uget_ok (by omega) hnext, ok_bind, toNat_T hlen (by omega), toNat_T hlen (by omega)]
    rw [core hlen hq him, hfin]
    intro hh
    exact inBlock_ok him (by omega) (fun j hj => hx.lw q hb hh j hj)
  · rw [if_neg hb, uget_ok (by omega) (hx.r0 q (by omega) (by omega)), ok_bind]
    have hnext := hx.r0 (q + 1) (by omega) (by omega)
    rw [show 9 * ne t (nblk t) + 2 * (q + 1 - ne t (nblk t)) =
      9 * ne t (nblk t) + 2 * (q - ne t (nblk t)) + 2 by omega] at hnext
    rw [uget_ok (by omega) hnext, ok_bind, toNat_T hlen (by omega), toNat_T hlen (by omega)]
    rw [core hlen hq him, hfin]
    intro hh
    obtain ⟨P, p1, p2, p3⟩ := hx.rw q (by omega) hq hh
    rw [uget_ok (by omega) p1, ok_bind, BitVec.toNat_ofNat, Nat.mod_eq_of_lt (by omega)]
    exact inBlock_ok him (by omega) p3

theorem rankCF_end {t : Vec Byte} {aB : Nat} {x : CF} (hx : CFOK t aB x) {i : Nat}
    (hi : 512 * nblk t ≤ i) : ∃ f, rankCF x i = ub f := by
  have hq : nblk t ≤ i / 512 := by omega
  have hN := ne_le t (nblk t)
  have hl := hx.len
  unfold rankCF
  simp only []
  rw [hx.border, hx.bb, if_neg (by omega)]
  by_cases hqe : i / 512 = nblk t
  · rw [hqe, uget_ok (by omega) (hx.r0 (nblk t) hN (Nat.le_refl _)), ok_bind]
    obtain ⟨f, hf⟩ := uget_none (hx.none (9 * ne t (nblk t) + 2 * (nblk t - ne t (nblk t)) + 2) (by omega))
    exact ⟨f, by rw [hf]; rfl⟩
  · obtain ⟨f, hf⟩ := uget_none (hx.none (9 * ne t (nblk t) + 2 * (i / 512 - ne t (nblk t))) (by omega))
    exact ⟨f, by rw [hf]; rfl⟩

end MRS.Mran
