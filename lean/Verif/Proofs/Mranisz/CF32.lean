import Verif.Proofs.Mranisz.CF
import Verif.Proofs.Mranisz.HPass
import Verif.Proofs.Mranisz.Basic32

/-! # 32-bit compressed rank: `RankCF32` -/

set_option autoImplicit false

namespace MRS.Mran
open Outcome Spec Poppy

/-! ## Copying the words of a block -/

theorem copyInts_ok {tmp : Vec (Option Half)} {off : Nat} {s : CFSt32} {w : Nat → Half}
    (ho : off + 16 ≤ tmp.len) (hw : ∀ j, j < 16 → tmp.f (off + j) = some (w j))
    (hl : s.lc + 16 ≤ s.out.len) :
    ∃ o, copyInts tmp off s = ok { s with out := o, lc := s.lc + 16 } ∧ o.len = s.out.len ∧
      (∀ j, j < 16 → o.f (s.lc + j) = some (w j)) ∧ ∀ y, y < s.lc ∨ s.lc + 16 ≤ y → o.f y = s.out.f y := by
  unfold copyInts
  obtain ⟨s', e, o, h1, h2, h3, h4⟩ := forN_inv (body := fun j (s : CFSt32) => do
      let w ← uget tmp (off + j)
      let o ← s.out.set s.lc (some w)
      ok { s with out := o, lc := s.lc + 1 })
    (fun j s' => ∃ o, s' = { s with out := o, lc := s.lc + j } ∧ o.len = s.out.len ∧
      (∀ j', j' < j → o.f (s.lc + j') = some (w j')) ∧ ∀ y, y < s.lc ∨ s.lc + j ≤ y → o.f y = s.out.f y)
    16 s ⟨s.out, rfl, rfl, by intro j hj; omega, fun _ _ => rfl⟩
    (by
      intro j s' hj ⟨o, h1, h2, h3, h4⟩
      subst h1
      rw [uget_ok (by omega) (hw j hj), ok_bind]
      rw [Vec.set_ok _ (by show s.lc + j < o.len; omega)]
      refine ⟨_, rfl, _, rfl, h2, ?_, ?_⟩
      · intro j' hj'
        show (if s.lc + j' = s.lc + j then _ else _) = _
        by_cases hjj : j' = j
        · rw [if_pos (by omega), hjj]
        · rw [if_neg (by omega), h3 j' (by omega)]
      · intro y hy
        show (if y = s.lc + j then _ else _) = _
        rw [if_neg (by omega), h4 y (by omega)])
  subst h1
  exact ⟨o, e, h2, h3, h4⟩

/-! ## The loop over the blocks left of the border -/

/-- State before block `q`; `N` is the border and the number of stored blocks. -/
structure CInv32 (t : Vec Byte) (N L q : Nat) (s : CFSt32) : Prop where
  olen : s.out.len = L
  rlen : s.ranks.len = 2 * nblk t + 1
  lc : s.lc = 17 * q
  rr : N ≤ s.rr ∧ s.rr ≤ nblk t
  oc : s.oc = 2 * s.rr + 1
  cnt : ne t s.rr = ne t N + (q - ne t q)
  r0 : ∀ k, k ≤ nblk t → s.ranks.f (2 * k) = some (T t (512 * k) % W32)
  r1 : ∀ k, k < nblk t → k < N ∨ s.rr ≤ k ∨ Hom t k → s.ranks.f (2 * k + 1) = some (16 * ne t k)
  moved : ∀ k, N ≤ k → k < s.rr → ¬ Hom t k → ∃ P, s.ranks.f (2 * k + 1) = some P ∧ P + 16 ≤ 17 * q ∧
    ∀ j, j < 16 → s.out.f (P + j) = some (thalf t (16 * k + j))
  o0 : ∀ k, k < q → s.out.f (17 * k) = some (BitVec.ofNat 32 (T t (512 * k) % W32))
  ow : ∀ k, k < q → ¬ Hom t k → ∀ j, j < 16 → s.out.f (17 * k + 1 + j) = some (thalf t (16 * k + j))
  on : ∀ y, 17 * q ≤ y → s.out.f y = none

theorem cfStep32_ok {t : Vec Byte} {e : Vec (Option Bool)} (he : EmptyOK t e) {R N L q : Nat} {p : HPass}
    (hp : HPassOK t R (16 * ne t (nblk t)) p) (hN : N = ne t (nblk t)) (hL : 17 * N ≤ L) {s : CFSt32} (hq : q < N)
    (h : CInv32 t N L q s) : ∃ s', cfStep32 e p.bits q s = ok s' ∧ CInv32 t N L (q + 1) s' := by
  have hNle := ne_le t (nblk t)
  have hol := h.olen
  have hrl := h.rlen
  have hlc := h.lc
  have hpb := hp.blen
  unfold cfStep32
  rw [uget_ok (by omega) (h.r0 q (by omega)), ok_bind, Vec.set_ok _ (by omega), ok_bind]
  simp only []
  rw [he.get (by omega), ok_bind]
  generalize ho : (⟨s.out.len, fun j => if j = s.lc then some (BitVec.ofNat 32 (T t (512 * q) % W32)) else s.out.f j⟩ :
    Vec (Option Half)) = o1
  have ol1 : o1.len = L := by rw [← ho]; exact hol
  have of1 : ∀ y, y ≠ 17 * q → o1.f y = s.out.f y := by
    intro y hy
    rw [← ho]
    show (if y = s.lc then _ else _) = _
    rw [if_neg (by omega)]
  have of2 : o1.f (17 * q) = some (BitVec.ofNat 32 (T t (512 * q) % W32)) := by
    rw [← ho]
    show (if 17 * q = s.lc then _ else _) = _
    rw [if_pos (by omega)]
  have hqle := ne_le t q
  by_cases hh : Hom t q
  · simp only [hh, decide_true, if_true]
    have hs := ne_succ t q
    rw [if_pos hh] at hs
    have hmono := he_mono t (show q + 1 ≤ N by omega)
    have hcnt := h.cnt
    obtain ⟨k, e1, k1, k2, k3, k4⟩ := findRight_ok he (e.len + 1) s.rr s.oc
      (by rw [he.len]; omega) (by omega) h.rr.2
    rw [e1, ok_bind]
    simp only []
    have hoc : s.oc + 2 * (k - s.rr) = 2 * k + 1 := by have := h.oc; omega
    have hst := stored_lt k2 k3
    rw [hoc, uget_ok (by omega) (h.r1 k k2 (Or.inr (Or.inl k1))), ok_bind, Vec.set_ok _ (by omega), ok_bind]
    obtain ⟨o, e2, l2, c2, r2⟩ := copyInts_ok (tmp := p.bits) (off := 16 * ne t k)
      (s := ⟨o1, ⟨s.ranks.len, fun j => if j = 2 * k + 1 then some (s.lc + 1) else s.ranks.f j⟩,
        s.lc + 1, s.rr, s.oc⟩) (w := fun j => thalf t (16 * k + j)) (by omega) (fun j hj => hp.w k k2 k3 j hj)
      (by show s.lc + 1 + 16 ≤ o1.len; omega)
    rw [e2, ok_bind]
    have c2' : ∀ j, j < 16 → o.f (17 * q + 1 + j) = some (thalf t (16 * k + j)) := by
      intro j hj
      rw [← hlc]; exact c2 j hj
    have r2' : ∀ y, y < 17 * q + 1 ∨ 17 * (q + 1) ≤ y → o.f y = o1.f y := by
      intro y hy
      exact r2 y (by show y < s.lc + 1 ∨ s.lc + 1 + 16 ≤ y; omega)
    have hks := ne_succ t k
    rw [if_neg k3] at hks
    refine ⟨_, rfl, by show o.len = _; rw [l2]; exact ol1, hrl, ?_, ?_, ?_, ?_, ?_, ?_, ?_, ?_, ?_, ?_⟩
    · show s.lc + 1 + 16 = _; omega
    · show N ≤ k + 1 ∧ k + 1 ≤ nblk t; have := h.rr.1; omega
    · show 2 * k + 1 + 2 = 2 * (k + 1) + 1; omega
    · show ne t (k + 1) = _; omega
    · intro k' hk'
      show (if 2 * k' = 2 * k + 1 then _ else _) = _
      rw [if_neg (by omega)]; exact h.r0 k' hk'
    · intro k' hk' hc
      show (if 2 * k' + 1 = 2 * k + 1 then _ else _) = _
      have hne : k' ≠ k := by
        intro hkk
        subst hkk
        rcases hc with hc | hc | hc
        · have := h.rr.1; omega
        · exact absurd hc (by show ¬ k' + 1 ≤ k'; omega)
        · exact k3 hc
      rw [if_neg (by omega)]
      apply h.r1 k' hk'
      rcases hc with hc | hc | hc
      · exact Or.inl hc
      · right; left; exact Nat.le_trans k1 (by have : k + 1 ≤ k' := hc; omega)
      · exact Or.inr (Or.inr hc)
    · intro k' hN' hlt hn
      have hlt' : k' < k + 1 := hlt
      by_cases hkk : k' = k
      · subst hkk
        refine ⟨s.lc + 1, if_pos rfl, by omega, c2⟩
      · have hkr : k' < s.rr := by
          -- blocks between `rr` and `k` are homogeneous
          refine Nat.lt_of_not_le (fun hge => ?_)
          have h1 := ne_succ t k'
          rw [if_neg hn] at h1
          have h2 := ne_mono t (show k' + 1 ≤ k by omega)
          have h3 := ne_mono t hge
          omega
        obtain ⟨P, p1, p2, p3⟩ := h.moved k' hN' hkr hn
        refine ⟨P, ?_, by omega, fun j hj => ?_⟩
        · show (if 2 * k' + 1 = 2 * k + 1 then _ else _) = _
          rw [if_neg (by omega)]; exact p1
        · show o.f _ = _
          rw [r2' _ (Or.inl (by omega)), of1 _ (by omega), p3 j hj]
    · intro k' hk'
      show o.f _ = _
      rw [r2' _ (Or.inl (by omega))]
      by_cases hkq : k' = q
      · rw [hkq, of2]
      · rw [of1 _ (by omega), h.o0 k' (by omega)]
    · intro k' hk' hn j hj
      have hkq : k' ≠ q := fun hkq => hn (hkq ▸ hh)
      show o.f _ = _
      rw [r2' _ (Or.inl (by omega)), of1 _ (by omega), h.ow k' (by omega) hn j hj]
    · intro y hy
      show o.f y = _
      rw [r2' _ (Or.inr (by omega)), of1 _ (by omega), h.on y (by omega)]
  · simp only [hh, decide_false, Bool.false_eq_true, if_false]
    have hs := ne_succ t q
    rw [if_neg hh] at hs
    have hst := stored_lt (show q < nblk t by omega) hh
    rw [uget_ok (by omega) (h.r1 q (by omega) (Or.inl hq)), ok_bind]
    obtain ⟨o, e2, l2, c2, r2⟩ := copyInts_ok (tmp := p.bits) (off := 16 * ne t q)
      (s := ⟨o1, s.ranks, s.lc + 1, s.rr, s.oc⟩) (w := fun j => thalf t (16 * q + j)) (by omega)
      (fun j hj => hp.w q (by omega) hh j hj) (by show s.lc + 1 + 16 ≤ o1.len; omega)
    rw [e2]
    have c2' : ∀ j, j < 16 → o.f (17 * q + 1 + j) = some (thalf t (16 * q + j)) := by
      intro j hj
      rw [← hlc]; exact c2 j hj
    have r2' : ∀ y, y < 17 * q + 1 ∨ 17 * (q + 1) ≤ y → o.f y = o1.f y := by
      intro y hy
      exact r2 y (by show y < s.lc + 1 ∨ s.lc + 1 + 16 ≤ y; omega)
    refine ⟨_, rfl, by show o.len = _; rw [l2]; exact ol1, hrl, ?_, h.rr, h.oc, ?_, h.r0, h.r1, ?_, ?_, ?_, ?_⟩
    · show s.lc + 1 + 16 = _; omega
    · show ne t s.rr = _; rw [h.cnt, hs]; omega
    · intro k' hN' hlt hn
      obtain ⟨P, p1, p2, p3⟩ := h.moved k' hN' hlt hn
      refine ⟨P, p1, by omega, fun j hj => ?_⟩
      show o.f _ = _
      rw [r2' _ (Or.inl (by omega)), of1 _ (by omega), p3 j hj]
    · intro k' hk'
      show o.f _ = _
      rw [r2' _ (Or.inl (by omega))]
      by_cases hkq : k' = q
      · rw [hkq, of2]
      · rw [of1 _ (by omega), h.o0 k' (by omega)]
    · intro k' hk' hn j hj
      show o.f _ = _
      by_cases hkq : k' = q
      · subst hkq; exact c2' j hj
      · rw [r2' _ (Or.inl (by omega)), of1 _ (by omega), h.ow k' (by omega) hn j hj]
    · intro y hy
      show o.f y = _
      rw [r2' _ (Or.inr (by omega)), of1 _ (by omega), h.on y (by omega)]

/-! ## The whole of `build` -/

/-- What `build` leaves. -/
structure CF32OK (t : Vec Byte) (aB : Nat) (x : CF32) : Prop where
  border : x.border = ne t (nblk t)
  bb : x.blockBorder = 17 * ne t (nblk t)
  tl : x.textLen = t.len
  bl : x.bitsLen = 15 * ne t (nblk t) + 2 * nblk t + 1
  len : x.bits.len = 15 * ne t (nblk t) + 2 * nblk t + 1 + room32 aB
  l0 : ∀ k, k < ne t (nblk t) → x.bits.f (17 * k) = some (BitVec.ofNat 32 (T t (512 * k) % W32))
  lw : ∀ k, k < ne t (nblk t) → ¬ Hom t k → ∀ j, j < 16 → x.bits.f (17 * k + 1 + j) = some (thalf t (16 * k + j))
  r0 : ∀ k, ne t (nblk t) ≤ k → k ≤ nblk t →
    x.bits.f (17 * ne t (nblk t) + 2 * (k - ne t (nblk t))) = some (BitVec.ofNat 32 (T t (512 * k) % W32))
  rw : ∀ k, ne t (nblk t) ≤ k → k < nblk t → ¬ Hom t k → ∃ P,
    x.bits.f (17 * ne t (nblk t) + 2 * (k - ne t (nblk t)) + 1) = some (BitVec.ofNat 32 P) ∧
    P + 16 ≤ 17 * ne t (nblk t) ∧ ∀ j, j < 16 → x.bits.f (P + j) = some (thalf t (16 * k + j))
  none : ∀ y, 15 * ne t (nblk t) + 2 * nblk t + 1 ≤ y → x.bits.f y = none

theorem cf_len32 {b n : Nat} (hb : b ≤ n) (hn : n < 2 ^ 26) :
    add32 (add32 (mul32 (sub32 b 1) 17) (mul32 (sub32 n (sub32 b 1)) 2)) 16 = 15 * b + 2 * n + 1 := by
  unfold add32 mul32 sub32
  simp only [W32]
  omega

theorem buildCF32_ok {t : Vec Byte} (aB : Nat) (hlen : t.len ≤ 2 ^ 32 - 64) (h : 0 < ne t (nblk t) ∨ nblk t = 0) :
    ∃ x, buildCF32 aB t = ok x ∧ CF32OK t aB x := by
  obtain ⟨e, e1, he⟩ := emptyBlocks_ok t
  have hNle := ne_le t (nblk t)
  have hnl := nblk_lt32 hlen
  unfold buildCF32
  rw [emptyBlocks32_eq hlen]
  rw [e1, ok_bind, notEmpty32_eq hlen, notEmpty_ok he, ok_bind]
  simp only [nblk32_eq hlen, show ne t (nblk t) * 16 = 16 * ne t (nblk t) by omega]
  obtain ⟨p, e2, hp⟩ := hpass_ok hlen he (R := 2 * nblk t + 1) (L := 16 * ne t (nblk t)) (by omega) (by omega)
  rw [e2, ok_bind]
  have hbord : findBorder e (nblk t) 0 0 (ne t (nblk t)) = ok (ne t (nblk t)) := by
    by_cases h0 : nblk t = 0
    · rw [h0, ne_zero]; rfl
    · have := findBorder_ok he (nblk t) 0 (by omega) (by omega) (by omega)
      rw [ne_zero, Nat.sub_zero, Nat.sub_zero] at this
      rw [this]; congr 1; omega
  rw [hbord, ok_bind, cf_len32 hNle (by omega)]
  generalize hN : ne t (nblk t) = N at *
  have hrr := hp.rlen
  obtain ⟨s, e3, hs⟩ := forN_inv (body := cfStep32 e p.bits) (CInv32 t N (15 * N + 2 * nblk t + 1 + room32 aB)) N
    ⟨fresh (15 * N + 2 * nblk t + 1 + room32 aB), p.ranks, 0, N, 2 * N + 1⟩
    ⟨rfl, hrr, rfl, ⟨Nat.le_refl _, hNle⟩, rfl, rfl, hp.r0, fun k hk _ => hp.r1 k hk,
      fun k h1 h2 => absurd h2 (by show ¬ k < N; omega), by intro k hk; omega, by intro k hk; omega,
      fun _ _ => rfl⟩
    (fun q s hq hi => cfStep32_ok he (R := 2 * nblk t + 1) (by rw [hN]; exact hp) hN.symm (by omega) hq hi)
  rw [e3, ok_bind]
  have hol := hs.olen
  have hrl := hs.rlen
  have hlc := hs.lc
  -- every cell that is copied holds a value
  have hfull : ∀ k, k < nblk t → ∃ P, s.ranks.f (2 * k + 1) = some P := by
    intro k hk
    by_cases hc : k < N ∨ s.rr ≤ k ∨ Hom t k
    · exact ⟨_, hs.r1 k hk hc⟩
    · have h1 : ¬ k < N := fun hh => hc (Or.inl hh)
      have h2 : ¬ s.rr ≤ k := fun hh => hc (Or.inr (Or.inl hh))
      have h3 : ¬ Hom t k := fun hh => hc (Or.inr (Or.inr hh))
      obtain ⟨P, hP, -⟩ := hs.moved k (by omega) (by omega) h3
      exact ⟨P, hP⟩
  obtain ⟨c, e4, hc1, hc2, hc3, hc4, hc5⟩ := forFrom_inv (body := fun i (c : CFSt32) => do
      let r ← uget c.ranks i
      let o ← c.out.set c.lc (some (BitVec.ofNat 32 r))
      ok { c with out := o, lc := c.lc + 1 })
    (fun i c => c.ranks = s.ranks ∧ c.out.len = s.out.len ∧ c.lc + 2 * N = 17 * N + i ∧
      (∀ y, y < 17 * N ∨ 17 * N + i ≤ y + 2 * N → c.out.f y = s.out.f y) ∧
      ∀ i', 2 * N ≤ i' → i' < i → ∃ v, s.ranks.f i' = some v ∧
        c.out.f (17 * N + (i' - 2 * N)) = some (BitVec.ofNat 32 v))
    (2 * nblk t + 1 - 2 * N) (2 * N) s ⟨rfl, rfl, by omega, fun _ _ => rfl, by intro i h1 h2; omega⟩
    (by
      intro i c h1 h2 ⟨a1, a2, a3, a4, a5⟩
      have hv : ∃ v, s.ranks.f i = some v := by
        by_cases hpar : i % 2 = 0
        · exact ⟨_, by rw [show i = 2 * (i / 2) by omega]; exact hs.r0 (i / 2) (by omega)⟩
        · obtain ⟨P, hP⟩ := hfull (i / 2) (by omega)
          exact ⟨P, by rw [show i = 2 * (i / 2) + 1 by omega]; exact hP⟩
      obtain ⟨v, hv⟩ := hv
      rw [a1, uget_ok (by omega) hv, ok_bind, Vec.set_ok _ (by omega)]
      refine ⟨_, rfl, rfl, a2, by show c.lc + 1 + 2 * N = _; omega, ?_, ?_⟩
      · intro y hy
        show (if y = c.lc then _ else _) = _
        rw [if_neg (by omega), a4 y (by omega)]
      · intro i' h3 h4
        by_cases hii : i' = i
        · subst hii
          refine ⟨v, hv, ?_⟩
          show (if 17 * N + (i' - 2 * N) = c.lc then _ else _) = _
          rw [if_pos (by omega)]
        · obtain ⟨v', b1, b2⟩ := a5 i' h3 (by omega)
          refine ⟨v', b1, ?_⟩
          show (if 17 * N + (i' - 2 * N) = c.lc then _ else _) = _
          rw [if_neg (by omega), b2])
  rw [show 2 * N + (2 * nblk t + 1 - 2 * N) = 2 * nblk t + 1 by omega] at hc3 hc4 hc5
  rw [e4, ok_bind]
  refine ⟨_, rfl, hN.symm, by show N * 17 = _; omega, rfl,
    by show 15 * N + 2 * nblk t + 1 = 15 * ne t (nblk t) + 2 * nblk t + 1; rw [hN], ?_, ?_, ?_, ?_, ?_, ?_⟩
  · show c.out.len = _; rw [hN]; omega
  · intro k hk
    rw [hN] at hk
    show c.out.f _ = _
    rw [hc4 _ (Or.inl (by omega)), hs.o0 k hk]
  · intro k hk hn j hj
    rw [hN] at hk
    show c.out.f _ = _
    rw [hc4 _ (Or.inl (by omega)), hs.ow k hk hn j hj]
  · intro k hk1 hk2
    rw [hN] at hk1
    rw [hN]
    show c.out.f _ = _
    obtain ⟨v, v1, v2⟩ := hc5 (2 * k) (by omega) (by omega)
    rw [hs.r0 k hk2] at v1
    injection v1 with v1
    rw [show 17 * N + 2 * (k - N) = 17 * N + (2 * k - 2 * N) by omega, v2, v1]
  · intro k hk1 hk2 hn
    rw [hN] at hk1
    rw [hN]
    have hkr : k < s.rr := by
      refine Nat.lt_of_not_le (fun hge => ?_)
      have h1 := ne_succ t k
      rw [if_neg hn] at h1
      have h2 := ne_mono t (show k + 1 ≤ nblk t by omega)
      have h3 := ne_mono t hge
      have h4 := hs.cnt
      have h5 := ne_le t N
      omega
    obtain ⟨P, p1, p2, p3⟩ := hs.moved k hk1 hkr hn
    refine ⟨P, ?_, p2, fun j hj => ?_⟩
    · show c.out.f _ = _
      obtain ⟨v, v1, v2⟩ := hc5 (2 * k + 1) (by omega) (by omega)
      rw [p1] at v1
      injection v1 with v1
      rw [show 17 * N + 2 * (k - N) + 1 = 17 * N + (2 * k + 1 - 2 * N) by omega, v2, v1]
    · show c.out.f _ = _
      rw [hc4 _ (Or.inl (by omega)), p3 j hj]
  · intro y hy
    rw [hN] at hy
    show c.out.f y = _
    rw [hc4 y (Or.inr (by omega)), hs.on y (by omega)]

/-- A text all of whose blocks are homogeneous cannot be built. -/
theorem buildCF32_oob {t : Vec Byte} (aB : Nat) (hlen : t.len ≤ 2 ^ 32 - 64) (h0 : 0 < nblk t)
    (h : ne t (nblk t) = 0) : buildCF32 aB t = ub .oob := by
  obtain ⟨e, e1, he⟩ := emptyBlocks_ok t
  have hnl := nblk_lt32 hlen
  unfold buildCF32
  rw [emptyBlocks32_eq hlen]
  rw [e1, ok_bind, notEmpty32_eq hlen, notEmpty_ok he, ok_bind]
  simp only [nblk32_eq hlen, show ne t (nblk t) * 16 = 16 * ne t (nblk t) by omega]
  obtain ⟨p, e2, hp⟩ := hpass_ok hlen he (R := 2 * nblk t + 1) (L := 16 * ne t (nblk t)) (by omega) (by omega)
  have hbord := findBorder_ok he (nblk t) 0 (by omega) (by omega) (by omega)
  rw [ne_zero, Nat.sub_zero, Nat.sub_zero, h] at hbord
  rw [e2, ok_bind, h, hbord, ok_bind]
  rw [show max 1 0 = 1 by rfl, cf_len32 (by omega) (by omega)]
  have hH : ∀ k, k < nblk t → Hom t k := by
    intro k hk
    by_cases hh : Hom t k
    · exact hh
    · have := stored_lt hk hh; omega
  have hstep : ∀ s : CFSt32, s.lc = 0 → 0 < s.out.len → s.ranks = p.ranks → s.rr = 1 →
      cfStep32 e p.bits 0 s = ub .oob := by
    intro s s1 s2 s3 s4
    unfold cfStep32
    rw [s3, uget_ok (by rw [hp.rlen]; omega) (hp.r0 0 (by omega)), ok_bind, s1, Vec.set_ok _ s2, ok_bind]
    simp only []
    rw [he.get h0, ok_bind, decide_eq_true (hH 0 h0), if_pos rfl, s4,
      findRight_oob he _ 1 _ (by rw [he.len]; omega) (fun k _ hk => hH k hk) (by omega)]
    rfl
  have : forN 1 (cfStep32 e p.bits) ⟨fresh (15 * 1 + 2 * nblk t + 1 + room32 aB), p.ranks, 0, 1, 2 * 1 + 1⟩ =
      ub .oob := by
    unfold forN forFrom
    rw [hstep _ rfl (by show 0 < 15 * 1 + 2 * nblk t + 1 + room32 aB; omega) rfl rfl]
    rfl
  rw [this]
  rfl

/-! ## Queries -/

theorem toNat_T32 (t : Vec Byte) (k : Nat) :
    (BitVec.ofNat 32 (T t (512 * k) % W32)).toNat = T t (512 * k) % W32 := by
  rw [BitVec.toNat_ofNat]
  exact Nat.mod_eq_of_lt (Nat.mod_lt _ (by decide))

theorem loadPair_ok {strict : Bool} {bits : Vec (Option Half)} {p : Nat} {a b : Half} (hp : p + 1 < bits.len)
    (hs : strict = true → p % 2 = 0) (h1 : bits.f p = some a) (h2 : bits.f (p + 1) = some b) :
    loadPair strict bits p = ok (b ++ a) := by
  unfold loadPair
  rw [if_neg (by
    intro hc
    rw [Bool.and_eq_true, decide_eq_true_eq] at hc
    have := hs hc.1
    omega), uget_ok (by omega) h1, ok_bind, uget_ok hp h2, ok_bind]

theorem inBlockCF32_ok {t : Vec Byte} {strict : Bool} {bits : Vec (Option Half)} {off q i : Nat} (hi : i < 512)
    (hp : 512 * q + i < 2 ^ 32) (hs : strict = true → off % 2 = 0)
    (hl : off + 16 ≤ bits.len) (hw : ∀ j, j < 16 → bits.f (off + j) = some (thalf t (16 * q + j))) :
    (do ok ((← inBlock32 strict bits off (T t (512 * q) % W32) i) % W32)) = ok (T t (512 * q + i)) := by
  have hT := T_le t (512 * q + i)
  have h0 := T_mono t (show 512 * q ≤ 512 * q + i by omega)
  rw [Nat.mod_eq_of_lt (show T t (512 * q) < W32 by simp only [W32]; omega)]
  have hld : ∀ k, k < 8 → loadPair strict bits (off + 2 * k) =
      ok (thalf t (2 * (8 * q + k) + 1) ++ thalf t (2 * (8 * q + k))) := by
    intro k hk
    have e0 := hw (2 * k) (by omega)
    have e1 := hw (2 * k + 1) (by omega)
    rw [show 16 * q + 2 * k = 2 * (8 * q + k) by omega] at e0
    rw [show 16 * q + (2 * k + 1) = 2 * (8 * q + k) + 1 by omega] at e1
    exact loadPair_ok (by omega) (fun h => by have := hs h; omega) e0 e1
  unfold inBlock32
  obtain ⟨r, e, hr⟩ := forN_inv (body := fun k r => do
      let w ← loadPair strict bits (off + 2 * k)
      ok (r + popcnt w))
    (fun k r => r = T t (64 * (8 * q + k))) (i / 64) (T t (512 * q)) (by
      rw [show 64 * (8 * q + 0) = 512 * q by omega])
    (by
      intro k r hk hr
      rw [hld k (by omega), ok_bind, swap_popcnt (swap_pair t (8 * q + k))]
      exact ⟨_, rfl, by rw [hr]; exact T_word_all t (8 * q + k)⟩)
  obtain ⟨m, em, hm⟩ := maskCF32At_ok (k := i - 64 * (i / 64)) (by omega)
  rw [e, ok_bind, hld (i / 64) (by omega), ok_bind, em, ok_bind, swap_popcnt (swap_and (swap_pair t _) hm),
    popcnt_mask _ (by omega), hr, ← T_word t _ (by omega),
    show 64 * (8 * q + i / 64) + (i - 64 * (i / 64)) = 512 * q + i by omega, ok_bind,
    Nat.mod_eq_of_lt (by simp only [W32]; omega)]

/-- The answer; with strict alignment the words of the block must start at an even unit. -/
theorem rankCF32_ok {t : Vec Byte} {aB : Nat} {x : CF32} (hx : CF32OK t aB x) (hlen : t.len ≤ 2 ^ 32 - 64)
    {strict : Bool} {i : Nat} (hi : i < 512 * nblk t) (hi2 : i < 2 ^ 32)
    (hs : strict = true → Hom t (i / 512) ∨ i / 512 < ne t (nblk t) ∧ i / 512 % 2 = 1) :
    rankCF32 strict x i = ok (T t i) := by
  have hq : i / 512 < nblk t := by omega
  have hl := hx.len
  have hN := ne_le t (nblk t)
  have hnl := nblk_lt32 hlen
  have hfin : 512 * (i / 512) + i % 512 = i := by omega
  have him : i % 512 < 512 := Nat.mod_lt _ (by decide)
  unfold rankCF32
  simp only []
  rw [hx.border, hx.bb]
  generalize i / 512 = q at *
  by_cases hb : q < ne t (nblk t)
  · rw [if_pos hb, show q * 16 + q = 17 * q by omega, uget_ok (by omega) (hx.l0 q hb), ok_bind]
    have hnext : x.bits.f (17 * q + 17) = some (BitVec.ofNat 32 (T t (512 * (q + 1)) % W32)) := by
      by_cases hb1 : q + 1 < ne t (nblk t)
      · exact hx.l0 (q + 1) hb1
      · have := hx.r0 (q + 1) (by omega) (by omega)
        rw [show 17 * ne t (nblk t) + 2 * (q + 1 - ne t (nblk t)) = 17 * q + 17 by omega] at this
        exact this
    rw [uget_ok (by omega) hnext, ok_bind, toNat_T32, toNat_T32]
    rw [core32 (by omega) him, hfin]
    intro hh
    refine inBlockCF32_ok him (by omega) (fun h => ?_) (by omega) (fun j hj => hx.lw q hb hh j hj)
    rcases hs h with h1 | h1
    · exact absurd h1 hh
    · omega
  · rw [if_neg hb, uget_ok (by omega) (hx.r0 q (by omega) (by omega)), ok_bind]
    have hnext := hx.r0 (q + 1) (by omega) (by omega)
    rw [show 17 * ne t (nblk t) + 2 * (q + 1 - ne t (nblk t)) =
      17 * ne t (nblk t) + 2 * (q - ne t (nblk t)) + 2 by omega] at hnext
    rw [uget_ok (by omega) hnext, ok_bind, toNat_T32, toNat_T32]
    rw [core32 (by omega) him, hfin]
    intro hh
    obtain ⟨P, p1, p2, p3⟩ := hx.rw q (by omega) hq hh
    rw [uget_ok (by omega) p1, ok_bind, BitVec.toNat_ofNat, Nat.mod_eq_of_lt (by omega)]
    refine inBlockCF32_ok him (by omega) (fun h => ?_) (by omega) p3
    rcases hs h with h1 | h1
    · exact absurd h1 hh
    · omega

/-- With strict alignment a mixed block left of the border in an even place cannot be asked. -/
theorem rankCF32_misaligned {t : Vec Byte} {aB : Nat} {x : CF32} (hx : CF32OK t aB x)
    {i : Nat} (hb : i / 512 < ne t (nblk t)) (he : i / 512 % 2 = 0)
    (h1 : T t (512 * (i / 512)) < T t (512 * (i / 512 + 1)))
    (h2 : T t (512 * (i / 512 + 1)) < T t (512 * (i / 512)) + 512) :
    rankCF32 true x i = ub .misaligned := by
  have hl := hx.len
  have hN := ne_le t (nblk t)
  unfold rankCF32
  simp only []
  rw [hx.border, if_pos hb]
  generalize i / 512 = q at *
  rw [show q * 16 + q = 17 * q by omega, uget_ok (by omega) (hx.l0 q hb), ok_bind]
  have hnext : x.bits.f (17 * q + 17) = some (BitVec.ofNat 32 (T t (512 * (q + 1)) % W32)) := by
    by_cases hb1 : q + 1 < ne t (nblk t)
    · exact hx.l0 (q + 1) hb1
    · have := hx.r0 (q + 1) (by omega) (by omega)
      rw [show 17 * ne t (nblk t) + 2 * (q + 1 - ne t (nblk t)) = 17 * q + 17 by omega] at this
      exact this
  rw [uget_ok (by omega) hnext, ok_bind, toNat_T32, toNat_T32]
  have hs : sub32 (T t (512 * (q + 1)) % W32) (T t (512 * q) % W32) = T t (512 * (q + 1)) - T t (512 * q) := by
    unfold sub32; simp only [W32]; omega
  rw [hs, if_neg (by
    rw [show (511 : Nat) = 2 ^ 9 - 1 by rfl, Nat.and_two_pow_sub_one_eq_mod]
    omega)]
  have hld : ∀ k, loadPair true x.bits (17 * q + 1 + 2 * k) = ub .misaligned := by
    intro k
    unfold loadPair
    rw [if_pos (by
      rw [Bool.true_and, decide_eq_true_eq]
      omega)]
  have hin : ∀ r j, inBlock32 true x.bits (17 * q + 1) r j = ub .misaligned := by
    intro r j
    unfold inBlock32
    cases hj : j / 64 with
    | zero =>
      have hfz : ∀ (f : Nat → Nat → Outcome Nat) (s : Nat), forN 0 f s = ok s := fun _ _ => rfl
      rw [hfz, ok_bind, hld]
      rfl
    | succ n =>
      unfold forN forFrom
      simp only [hld]
      rfl
  rw [hin]
  rfl

theorem rankCF32_end {t : Vec Byte} {aB : Nat} {x : CF32} (hx : CF32OK t aB x) {strict : Bool} {i : Nat}
    (hi : 512 * nblk t ≤ i) : ∃ f, rankCF32 strict x i = ub f := by
  have hq : nblk t ≤ i / 512 := by omega
  have hN := ne_le t (nblk t)
  have hl := hx.len
  unfold rankCF32
  simp only []
  rw [hx.border, hx.bb, if_neg (by omega)]
  by_cases hqe : i / 512 = nblk t
  · rw [hqe, uget_ok (by omega) (hx.r0 (nblk t) hN (Nat.le_refl _)), ok_bind]
    obtain ⟨f, hf⟩ := uget_none (hx.none (17 * ne t (nblk t) + 2 * (nblk t - ne t (nblk t)) + 2) (by omega))
    exact ⟨f, by rw [hf]; rfl⟩
  · obtain ⟨f, hf⟩ := uget_none (hx.none (17 * ne t (nblk t) + 2 * (i / 512 - ne t (nblk t))) (by omega))
    exact ⟨f, by rw [hf]; rfl⟩

end MRS.Mran
