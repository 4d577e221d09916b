import Verif.Proofs.Hft.Limits

/-!
# Searches of TypeL past the end of a level

The size has a zero at bit `h` in binary, and all zeros above it are where the element type changes.  A
search that has taken all the ones above it looks for a node of height `h` that does not exist, and
finds the first node of height `h + 1` in its place.
-/

set_option autoImplicit false

namespace MRS.Hft

open Outcome Spec.Tree

/-- Wherever it starts, a search neither goes back nor adds to the value. -/
theorem findLevels_grows {probe : Nat → Nat → Outcome (Option Nat)} (L : Nat)
    (hp : ∀ h k, h < L → ∃ r, probe h k = ok r) : ∀ (H k node val : Nat), H ≤ L →
    ∃ r d, findLevels probe H k node val = ok (r, d) ∧ node ≤ r ∧ d ≤ val := by
  intro H
  induction H with
  | zero => intro k node val _; exact ⟨node, val, rfl, Nat.le_refl _, Nat.le_refl _⟩
  | succ H ih =>
    intro k node val hL
    obtain ⟨r, e⟩ := hp H k (by omega)
    unfold findLevels
    rw [e, ok_bind]
    cases r with
    | none => exact ih _ _ _ (by omega)
    | some v =>
      simp only
      split
      · obtain ⟨r, d, e1, e2, e3⟩ := ih (k <<< 1 + 1) (node + 1 <<< H) (val - v) (by omega)
        exact ⟨r, d, e1, Nat.le_trans (Nat.le_add_right _ _) e2, by omega⟩
      · exact ih _ _ _ (by omega)

/-- The search takes the ones above bit `h`. -/
theorem findLevels_ones {n h : Nat} {probe : Nat → Nat → Outcome (Option Nat)} {Q : Nat → Nat}
    {val : Nat}
    (hv : ∀ g k, 2 ^ g * (2 * k + 1) ≤ n → probe g k =
      ok (some (Q (2 ^ g * (2 * k + 1)) - Q (2 ^ (g + 1) * k)))) (L : Nat)
    (hm : ∀ g k, h < g → g < L → 2 ^ (g + 1) * k ≤ n → ¬ 2 ^ g * (2 * k + 1) ≤ n → probe g k = ok none)
    (mono : ∀ a b, a ≤ b → b ≤ n → Q a ≤ Q b) (hval : Q (2 ^ (h + 1) * (n / 2 ^ (h + 1))) ≤ val) :
    ∀ (d : Nat), h + 1 + d ≤ L →
      findLevels probe (h + 1 + d) (n / 2 ^ (h + 1 + d)) (2 ^ (h + 1 + d) * (n / 2 ^ (h + 1 + d)))
          (val - Q (2 ^ (h + 1 + d) * (n / 2 ^ (h + 1 + d)))) =
        findLevels probe (h + 1) (n / 2 ^ (h + 1)) (2 ^ (h + 1) * (n / 2 ^ (h + 1)))
          (val - Q (2 ^ (h + 1) * (n / 2 ^ (h + 1)))) := by
  intro d
  induction d with
  | zero => intro _; rfl
  | succ d ih =>
    intro hL
    rw [← ih (by omega)]
    show findLevels probe (h + 1 + d + 1) (n / 2 ^ (h + 1 + d + 1))
      (2 ^ (h + 1 + d + 1) * (n / 2 ^ (h + 1 + d + 1)))
      (val - Q (2 ^ (h + 1 + d + 1) * (n / 2 ^ (h + 1 + d + 1)))) = _
    generalize hG : h + 1 + d = G at *
    have hpos := Nat.two_pow_pos G
    have hhalf : n / 2 ^ (G + 1) = n / 2 ^ G / 2 := by rw [Nat.pow_succ, Nat.div_div_eq_div_mul]
    have hle1 : 2 ^ G * (n / 2 ^ G) ≤ n := Nat.mul_div_le _ _
    have hle2 : 2 ^ (G + 1) * (n / 2 ^ (G + 1)) ≤ n := Nat.mul_div_le _ _
    have s1 : (n / 2 ^ (G + 1)) <<< 1 = 2 * (n / 2 ^ (G + 1)) := by rw [Nat.shiftLeft_eq]; omega
    have s2 : 1 <<< G = 2 ^ G := by rw [Nat.shiftLeft_eq]; omega
    have e : 2 ^ G * (2 * (n / 2 ^ (G + 1)) + 1) = 2 ^ (G + 1) * (n / 2 ^ (G + 1)) + 2 ^ G :=
      node_eq G _
    have e0 : 2 ^ (G + 1) * (n / 2 ^ (G + 1)) = 2 ^ G * (2 * (n / 2 ^ (G + 1))) := by
      rw [Nat.pow_succ, Nat.mul_assoc]
    rw [findLevels]
    by_cases hb : n / 2 ^ G % 2 = 0
    · have e2 : n / 2 ^ G = 2 * (n / 2 ^ (G + 1)) := by omega
      have hmiss : ¬ 2 ^ G * (2 * (n / 2 ^ (G + 1)) + 1) ≤ n := by
        have := Nat.lt_mul_div_succ n hpos
        rw [e2] at this
        omega
      rw [hm G _ (by omega) (by omega) hle2 hmiss, ok_bind]
      simp only [s1]
      rw [e0, ← e2]
    · have e2 : n / 2 ^ G = 2 * (n / 2 ^ (G + 1)) + 1 := by omega
      have hn : 2 ^ G * (2 * (n / 2 ^ (G + 1)) + 1) ≤ n := by rw [← e2]; exact hle1
      have hd : 2 ^ G * (n / 2 ^ G) ≤ 2 ^ (h + 1) * (n / 2 ^ (h + 1)) := by
        have : n / 2 ^ G = n / 2 ^ (h + 1) / 2 ^ d := by
          rw [Nat.div_div_eq_div_mul, ← Nat.pow_add, hG]
        rw [this, ← hG, Nat.pow_add, Nat.mul_assoc]
        exact Nat.mul_le_mul_left _ (Nat.mul_div_le _ _)
      have hQ := mono _ _ hd (Nat.mul_div_le _ _)
      have hQ2 := mono (2 ^ (G + 1) * (n / 2 ^ (G + 1))) (2 ^ G * (2 * (n / 2 ^ (G + 1)) + 1))
        (by omega) hn
      rw [hv _ _ hn, ok_bind]
      simp only [s1, s2]
      rw [← e2] at hQ2 ⊢
      rw [if_pos (by omega), show 2 ^ (G + 1) * (n / 2 ^ (G + 1)) + 2 ^ G = 2 ^ G * (n / 2 ^ G) by
        rw [e2, e]]
      congr 1
      omega

/-- What the search of `TypeL` does with a value past the ones above bit `h`: `w` is the number
it compares with for the missing node of height `h`. -/
theorem findT_past {c : Cfg} {n : Nat} {level ends : Vec Nat} (hl : TLevOk c n level ends) {t : Three}
    {v : Nat → Nat} (hrep : typeLRep c n t v) {read : Nat → Nat → Outcome Nat} {Q : Nat → Nat}
    {val h w : Nat}
    (hr : ∀ g k, 2 ^ g * (2 * k + 1) ≤ n →
      read g k = ok (Q (2 ^ g * (2 * k + 1)) - Q (2 ^ (g + 1) * k)))
    (hread : ∀ g k y, typeLGet c level t g k = ok y → ∃ r, read g k = ok r)
    (hw : ∀ k, typeLGet c level t h k = ok (v (2 ^ (h + 1))) → read h k = ok w)
    (hQ0 : Q 0 = 0) (mono : ∀ a b, a ≤ b → b ≤ n → Q a ≤ Q b)
    (hh : h < Nat.log2 n) (h0 : n / 2 ^ h % 2 = 0) (hb : FirstBad c n h)
    (h8 : c.bs + h ≠ 8) (h16 : c.bs + h ≠ 16) (h64 : c.bs + (h + 1) ≤ 64)
    (hval : Q (2 ^ (h + 1) * (n / 2 ^ (h + 1))) + w ≤ val) :
    ∃ d, findL n (levelsN n) (probeT c level t read) val = ok (n, d) ∧
      d + (Q (2 ^ (h + 1) * (n / 2 ^ (h + 1))) + w) ≤ val := by
  have hpos := Nat.two_pow_pos h
  have hs : 2 ^ (h + 1) = 2 ^ h + 2 ^ h := by rw [Nat.pow_succ]; omega
  have hn0 : n ≠ 0 := by
    intro h; rw [h] at hh
    have : Nat.log2 0 = 0 := rfl
    omega
  obtain ⟨p, hp⟩ : ∃ p, p = Nat.log2 n + 1 := ⟨_, rfl⟩
  have hL : levelsN n = p + 1 := by unfold levelsN; rw [if_neg hn0]; omega
  have hge : ∀ g, g < p → 2 ^ g ≤ n := fun g hg => (Nat.le_log2 hn0).1 (by omega)
  have hnp : n / 2 ^ p = 0 := Nat.div_eq_of_lt ((Nat.log2_lt hn0).1 (by omega))
  have hok : ∀ g k, g < p → ∃ r, probeT c level t read g k = ok r := by
    intro g k hg
    unfold probeT
    rw [typeL_lpos hl (by omega), ok_bind]
    split
    · exact ⟨_, rfl⟩
    · obtain ⟨r, e⟩ := hread g k ((t.arr (typeBytes (c.bs + g))).f (tlev c n g + k)) (by
        unfold typeLGet Three.get
        rw [typeL_lpos hl (by omega), ok_bind, Vec.get_ok (by omega)])
      rw [e, ok_bind]
      exact ⟨_, rfl⟩
  have hv : ∀ g k, 2 ^ g * (2 * k + 1) ≤ n → probeT c level t read g k =
      ok (some (Q (2 ^ g * (2 * k + 1)) - Q (2 ^ (g + 1) * k))) := by
    intro g k hle
    unfold probeT
    rw [typeL_lpos hl (by have := height_lt hle; omega), ok_bind,
      if_neg (Nat.not_le.2 (hrep.lt g k hle)), hr g k hle, ok_bind]
  have hmiss : ∀ g k, h < g → g < p → 2 ^ (g + 1) * k ≤ n → ¬ 2 ^ g * (2 * k + 1) ≤ n →
      probeT c level t read g k = ok none := by
    intro g k hg hgp hk hno
    obtain ⟨m1, m2⟩ := missing hk hno
    have hlast := hrep.last g (hge g hgp) (hb g hg (Nat.lt_of_le_of_ne (by omega) fun hgl => by
      have h5 : n / 2 ^ g = 1 := by
        apply Nat.div_eq_of_lt_le
        · rw [Nat.one_mul]; exact hge g hgp
        · have h4 : n < 2 ^ (g + 1) := (Nat.log2_lt hn0).1 (by omega)
          rw [Nat.pow_succ] at h4; omega
      omega) m1)
    have hcnt : cnt n g ≤ k := Nat.not_lt.1 fun hk => hno ((lt_cnt n g k).1 hk)
    unfold probeT
    rw [typeL_lpos hl (by omega), ok_bind, if_pos (by omega)]
  have e := findLevels_ones (val := val) (h := h) hv p hmiss mono (by omega) (p - (h + 1)) (by omega)
  rw [show h + 1 + (p - (h + 1)) = p by omega, hnp, Nat.mul_zero, hQ0, Nat.sub_zero] at e
  have hlow : n < 2 ^ (h + 1) * (n / 2 ^ (h + 1)) + 2 ^ h := by
    have a := Nat.lt_mul_div_succ n hpos
    have b : n / 2 ^ (h + 1) = n / 2 ^ h / 2 := by rw [Nat.pow_succ, Nat.div_div_eq_div_mul]
    have d : n / 2 ^ h = 2 * (n / 2 ^ (h + 1)) := by omega
    rw [d, Nat.mul_add, Nat.mul_one, ← Nat.mul_assoc, ← Nat.pow_succ] at a
    exact a
  have hxle : 2 ^ (h + 1) * (n / 2 ^ (h + 1)) ≤ n := Nat.mul_div_le _ _
  have h3 : 2 ^ (h + 1) ≤ n := hge _ (by omega)
  generalize hk : n / 2 ^ (h + 1) = k at *
  have hcnt : cnt n h = k := by
    unfold cnt
    apply Nat.div_eq_of_lt_le
    · rw [Nat.mul_comm]; omega
    · rw [Nat.succ_mul, Nat.mul_comm]; omega
  have hlev : tlev c n (h + 1) + 0 = tlev c n h + k := by
    rw [tlev, if_neg (by omega), hcnt]; omega
  have hty : typeBytes (c.bs + (h + 1)) = typeBytes (c.bs + h) := by
    unfold typeBytes
    repeat' split
    all_goals omega
  have hnx : 2 ^ (h + 1) * (2 * 0 + 1) ≤ n := by simp; omega
  have hlt := hrep.lt (h + 1) 0 hnx
  have hval' := hrep.val (h + 1) 0 hnx
  rw [hlev, hty] at hlt hval'
  simp only [Nat.mul_zero, Nat.zero_add, Nat.mul_one] at hval'
  have hpr : probeT c level t read h k = ok (some w) := by
    unfold probeT
    rw [typeL_lpos hl (by omega), ok_bind, if_neg (Nat.not_le.2 hlt), hw k (by
      unfold typeLGet Three.get
      rw [typeL_lpos hl (by omega), ok_bind, Vec.get_ok hlt, hval']), ok_bind]
  obtain ⟨r, d, e1, e2, e3⟩ := findLevels_grows p hok h (k <<< 1 + 1) (2 ^ (h + 1) * k + 1 <<< h)
    (val - Q (2 ^ (h + 1) * k) - w) (by omega)
  rw [Nat.shiftLeft_eq, Nat.one_mul] at e2
  refine ⟨d, ?_, by omega⟩
  unfold findL
  rw [hL, Nat.add_sub_cancel, e, findLevels, hpr, ok_bind]
  simp only
  rw [if_pos (by omega), e1, ok_bind]
  simp only [Nat.min_eq_right (show n ≤ r by omega)]

end MRS.Hft
