import Verif.Proofs.Mranisz.Sel

/-! # Compressed select: `build` -/

set_option autoImplicit false

namespace MRS.Mran
open Outcome Spec Poppy

variable {t : Vec Byte} {L TH : Nat}

/-! ## First loop -/

theorem div_step {a : Nat} (hL : 1 ≤ L) :
    (a + 1) / L = a / L + (if (a + 1) % L = 0 then 1 else 0) ∧ ((a + 1) % L = 0 → (a / L + 1) * L = a + 1) := by
  have h1 := Nat.div_add_mod a L
  have h2 := Nat.mod_lt a hL
  have h3 := Nat.div_add_mod (a + 1) L
  have h4 := Nat.mod_lt (a + 1) hL
  rw [Nat.mul_comm] at h1 h3
  by_cases h : a % L + 1 = L
  · have hq : (a + 1) / L = a / L + 1 := by
      rw [Nat.div_eq_iff (by omega)]
      rw [Nat.add_mul, Nat.one_mul]
      omega
    rw [hq, Nat.add_mul, Nat.one_mul] at h3
    have hr : (a + 1) % L = 0 := by omega
    rw [if_pos hr]
    exact ⟨hq, fun _ => by rw [Nat.add_mul, Nat.one_mul]; omega⟩
  · have hq : (a + 1) / L = a / L := by
      rw [Nat.div_eq_iff (by omega)]
      omega
    rw [hq] at h3
    have hr : (a + 1) % L ≠ 0 := by omega
    rw [if_neg hr]
    exact ⟨hq, fun hh => absurd hh hr⟩

/-- Bytes that the first loop counts for a complete block. -/
def sz1 (t : Vec Byte) (L TH m : Nat) : Nat :=
  if bl t L m > TH then 8 * (L - 1)
  else if bl t L m > L then
    if m = 0 then bl t L m / 8 + (if bl t L m % 8 > 0 then 1 else 0)
    else (bl t L m - 1) / 8 + (if (bl t L m - 1) % 8 > 0 then 1 else 0)
  else 0

/-- State before position `p`. -/
structure S1Inv (t : Vec Byte) (L TH SL p : Nat) (s : Sel1) : Prop where
  len : s.sel.len = SL
  select : s.select = T t p
  cnt : s.cnt = 2 * (T t p / L) + 2
  last : 1 ≤ T t p → s.last = sel t (T t p)
  ev : ∀ m, m ≤ T t p / L → s.sel.f (2 * m) = some (en t L m - 1) ∧ s.sel.f (2 * m + 1) = some 0
  bits : s.bitsLen = psum (sz1 t L TH) (T t p / L)
  none : ∀ y, 2 * (T t p / L) + 2 ≤ y → s.sel.f y = none

theorem nbk_ge (t : Vec Byte) (L : Nat) : tot t / L ≤ nbk t L := by unfold nbk; omega

theorem entries_eq (t : Vec Byte) (L : Nat) : entries L (tot t) = 2 * nbk t L + 2 := by
  unfold entries nbk; split <;> omega

theorem bl_lt (hL : 1 ≤ L) (hlen : t.len < 2 ^ 60) {m : Nat} (h : m ≤ nbk t L) : en t L m < 2 ^ 64 := by
  have := en_le hL h
  omega

theorem len_eq (hL : 1 ≤ L) (hlen : t.len < 2 ^ 60) {m : Nat} (h : m < nbk t L) :
    (if 2 * m + 2 + 2 = 4 then add64 (sub64 (en t L (m + 1) - 1) (en t L m - 1)) 1
      else sub64 (en t L (m + 1) - 1) (en t L m - 1)) = bl t L m := by
  have h1 := en_lt hL h
  have h2 := bl_lt hL hlen (show m + 1 ≤ nbk t L by omega)
  have h4 := en_le (t := t) hL (show m + 1 ≤ nbk t L by omega)
  rw [sub64_eq (by omega) (by simp only [W64]; omega)]
  unfold bl
  by_cases hm : m = 0
  · subst hm
    rw [if_pos rfl]
    have h3 : en t L 0 = 0 := rfl
    unfold add64
    simp only [W64]
    omega
  · rw [if_neg (by omega)]
    have h3 : 1 ≤ en t L m := by
      obtain ⟨k, rfl⟩ := Nat.exists_eq_succ_of_ne_zero hm
      exact (en_last hL (by omega)).2.1
    omega

theorem sel1Step_ok {SL p : Nat} {s : Sel1} (hL : 1 ≤ L) (hlen : t.len < 2 ^ 60)
    (hSL : 2 * nbk t L + 2 ≤ SL) (hp : p < 8 * t.len) (h : S1Inv t L TH SL p s) :
    ∃ s', sel1Step L TH t p s = ok s' ∧ S1Inv t L TH SL (p + 1) s' := by
  unfold sel1Step
  rw [bitAt_ok hp, ok_bind]
  have hT := T_succ t p
  cases hb : tbit t p
  · rw [if_neg (by simp)]
    rw [hb] at hT
    have hT' : T t (p + 1) = T t p := hT
    refine ⟨s, rfl, h.len, ?_, ?_, ?_, ?_, ?_, ?_⟩
    · rw [hT']; exact h.select
    · rw [hT']; exact h.cnt
    · rw [hT']; exact h.last
    · rw [hT']; exact h.ev
    · rw [hT']; exact h.bits
    · rw [hT']; exact h.none
  · rw [if_pos rfl]
    rw [hb] at hT
    have hT' : T t (p + 1) = T t p + 1 := hT
    simp only [h.select]
    have hsel : sel t (T t p + 1) = p := sel_eq hp hb rfl
    obtain ⟨hd, hm⟩ := div_step (a := T t p) hL
    have htot : T t p + 1 ≤ tot t := by rw [← hT']; exact T_le_tot t _
    by_cases hz : (T t p + 1) % L = 0
    · rw [if_pos hz] at hd
      have hm := hm hz
      simp only [hz, if_true]
      have hcn := h.cnt
      have hKle : T t p / L + 1 ≤ tot t / L := by
        have := Nat.div_le_div_right (c := L) htot
        omega
      have hge := nbk_ge t L
      have hen : en t L (T t p / L + 1) - 1 = p := by
        have he : en t L (T t p / L + 1) = sel t (ob t L (T t p / L + 1)) + 1 := if_neg (by omega)
        rw [he, Nat.add_sub_cancel, ob_full hKle, hm, hsel]
      have hlq := len_eq (m := T t p / L) hL hlen (by omega)
      have hl := h.len
      have hev := h.ev (T t p / L) (Nat.le_refl _)
      have hS := h.ev
      have hB := h.bits
      have hN := h.none
      generalize hc : T t p / L = c at *
      rw [Vec.set_ok _ (by omega), ok_bind, Vec.set_ok _ (by show s.cnt + 1 < s.sel.len; omega), ok_bind]
      simp only []
      rw [hcn, show 2 * c + 2 + 2 - 2 = 2 * c + 2 by omega, show 2 * c + 2 + 2 - 4 = 2 * c by omega]
      rw [uget_ok (a := p) (by show 2 * c + 2 < s.sel.len; omega)
        (by show (if 2 * c + 2 = 2 * c + 2 + 1 then _ else if 2 * c + 2 = 2 * c + 2 then _ else _) = _
            rw [if_neg (by omega), if_pos rfl]), ok_bind]
      rw [uget_ok (a := en t L c - 1) (by show 2 * c < s.sel.len; omega)
        (by show (if 2 * c = 2 * c + 2 + 1 then _ else if 2 * c = 2 * c + 2 then _ else _) = _
            rw [if_neg (by omega), if_neg (by omega)]; exact hev.1), ok_bind]
      rw [hen] at hlq
      rw [hlq]
      have key : ∀ B, B = psum (sz1 t L TH) (c + 1) → S1Inv t L TH SL (p + 1)
          ⟨⟨s.sel.len, fun j => if j = 2 * c + 2 + 1 then some 0 else if j = 2 * c + 2 then
            some p else s.sel.f j⟩, T t p + 1, 2 * c + 2 + 2, p, B⟩ := by
        intro B hBB
        refine ⟨hl, hT'.symm, ?_, ?_, ?_, ?_, ?_⟩
        · rw [hT', hd]; show 2 * c + 2 + 2 = _; omega
        · intro _; rw [hT', hsel]
        · intro m hm'
          rw [hT', hd] at hm'
          by_cases hmc : m = c + 1
          · subst hmc
            refine ⟨?_, ?_⟩
            · show (if 2 * (c + 1) = 2 * c + 2 + 1 then _ else if 2 * (c + 1) = 2 * c + 2 then _ else _) = _
              rw [if_neg (by omega), if_pos (by omega), hen]
            · show (if 2 * (c + 1) + 1 = 2 * c + 2 + 1 then _ else _) = _
              rw [if_pos (by omega)]
          · have := hS m (by omega)
            refine ⟨?_, ?_⟩
            · show (if 2 * m = 2 * c + 2 + 1 then _ else if 2 * m = 2 * c + 2 then _ else _) = _
              rw [if_neg (by omega), if_neg (by omega)]; exact this.1
            · show (if 2 * m + 1 = 2 * c + 2 + 1 then _ else if 2 * m + 1 = 2 * c + 2 then _ else _) = _
              rw [if_neg (by omega), if_neg (by omega)]; exact this.2
        · rw [hT', hd]; exact hBB
        · intro y hy
          rw [hT', hd] at hy
          show (if y = 2 * c + 2 + 1 then _ else if y = 2 * c + 2 then _ else _) = _
          rw [if_neg (by omega), if_neg (by omega)]
          exact hN y (by omega)
      have hpp : psum (sz1 t L TH) (c + 1) = s.bitsLen + sz1 t L TH c := by rw [psum_succ, hB]
      unfold sz1 at hpp
      by_cases h1 : bl t L c > TH
      · rw [if_pos h1] at hpp ⊢
        exact ⟨_, rfl, key _ hpp.symm⟩
      · rw [if_neg h1] at hpp ⊢
        by_cases h2 : bl t L c > L
        · rw [if_pos h2] at hpp ⊢
          by_cases h3 : c = 0
          · rw [if_pos h3, ← Nat.add_assoc] at hpp
            rw [if_pos (by omega)]
            exact ⟨_, rfl, key _ hpp.symm⟩
          · rw [if_neg h3, ← Nat.add_assoc] at hpp
            rw [if_neg (by omega)]
            exact ⟨_, rfl, key _ hpp.symm⟩
        · rw [if_neg h2] at hpp
          rw [if_neg h2]
          exact ⟨_, rfl, key s.bitsLen hpp.symm⟩
    · rw [if_neg hz, Nat.add_zero] at hd
      rw [if_neg hz]
      refine ⟨_, rfl, h.len, hT'.symm, ?_, ?_, ?_, ?_, ?_⟩
      · rw [hT', hd]; exact h.cnt
      · intro _; rw [hT', hsel]
      · rw [hT', hd]; exact h.ev
      · rw [hT', hd]; exact h.bits
      · rw [hT', hd]; exact h.none

/-- Bytes that the step after the loop counts for an incomplete last block. -/
def szLast (t : Vec Byte) (L TH : Nat) : Nat :=
  if tot t % L > 0 then
    let len := if tot t / L = 0 then bl t L 0 - 1 else bl t L (tot t / L)
    if len > TH then 8 * (tot t % L) else len / 8 + (if len % 8 > 0 then 1 else 0)
  else 0

/-- After the first part. -/
structure S1OK (t : Vec Byte) (L TH SL : Nat) (s : Sel1) : Prop where
  len : s.sel.len = SL
  cnt : s.cnt = 2 * nbk t L + 2
  ev : ∀ m, m ≤ nbk t L → s.sel.f (2 * m) = some (en t L m - 1) ∧ s.sel.f (2 * m + 1) = some 0
  bits : s.bitsLen = psum (sz1 t L TH) (tot t / L) + szLast t L TH
  none : ∀ y, 2 * nbk t L + 2 ≤ y → s.sel.f y = none

theorem sel1_ok {SL : Nat} (hL : 1 ≤ L) (hlen : t.len < 2 ^ 60) (hSL : 2 * nbk t L + 2 ≤ SL) :
    ∃ s, sel1 L TH t (tot t) (fresh SL) = ok s ∧ S1OK t L TH SL s := by
  unfold sel1
  rw [Vec.set_ok _ (show 0 < (fresh SL : Vec (Option Nat)).len by show 0 < SL; omega), ok_bind,
    Vec.set_ok _ (by show 1 < SL; omega), ok_bind]
  obtain ⟨s, e, h⟩ := forN_inv (body := sel1Step L TH t) (S1Inv t L TH SL) (8 * t.len)
    ⟨⟨SL, fun j => if j = 1 then some 0 else if j = 0 then some 0 else (fresh SL : Vec (Option Nat)).f j⟩,
      0, 2, 0, 0⟩
    (by
      have h0 : T t 0 / L = 0 := by rw [T_zero]; exact Nat.zero_div L
      refine ⟨rfl, (T_zero t).symm, by rw [h0], by intro hh; rw [T_zero] at hh; omega, ?_, by rw [h0]; rfl, ?_⟩
      · intro m hm
        rw [h0] at hm
        have : m = 0 := by omega
        subst this
        exact ⟨rfl, rfl⟩
      · intro y hy
        rw [h0] at hy
        show (if y = 1 then _ else if y = 0 then _ else _) = _
        rw [if_neg (by omega), if_neg (by omega)]
        rfl)
    (fun p s hp hi => sel1Step_ok hL hlen hSL hp hi)
  have e' : forN (8 * t.len) (sel1Step L TH t) ⟨⟨(fresh SL : Vec (Option Nat)).len, fun j => if j = 1 then some 0
      else if j = 0 then some 0 else (fresh SL : Vec (Option Nat)).f j⟩, 0, 2, 0, 0⟩ = ok s := e
  rw [e', ok_bind]
  have hl := h.len
  have hs : s.select = tot t := h.select
  have hc : s.cnt = 2 * (tot t / L) + 2 := h.cnt
  have hla : 1 ≤ tot t → s.last = sel t (tot t) := h.last
  have hev : ∀ m, m ≤ tot t / L → s.sel.f (2 * m) = some (en t L m - 1) ∧ s.sel.f (2 * m + 1) = some 0 := h.ev
  have hB : s.bitsLen = psum (sz1 t L TH) (tot t / L) := h.bits
  have hN : ∀ y, 2 * (tot t / L) + 2 ≤ y → s.sel.f y = none := h.none
  by_cases hr : tot t % L > 0
  · rw [if_pos hr]
    have hnb : nbk t L = tot t / L + 1 := by unfold nbk; rw [if_pos hr]
    have hlq := len_eq (m := tot t / L) hL hlen (by omega)
    have hen : en t L (tot t / L + 1) - 1 = sel t (tot t) := by
      rw [← hnb]
      have he : en t L (nbk t L) = sel t (ob t L (nbk t L)) + 1 := if_neg (by omega)
      rw [he, Nat.add_sub_cancel, ob_all hL]
    have hpos : 1 ≤ tot t := by
      have := Nat.mod_le (tot t) L
      omega
    have hla := hla hpos
    have hsz : szLast t L TH = (if sub64 (en t L (tot t / L + 1) - 1) (en t L (tot t / L) - 1) > TH then
        8 * (tot t % L) else sub64 (en t L (tot t / L + 1) - 1) (en t L (tot t / L) - 1) / 8 +
          (if sub64 (en t L (tot t / L + 1) - 1) (en t L (tot t / L) - 1) % 8 > 0 then 1 else 0)) := by
      unfold szLast
      rw [if_pos hr]
      simp only []
      have : (if tot t / L = 0 then bl t L 0 - 1 else bl t L (tot t / L)) =
          sub64 (en t L (tot t / L + 1) - 1) (en t L (tot t / L) - 1) := by
        by_cases h0 : tot t / L = 0
        · rw [h0] at hlq ⊢
          rw [if_pos rfl] at hlq ⊢
          rw [← hlq]
          have h2 := bl_lt (t := t) hL hlen (show 0 + 1 ≤ nbk t L by omega)
          have h4 := en_le (t := t) hL (show 0 + 1 ≤ nbk t L by omega)
          have h5 := en_lt (t := t) hL (show 0 < nbk t L by omega)
          rw [sub64_eq (by rw [en_zero]; omega) (by simp only [W64]; omega)]
          unfold add64
          rw [en_zero]
          simp only [W64]
          omega
        · rw [if_neg (by omega)] at hlq
          rw [if_neg h0, hlq]
      rw [this]
    generalize hK : tot t / L = K at *
    rw [Vec.set_ok _ (by omega), ok_bind, Vec.set_ok _ (by show s.cnt + 1 < s.sel.len; omega), ok_bind]
    simp only []
    rw [hc, show 2 * K + 2 + 2 - 2 = 2 * K + 2 by omega, show 2 * K + 2 + 2 - 4 = 2 * K by omega]
    rw [uget_ok (a := s.last) (by show 2 * K + 2 < s.sel.len; omega)
      (by show (if 2 * K + 2 = 2 * K + 2 + 1 then _ else if 2 * K + 2 = 2 * K + 2 then _ else _) = _
          rw [if_neg (by omega), if_pos rfl]), ok_bind]
    rw [uget_ok (a := en t L K - 1) (by show 2 * K < s.sel.len; omega)
      (by show (if 2 * K = 2 * K + 2 + 1 then _ else if 2 * K = 2 * K + 2 then _ else _) = _
          rw [if_neg (by omega), if_neg (by omega)]; exact (hev K (Nat.le_refl _)).1), ok_bind]
    rw [hla, ← hen, hs]
    have key : ∀ B, B = s.bitsLen + szLast t L TH → S1OK t L TH SL
        ⟨⟨s.sel.len, fun j => if j = 2 * K + 2 + 1 then some 0 else if j = 2 * K + 2 then
          some (en t L (K + 1) - 1) else s.sel.f j⟩, tot t, 2 * K + 2 + 2, en t L (K + 1) - 1, B⟩ := by
      intro B hBB
      refine ⟨hl, ?_, ?_, ?_, ?_⟩
      · show 2 * K + 2 + 2 = _; omega
      · intro m hm
        by_cases hmc : m = K + 1
        · subst hmc
          refine ⟨?_, ?_⟩
          · show (if 2 * (K + 1) = 2 * K + 2 + 1 then _ else if 2 * (K + 1) = 2 * K + 2 then _ else _) = _
            rw [if_neg (by omega), if_pos (by omega)]
          · show (if 2 * (K + 1) + 1 = 2 * K + 2 + 1 then _ else _) = _
            rw [if_pos (by omega)]
        · have := hev m (by omega)
          refine ⟨?_, ?_⟩
          · show (if 2 * m = 2 * K + 2 + 1 then _ else if 2 * m = 2 * K + 2 then _ else _) = _
            rw [if_neg (by omega), if_neg (by omega)]; exact this.1
          · show (if 2 * m + 1 = 2 * K + 2 + 1 then _ else if 2 * m + 1 = 2 * K + 2 then _ else _) = _
            rw [if_neg (by omega), if_neg (by omega)]; exact this.2
      · rw [hK, ← hB]; exact hBB
      · intro y hy
        show (if y = 2 * K + 2 + 1 then _ else if y = 2 * K + 2 then _ else _) = _
        rw [if_neg (by omega), if_neg (by omega)]
        exact hN y (by omega)
    by_cases h1 : sub64 (en t L (K + 1) - 1) (en t L K - 1) > TH
    · rw [if_pos h1] at hsz ⊢
      exact ⟨_, rfl, key _ (by rw [hsz])⟩
    · rw [if_neg h1] at hsz ⊢
      exact ⟨_, rfl, key _ (by rw [hsz, Nat.add_assoc])⟩
  · rw [if_neg hr]
    have hnb : nbk t L = tot t / L := by unfold nbk; rw [if_neg hr, Nat.add_zero]
    have hz : szLast t L TH = 0 := by unfold szLast; rw [if_neg hr]
    refine ⟨s, rfl, hl, by rw [hnb]; exact hc, by rw [hnb]; exact hev, by rw [hz]; exact hB, by rw [hnb]; exact hN⟩

end MRS.Mran
