import Verif.Model.Mranisz.Select32
import Verif.Proofs.Mranisz.SelBch
import Verif.Proofs.Mranisz.Basic32

/-! # 32-bit compressed select: what is stored, first loop -/

set_option autoImplicit false

namespace MRS.Mran.S32
open Outcome Spec Poppy

variable {t : Vec Byte} {L TH : Nat}

theorem sub32_eq {a b : Nat} (h : b ≤ a) (ha : a < W32) : sub32 a b = a - b := by
  unfold sub32
  simp only [W32] at *
  omega

theorem add32_eq {a b : Nat} (h : a + b < W32) : add32 a b = a + b := Nat.mod_eq_of_lt h

theorem add32_mod (a b : Nat) : add32 (a % W32) b = (a + b) % W32 := by
  unfold add32
  simp only [W32]
  omega

/-- Bytes that block `m` takes. -/
def wd (t : Vec Byte) (L TH m : Nat) : Nat :=
  if sparse t L TH m then 4 * sq t L m else if mono t L TH m then 0 else (sb t L m + 7) / 8

/-- Where they start. -/
def off (t : Vec Byte) (L TH m : Nat) : Nat := psum (wd t L TH) m

theorem off_succ (TH m : Nat) : off t L TH (m + 1) = off t L TH m + wd t L TH m := rfl
theorem off_mono (TH : Nat) {a b : Nat} (h : a ≤ b) : off t L TH a ≤ off t L TH b := psum_mono _ h

/-- The bytes of block `m`. -/
def Data (t : Vec Byte) (L TH m : Nat) (bits : Vec (Option Byte)) : Prop :=
  (sparse t L TH m = true → ∀ j, j < sq t L m → ∀ b, b < 4 →
    bits.f (off t L TH m + 4 * j + b) = some (BitVec.ofNat 8 (sel t (m * L + 1 + j) >>> (8 * b)))) ∧
  (sparse t L TH m = false → mono t L TH m = false → ∀ y, y < (sb t L m + 7) / 8 →
    bits.f (off t L TH m + y) = some (bacc t (en t L m + 8 * y) (min 8 (sb t L m - 8 * y))))

theorem Data.frame {TH m : Nat} {b b' : Vec (Option Byte)} (h : Data t L TH m b)
    (hf : ∀ y, y < off t L TH (m + 1) → b'.f y = b.f y) : Data t L TH m b' := by
  rw [off_succ] at hf
  unfold wd at hf
  refine ⟨fun h1 j hj c hc => ?_, fun h1 h2 y hy => ?_⟩
  · rw [h1, if_pos rfl] at hf
    rw [hf _ (by omega), h.1 h1 j hj c hc]
  · rw [h1, h2, if_neg (by simp), if_neg (by simp)] at hf
    rw [hf _ (by omega), h.2 h1 h2 y hy]

theorem countOnes_ok (hlen : t.len < 2 ^ 29) : countOnes t = ok (tot t) := by
  unfold countOnes
  obtain ⟨n, e, h⟩ := forN_inv (body := fun i (n : Nat) => do
      let c ← t.get i
      ok (add32 n (popcnt (c.setWidth 64)))) (fun i n => n = T t (8 * i)) t.len 0 (T_zero t).symm
    (by
      intro i n hi h
      rw [Vec.get_ok hi, ok_bind]
      refine ⟨_, rfl, ?_⟩
      have := T_bcnt (t := t) i (Nat.le_refl 8)
      have h8 := T_le t (8 * i + 8)
      have hby : popcnt ((t.f i).setWidth 64) = bcnt (tbyte t i) 8 := by
        rw [byte_popcnt]; unfold tbyte; rw [if_pos hi]
      rw [show 8 * (i + 1) = 8 * i + 8 by omega, h, hby]
      unfold add32
      rw [← this]
      exact Nat.mod_eq_of_lt (by simp only [W32]; omega))
  rw [e, h]
  rfl

/-- Bytes that the first loop counts for a complete block. -/
def sz1 (t : Vec Byte) (L TH m : Nat) : Nat :=
  if bl t L m > TH then 4 * (L - 1)
  else if bl t L m > L then
    if m = 0 then bl t L m / 8 + (if bl t L m % 8 > 0 then 1 else 0)
    else (bl t L m - 1) / 8 + (if (bl t L m - 1) % 8 > 0 then 1 else 0)
  else 0

/-- State before position `p`. -/
structure S1Inv (t : Vec Byte) (L TH SL p : Nat) (s : Sel1) : Prop where
  len : s.sel.len = SL
  select : s.select = T t p
  cnt : s.cnt = 2 * (T t p / L) + 2
  last : 1 ≤ T t p → s.last = sel t (T t p)
  ev : ∀ m, m ≤ T t p / L → s.sel.f (2 * m) = some (en t L m - 1) ∧ s.sel.f (2 * m + 1) = some 0
  bits : s.bitsLen = psum (sz1 t L TH) (T t p / L) % W32
  none : ∀ y, 2 * (T t p / L) + 2 ≤ y → s.sel.f y = none

theorem entries_eq (h : 2 * nbk t L + 2 < W32) : entries L (tot t) = 2 * nbk t L + 2 := by
  have : 2 * (tot t / L) + 2 + (if tot t % L > 0 then 2 else 0) = 2 * nbk t L + 2 := by
    unfold nbk; split <;> omega
  unfold entries
  rw [this, Nat.mod_eq_of_lt h]

theorem len_eq (hL : 1 ≤ L) (hlen : t.len < 2 ^ 29) {m : Nat} (h : m < nbk t L) :
    (if 2 * m + 2 + 2 = 4 then add32 (sub32 (en t L (m + 1) - 1) (en t L m - 1)) 1
      else sub32 (en t L (m + 1) - 1) (en t L m - 1)) = bl t L m := by
  have h1 := en_lt hL h
  have h2 := en_le (t := t) hL (show m + 1 ≤ nbk t L by omega)
  have h4 := en_le (t := t) hL (show m + 1 ≤ nbk t L by omega)
  rw [sub32_eq (by omega) (by simp only [W32]; omega)]
  unfold bl
  by_cases hm : m = 0
  · subst hm
    rw [if_pos rfl]
    have h3 : en t L 0 = 0 := rfl
    unfold add32
    simp only [W32]
    omega
  · rw [if_neg (by omega)]
    have h3 : 1 ≤ en t L m := by
      obtain ⟨k, rfl⟩ := Nat.exists_eq_succ_of_ne_zero hm
      exact (en_last hL (by omega)).2.1
    omega

theorem sel1Step_ok {SL p : Nat} {s : Sel1} (hL : 1 ≤ L) (hlen : t.len < 2 ^ 29)
    (hSL : 2 * (T t (p + 1) / L) + 2 ≤ SL) (hp : p < 8 * t.len) (h : S1Inv t L TH SL p s) :
    ∃ s', sel1Step L TH t p s = ok s' ∧ S1Inv t L TH SL (p + 1) s' := by
  unfold sel1Step
  rw [bitAt_ok hp, ok_bind]
  have hT := T_succ t p
  cases hb : tbit t p
  · rw [if_neg (by simp)]
    rw [hb] at hT
    have hT' : T t (p + 1) = T t p := hT
    refine ⟨s, rfl, h.len, ?_, ?_, ?_, ?_, ?_, ?_⟩
    · rw [hT']; exact h.select
    · rw [hT']; exact h.cnt
    · rw [hT']; exact h.last
    · rw [hT']; exact h.ev
    · rw [hT']; exact h.bits
    · rw [hT']; exact h.none
  · rw [if_pos rfl]
    rw [hb] at hT
    have hT' : T t (p + 1) = T t p + 1 := hT
    have hsel : sel t (T t p + 1) = p := sel_eq hp hb rfl
    have hTle := T_le t (p + 1)
    simp only [h.select, add32_eq (show T t p + 1 < W32 by simp only [W32]; omega), Nat.mod_eq_of_lt (show p < W32 by simp only [W32]; omega)]
    obtain ⟨hd, hm⟩ := div_step (a := T t p) hL
    have htot : T t p + 1 ≤ tot t := by rw [← hT']; exact T_le_tot t _
    by_cases hz : (T t p + 1) % L = 0
    · rw [if_pos hz] at hd
      rw [hT', hd] at hSL
      have hm := hm hz
      simp only [hz, if_true]
      have hcn := h.cnt
      have hKle : T t p / L + 1 ≤ tot t / L := by
        have := Nat.div_le_div_right (c := L) htot
        omega
      have hge := nbk_ge t L
      have hen : en t L (T t p / L + 1) - 1 = p := by
        have he : en t L (T t p / L + 1) = sel t (ob t L (T t p / L + 1)) + 1 := if_neg (by omega)
        rw [he, Nat.add_sub_cancel, ob_full hKle, hm, hsel]
      have hlq := len_eq (m := T t p / L) hL hlen (by omega)
      have hl := h.len
      have hev := h.ev (T t p / L) (Nat.le_refl _)
      have hS := h.ev
      have hB := h.bits
      have hN := h.none
      generalize hc : T t p / L = c at *
      rw [Vec.set_ok _ (by omega), ok_bind, Vec.set_ok _ (by show s.cnt + 1 < s.sel.len; omega), ok_bind]
      simp only []
      rw [hcn, show 2 * c + 2 + 2 - 2 = 2 * c + 2 by omega, show 2 * c + 2 + 2 - 4 = 2 * c by omega]
      rw [uget_ok (a := p) (by show 2 * c + 2 < s.sel.len; omega)
        (by show (if 2 * c + 2 = 2 * c + 2 + 1 then _ else if 2 * c + 2 = 2 * c + 2 then _ else _) = _
            rw [if_neg (by omega), if_pos rfl]), ok_bind]
      rw [uget_ok (a := en t L c - 1) (by show 2 * c < s.sel.len; omega)
        (by show (if 2 * c = 2 * c + 2 + 1 then _ else if 2 * c = 2 * c + 2 then _ else _) = _
            rw [if_neg (by omega), if_neg (by omega)]; exact hev.1), ok_bind]
      rw [hen] at hlq
      rw [hlq]
      have key : ∀ B, B = psum (sz1 t L TH) (c + 1) % W32 → S1Inv t L TH SL (p + 1)
          ⟨⟨s.sel.len, fun j => if j = 2 * c + 2 + 1 then some 0 else if j = 2 * c + 2 then
            some p else s.sel.f j⟩, T t p + 1, 2 * c + 2 + 2, p, B⟩ := by
        intro B hBB
        refine ⟨hl, hT'.symm, ?_, ?_, ?_, ?_, ?_⟩
        · rw [hT', hd]; show 2 * c + 2 + 2 = _; omega
        · intro _; rw [hT', hsel]
        · intro m hm'
          rw [hT', hd] at hm'
          by_cases hmc : m = c + 1
          · subst hmc
            refine ⟨?_, ?_⟩
            · show (if 2 * (c + 1) = 2 * c + 2 + 1 then _ else if 2 * (c + 1) = 2 * c + 2 then _ else _) = _
              rw [if_neg (by omega), if_pos (by omega), hen]
            · show (if 2 * (c + 1) + 1 = 2 * c + 2 + 1 then _ else _) = _
              rw [if_pos (by omega)]
          · have := hS m (by omega)
            refine ⟨?_, ?_⟩
            · show (if 2 * m = 2 * c + 2 + 1 then _ else if 2 * m = 2 * c + 2 then _ else _) = _
              rw [if_neg (by omega), if_neg (by omega)]; exact this.1
            · show (if 2 * m + 1 = 2 * c + 2 + 1 then _ else if 2 * m + 1 = 2 * c + 2 then _ else _) = _
              rw [if_neg (by omega), if_neg (by omega)]; exact this.2
        · rw [hT', hd]; exact hBB
        · intro y hy
          rw [hT', hd] at hy
          show (if y = 2 * c + 2 + 1 then _ else if y = 2 * c + 2 then _ else _) = _
          rw [if_neg (by omega), if_neg (by omega)]
          exact hN y (by omega)
      have hpp : psum (sz1 t L TH) (c + 1) % W32 = add32 s.bitsLen (sz1 t L TH c) := by rw [psum_succ, hB, add32_mod]
      unfold sz1 at hpp
      by_cases h1 : bl t L c > TH
      · rw [if_pos h1] at hpp ⊢
        exact ⟨_, rfl, key _ hpp.symm⟩
      · rw [if_neg h1] at hpp ⊢
        by_cases h2 : bl t L c > L
        · rw [if_pos h2] at hpp ⊢
          by_cases h3 : c = 0
          · rw [if_pos h3] at hpp
            rw [if_pos (by omega)]
            exact ⟨_, rfl, key _ hpp.symm⟩
          · rw [if_neg h3] at hpp
            rw [if_neg (by omega)]
            exact ⟨_, rfl, key _ hpp.symm⟩
        · rw [if_neg h2] at hpp
          rw [if_neg h2]
          exact ⟨_, rfl, key s.bitsLen (by refine Eq.trans ?_ hpp.symm; rw [hB, add32_mod]; rfl)⟩
    · rw [if_neg hz, Nat.add_zero] at hd
      rw [if_neg hz]
      refine ⟨_, rfl, h.len, hT'.symm, ?_, ?_, ?_, ?_, ?_⟩
      · rw [hT', hd]; exact h.cnt
      · intro _; rw [hT', hsel]
      · rw [hT', hd]; exact h.ev
      · rw [hT', hd]; exact h.bits
      · rw [hT', hd]; exact h.none

theorem set_oob {α : Type} {v : Vec α} {i : Nat} {x : α} (h : v.len ≤ i) : v.set i x = ub .oob := by
  unfold Vec.set
  rw [if_neg (by omega)]

theorem sel1Step_oob {SL p : Nat} {s : Sel1} (hL : 1 ≤ L) (hlen : t.len < 2 ^ 29)
    (hSL : SL < 2 * (T t (p + 1) / L) + 2) (hSL' : 2 * (T t p / L) + 2 ≤ SL) (hp : p < 8 * t.len)
    (h : S1Inv t L TH SL p s) : sel1Step L TH t p s = ub .oob := by
  unfold sel1Step
  rw [bitAt_ok hp, ok_bind]
  have hT := T_succ t p
  cases hb : tbit t p
  · rw [hb] at hT
    have hT' : T t (p + 1) = T t p := hT
    rw [hT'] at hSL
    omega
  · rw [if_pos rfl]
    rw [hb] at hT
    have hT' : T t (p + 1) = T t p + 1 := hT
    have hTle := T_le t (p + 1)
    simp only [h.select, add32_eq (show T t p + 1 < W32 by simp only [W32]; omega), Nat.mod_eq_of_lt (show p < W32 by simp only [W32]; omega)]
    obtain ⟨hd, -⟩ := div_step (a := T t p) hL
    rw [hT', hd] at hSL
    by_cases hz : (T t p + 1) % L = 0
    · rw [if_pos hz] at hSL
      simp only [hz, if_true]
      have hcn := h.cnt
      have hl := h.len
      generalize T t p / L = c at *
      by_cases h1 : s.cnt < s.sel.len
      · rw [Vec.set_ok _ h1, ok_bind, set_oob (by show s.sel.len ≤ s.cnt + 1; omega)]
        rfl
      · rw [set_oob (by omega)]
        rfl
    · rw [if_neg hz] at hSL
      omega

theorem sel1Loop_short {SL : Nat} (hL : 1 ≤ L) (hlen : t.len < 2 ^ 29) : ∀ n p (s : Sel1), p + n = 8 * t.len →
    2 * (T t p / L) + 2 ≤ SL → S1Inv t L TH SL p s →
    (∃ s', forFrom p n (sel1Step L TH t) s = ok s' ∧ S1Inv t L TH SL (8 * t.len) s' ∧ 2 * (tot t / L) + 2 ≤ SL) ∨
      forFrom p n (sel1Step L TH t) s = ub .oob := by
  intro n
  induction n with
  | zero =>
    intro p s hp hle h
    have : p = 8 * t.len := by omega
    subst this
    exact Or.inl ⟨s, rfl, h, hle⟩
  | succ n ih =>
    intro p s hp hle h
    by_cases hc : 2 * (T t (p + 1) / L) + 2 ≤ SL
    · obtain ⟨s', e, h'⟩ := sel1Step_ok hL hlen hc (by omega) h
      unfold forFrom
      rw [e, ok_bind]
      exact ih (p + 1) s' (by omega) hc h'
    · right
      unfold forFrom
      rw [sel1Step_oob hL hlen (by omega) hle (by omega) h]
      rfl

theorem sel1_short {SL : Nat} (hL : 1 ≤ L) (hlen : t.len < 2 ^ 29) (hSL : SL < 2 * nbk t L + 2) :
    sel1 L TH t (tot t) (fresh SL) = ub .oob := by
  unfold sel1
  by_cases h2 : SL < 2
  · by_cases h1 : SL < 1
    · rw [set_oob (by show SL ≤ 0; omega)]
      rfl
    · rw [Vec.set_ok _ (show 0 < (fresh SL : Vec (Option Nat)).len by show 0 < SL; omega), ok_bind,
        set_oob (by show SL ≤ 1; omega)]
      rfl
  · rw [Vec.set_ok _ (show 0 < (fresh SL : Vec (Option Nat)).len by show 0 < SL; omega), ok_bind,
      Vec.set_ok _ (by show 1 < SL; omega), ok_bind]
    have h0 : T t 0 / L = 0 := by rw [T_zero]; exact Nat.zero_div L
    have hi : S1Inv t L TH SL 0 ⟨⟨(fresh SL : Vec (Option Nat)).len, fun j => if j = 1 then some 0
        else if j = 0 then some 0 else (fresh SL : Vec (Option Nat)).f j⟩, 0, 2, 0, 0⟩ := by
      refine ⟨rfl, (T_zero t).symm, by rw [h0], by intro hh; rw [T_zero] at hh; omega, ?_, by rw [h0]; rfl, ?_⟩
      · intro m hm
        rw [h0] at hm
        have : m = 0 := by omega
        subst this
        exact ⟨rfl, rfl⟩
      · intro y hy
        rw [h0] at hy
        show (if y = 1 then _ else if y = 0 then _ else _) = _
        rw [if_neg (by omega), if_neg (by omega)]
        rfl
    rcases sel1Loop_short hL hlen (8 * t.len) 0 _ (by omega) (by rw [h0]; omega) hi with ⟨s, e, h, hle⟩ | e
    · unfold forN
      rw [e, ok_bind]
      by_cases hr : tot t % L > 0
      · have hnb : nbk t L = tot t / L + 1 := by unfold nbk; rw [if_pos hr]
        have hc : s.cnt = 2 * (tot t / L) + 2 := h.cnt
        have hl := h.len
        rw [if_pos hr]
        generalize tot t / L = c at *
        by_cases h1 : s.cnt < s.sel.len
        · rw [Vec.set_ok _ h1, ok_bind, set_oob (by show s.sel.len ≤ s.cnt + 1; omega)]
          rfl
        · rw [set_oob (by omega)]
          rfl
      · have hnb : nbk t L = tot t / L := by unfold nbk; rw [if_neg hr, Nat.add_zero]
        omega
    · unfold forN
      rw [e]
      rfl

/-- Bytes that the step after the loop counts for an incomplete last block. -/
def szLast (t : Vec Byte) (L TH : Nat) : Nat :=
  if tot t % L > 0 then
    let len := if tot t / L = 0 then bl t L 0 - 1 else bl t L (tot t / L)
    if len > TH then 4 * (tot t % L) else len / 8 + (if len % 8 > 0 then 1 else 0)
  else 0

/-- After the first part. -/
structure S1OK (t : Vec Byte) (L TH SL : Nat) (s : Sel1) : Prop where
  len : s.sel.len = SL
  cnt : s.cnt = 2 * nbk t L + 2
  ev : ∀ m, m ≤ nbk t L → s.sel.f (2 * m) = some (en t L m - 1) ∧ s.sel.f (2 * m + 1) = some 0
  bits : s.bitsLen = (psum (sz1 t L TH) (tot t / L) + szLast t L TH) % W32
  none : ∀ y, 2 * nbk t L + 2 ≤ y → s.sel.f y = none

theorem sel1_ok {SL : Nat} (hL : 1 ≤ L) (hlen : t.len < 2 ^ 29) (hSL : 2 * nbk t L + 2 ≤ SL) :
    ∃ s, sel1 L TH t (tot t) (fresh SL) = ok s ∧ S1OK t L TH SL s := by
  unfold sel1
  rw [Vec.set_ok _ (show 0 < (fresh SL : Vec (Option Nat)).len by show 0 < SL; omega), ok_bind,
    Vec.set_ok _ (by show 1 < SL; omega), ok_bind]
  obtain ⟨s, e, h⟩ := forN_inv (body := sel1Step L TH t) (S1Inv t L TH SL) (8 * t.len)
    ⟨⟨SL, fun j => if j = 1 then some 0 else if j = 0 then some 0 else (fresh SL : Vec (Option Nat)).f j⟩,
      0, 2, 0, 0⟩
    (by
      have h0 : T t 0 / L = 0 := by rw [T_zero]; exact Nat.zero_div L
      refine ⟨rfl, (T_zero t).symm, by rw [h0], by intro hh; rw [T_zero] at hh; omega, ?_, by rw [h0]; rfl, ?_⟩
      · intro m hm
        rw [h0] at hm
        have : m = 0 := by omega
        subst this
        exact ⟨rfl, rfl⟩
      · intro y hy
        rw [h0] at hy
        show (if y = 1 then _ else if y = 0 then _ else _) = _
        rw [if_neg (by omega), if_neg (by omega)]
        rfl)
    (fun p s hp hi => sel1Step_ok hL hlen (by
      have h1 := Nat.div_le_div_right (c := L) (T_le_tot t (p + 1))
      have h2 := nbk_ge t L
      omega) hp hi)
  have e' : forN (8 * t.len) (sel1Step L TH t) ⟨⟨(fresh SL : Vec (Option Nat)).len, fun j => if j = 1 then some 0
      else if j = 0 then some 0 else (fresh SL : Vec (Option Nat)).f j⟩, 0, 2, 0, 0⟩ = ok s := e
  rw [e', ok_bind]
  have hl := h.len
  have hs : s.select = tot t := h.select
  have hc : s.cnt = 2 * (tot t / L) + 2 := h.cnt
  have hla : 1 ≤ tot t → s.last = sel t (tot t) := h.last
  have hev : ∀ m, m ≤ tot t / L → s.sel.f (2 * m) = some (en t L m - 1) ∧ s.sel.f (2 * m + 1) = some 0 := h.ev
  have hB : s.bitsLen = psum (sz1 t L TH) (tot t / L) % W32 := h.bits
  have hN : ∀ y, 2 * (tot t / L) + 2 ≤ y → s.sel.f y = none := h.none
  by_cases hr : tot t % L > 0
  · rw [if_pos hr]
    have hnb : nbk t L = tot t / L + 1 := by unfold nbk; rw [if_pos hr]
    have hlq := len_eq (m := tot t / L) hL hlen (by omega)
    have hen : en t L (tot t / L + 1) - 1 = sel t (tot t) := by
      rw [← hnb]
      have he : en t L (nbk t L) = sel t (ob t L (nbk t L)) + 1 := if_neg (by omega)
      rw [he, Nat.add_sub_cancel, ob_all hL]
    have hpos : 1 ≤ tot t := by
      have := Nat.mod_le (tot t) L
      omega
    have hla := hla hpos
    have hsz : szLast t L TH = (if sub32 (en t L (tot t / L + 1) - 1) (en t L (tot t / L) - 1) > TH then
        4 * (tot t % L) else sub32 (en t L (tot t / L + 1) - 1) (en t L (tot t / L) - 1) / 8 +
          (if sub32 (en t L (tot t / L + 1) - 1) (en t L (tot t / L) - 1) % 8 > 0 then 1 else 0)) := by
      unfold szLast
      rw [if_pos hr]
      simp only []
      have : (if tot t / L = 0 then bl t L 0 - 1 else bl t L (tot t / L)) =
          sub32 (en t L (tot t / L + 1) - 1) (en t L (tot t / L) - 1) := by
        by_cases h0 : tot t / L = 0
        · rw [h0] at hlq ⊢
          rw [if_pos rfl] at hlq ⊢
          rw [← hlq]
          have h4 := en_le (t := t) hL (show 0 + 1 ≤ nbk t L by omega)
          have h5 := en_lt (t := t) hL (show 0 < nbk t L by omega)
          rw [sub32_eq (by rw [en_zero]; omega) (by simp only [W32]; omega)]
          unfold add32
          rw [en_zero]
          simp only [W32]
          omega
        · rw [if_neg (by omega)] at hlq
          rw [if_neg h0, hlq]
      rw [this]
    generalize hK : tot t / L = K at *
    rw [Vec.set_ok _ (by omega), ok_bind, Vec.set_ok _ (by show s.cnt + 1 < s.sel.len; omega), ok_bind]
    simp only []
    rw [hc, show 2 * K + 2 + 2 - 2 = 2 * K + 2 by omega, show 2 * K + 2 + 2 - 4 = 2 * K by omega]
    rw [uget_ok (a := s.last) (by show 2 * K + 2 < s.sel.len; omega)
      (by show (if 2 * K + 2 = 2 * K + 2 + 1 then _ else if 2 * K + 2 = 2 * K + 2 then _ else _) = _
          rw [if_neg (by omega), if_pos rfl]), ok_bind]
    rw [uget_ok (a := en t L K - 1) (by show 2 * K < s.sel.len; omega)
      (by show (if 2 * K = 2 * K + 2 + 1 then _ else if 2 * K = 2 * K + 2 then _ else _) = _
          rw [if_neg (by omega), if_neg (by omega)]; exact (hev K (Nat.le_refl _)).1), ok_bind]
    rw [hla, ← hen, hs]
    have key : ∀ B, B = add32 s.bitsLen (szLast t L TH) → S1OK t L TH SL
        ⟨⟨s.sel.len, fun j => if j = 2 * K + 2 + 1 then some 0 else if j = 2 * K + 2 then
          some (en t L (K + 1) - 1) else s.sel.f j⟩, tot t, 2 * K + 2 + 2, en t L (K + 1) - 1, B⟩ := by
      intro B hBB
      refine ⟨hl, ?_, ?_, ?_, ?_⟩
      · show 2 * K + 2 + 2 = _; omega
      · intro m hm
        by_cases hmc : m = K + 1
        · subst hmc
          refine ⟨?_, ?_⟩
          · show (if 2 * (K + 1) = 2 * K + 2 + 1 then _ else if 2 * (K + 1) = 2 * K + 2 then _ else _) = _
            rw [if_neg (by omega), if_pos (by omega)]
          · show (if 2 * (K + 1) + 1 = 2 * K + 2 + 1 then _ else _) = _
            rw [if_pos (by omega)]
        · have := hev m (by omega)
          refine ⟨?_, ?_⟩
          · show (if 2 * m = 2 * K + 2 + 1 then _ else if 2 * m = 2 * K + 2 then _ else _) = _
            rw [if_neg (by omega), if_neg (by omega)]; exact this.1
          · show (if 2 * m + 1 = 2 * K + 2 + 1 then _ else if 2 * m + 1 = 2 * K + 2 then _ else _) = _
            rw [if_neg (by omega), if_neg (by omega)]; exact this.2
      · rw [hK]; rw [hB, add32_mod] at hBB; exact hBB
      · intro y hy
        show (if y = 2 * K + 2 + 1 then _ else if y = 2 * K + 2 then _ else _) = _
        rw [if_neg (by omega), if_neg (by omega)]
        exact hN y (by omega)
    by_cases h1 : sub32 (en t L (K + 1) - 1) (en t L K - 1) > TH
    · rw [if_pos h1] at hsz ⊢
      exact ⟨_, rfl, key _ (by rw [hsz])⟩
    · rw [if_neg h1] at hsz ⊢
      exact ⟨_, rfl, key _ (by rw [hsz])⟩
  · rw [if_neg hr]
    have hnb : nbk t L = tot t / L := by unfold nbk; rw [if_neg hr, Nat.add_zero]
    have hz : szLast t L TH = 0 := by unfold szLast; rw [if_neg hr]
    refine ⟨s, rfl, hl, by rw [hnb]; exact hc, by rw [hnb]; exact hev, by rw [hz]; exact hB, by rw [hnb]; exact hN⟩

end MRS.Mran.S32
