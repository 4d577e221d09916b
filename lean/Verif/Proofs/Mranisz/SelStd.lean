import Verif.Proofs.Mranisz.SelQuery
import Verif.Proofs.Mranisz.Link

/-! # Compressed select: `getSelect_std`, and the specification's words -/

set_option autoImplicit false

namespace MRS.Mran
open Outcome Spec Poppy

variable {t : Vec Byte} {L TH : Nat}

/-! ## Blocks of ones -/

theorem all_ones (hL : 1 ≤ L) {m i : Nat} (hm : m < tot t / L) (hb : bl t L m = L) (hi : 1 ≤ i) (hiL : i < L) :
    sel t (m * L + i) = en t L m + i - 1 := by
  have hn := nbk_ge t L
  have h1 := T_en (t := t) (L := L) (m := m) hL (by omega)
  have h2 := T_en (t := t) (L := L) (m := m + 1) hL (by omega)
  rw [ob_full (by omega)] at h1 h2
  have h3 := en_succ (t := t) (L := L) (m := m) hL (by omega)
  have hle := en_le (t := t) (L := L) (m := m + 1) hL (by omega)
  rw [hb] at h3
  have hz : ∀ z, z ≤ L → T t (en t L m + z) = m * L + z := by
    intro z hz
    have a := T_diff t (en t L m) z
    have b := T_diff t (en t L m + z) (L - z)
    rw [show en t L m + z + (L - z) = en t L m + L by omega, h3, h2, Nat.add_mul, Nat.one_mul] at b
    omega
  have ha := hz (i - 1) (by omega)
  have hc := hz i (by omega)
  have hs := T_succ t (en t L m + (i - 1))
  rw [show en t L m + (i - 1) + 1 = en t L m + i by omega, ha, hc] at hs
  rw [show en t L m + i - 1 = en t L m + (i - 1) by omega]
  apply sel_eq (by omega)
  · cases hbit : tbit t (en t L m + (i - 1))
    · rw [hbit] at hs
      have : (false : Bool).toNat = 0 := rfl
      omega
    · rfl
  · omega

theorem block_of {i : Nat} (hL : 1 ≤ L) (hi : i % L ≠ 0) (hit : i ≤ tot t) : i / L < nbk t L ∧
    (tot t / L * L < i → i / L = tot t / L) ∧ (i ≤ tot t / L * L → i / L < tot t / L) := by
  have h1 := Nat.div_add_mod i L
  have h2 := nbk_mul (t := t) hL
  have h3 := Nat.div_add_mod (tot t) L
  have h4 := Nat.mod_lt (tot t) hL
  rw [Nat.mul_comm] at h1 h3
  refine ⟨?_, fun h => ?_, fun h => ?_⟩
  · apply Nat.lt_of_mul_lt_mul_right (a := L); omega
  · have a : i / L ≤ tot t / L := Nat.div_le_div_right hit
    have b : tot t / L ≤ i / L := (Nat.le_div_iff_mul_le hL).2 (by omega)
    omega
  · apply Nat.lt_of_mul_lt_mul_right (a := L); omega

/-- The block of the last ones is incomplete and takes `L` bits. -/
def Bad (t : Vec Byte) (L : Nat) : Prop := tot t % L > 0 ∧ bl t L (tot t / L) = L

/-! ## Reading a block, however its offset was found -/

/-- The end of both queries. -/
def fetch (strict : Bool) (TH : Nat) (bits : Vec (Option Byte)) (o diff i select : Nat) : Outcome Nat :=
  if diff > TH then do
    let w ← load8 strict bits (o + 8 * (i - 1))
    ok w.toNat
  else scanBlock strict bits o diff i select

theorem fetch_ok {bits : Vec (Option Byte)} {strict : Bool} {i : Nat} (hL : 1 ≤ L) (hlen : t.len < 2 ^ 60)
    (hi : i % L ≠ 0) (hit : i ≤ tot t) (hne : bl t L (i / L) ≠ L)
    (hbits : off t L TH (nbk t L) ≤ bits.len) (hdata : Data t L TH (i / L) bits) :
    fetch strict TH bits (off t L TH (i / L)) (bl t L (i / L)) (i % L) (en t L (i / L)) =
      if strict = true ∧ off t L TH (i / L) % 8 ≠ 0 ∧ (bl t L (i / L) > TH ∨ bl t L (i / L) > 64) then ub .misaligned
      else ok (sel t i) := by
  have hb := (block_of hL hi hit).1
  have hdm := Nat.div_add_mod i L
  have hml := Nat.mod_lt i hL
  rw [Nat.mul_comm] at hdm
  generalize i / L = m at *
  generalize hr : i % L = r at *
  have htg := target (t := t) (m := m) (i := r) hL hb (by omega) hml (by omega)
  rw [hdm] at htg
  have hoff := off_mono (t := t) (L := L) TH (show m + 1 ≤ nbk t L from hb)
  rw [off_succ] at hoff
  have hslt : sel t i < 8 * t.len := htg.lt
  unfold fetch
  by_cases hsp : bl t L m > TH
  · rw [if_pos hsp]
    have hs : sparse t L TH m = true := decide_eq_true hsp
    have hw : wd t L TH m = 8 * sq t L m := by unfold wd; rw [hs, if_pos rfl]
    have hsq : r ≤ sq t L m := by
      have ho := ob_sq hL hb
      by_cases hm : m < tot t / L
      · unfold sq; rw [if_pos hm]; omega
      · have h1 := ho.2 hm
        rw [h1.2.1, ob_all hL] at h1
        omega
    by_cases hmis : strict = true ∧ off t L TH m % 8 ≠ 0
    · rw [if_pos ⟨hmis.1, hmis.2, Or.inl hsp⟩, load8_mis]
      · rfl
      · intro h
        rcases h with h | h
        · rw [hmis.1] at h; cases h
        · omega
    · rw [if_neg (fun h => hmis ⟨h.1, h.2.1⟩),
        load8_ok (b := fun k => BitVec.ofNat 8 (sel t i >>> (8 * k)))]
      · rw [ok_bind, leWord_pos (by omega)]
      · cases strict
        · exact Or.inl rfl
        · right
          have : ¬ off t L TH m % 8 ≠ 0 := fun h => hmis ⟨rfl, h⟩
          omega
      · omega
      · intro k hk
        have := hdata.1 hs (r - 1) (by omega) k hk
        rw [this, show m * L + 1 + (r - 1) = i by omega]
  · rw [if_neg hsp]
    have hs : sparse t L TH m = false := decide_eq_false hsp
    have hmo : mono t L TH m = false := decide_eq_false (fun h => hne h.2)
    have hw : wd t L TH m = (sb t L m + 7) / 8 := by
      unfold wd; rw [hs, hmo, if_neg (by simp), if_neg (by simp)]
    by_cases hmis : strict = true ∧ off t L TH m % 8 ≠ 0 ∧ bl t L m > 64
    · rw [if_pos ⟨hmis.1, hmis.2.1, Or.inr hmis.2.2⟩, hmis.1, scanBlock_mis hmis.2.1 hmis.2.2]
    · rw [if_neg (fun h => hmis ⟨h.1, h.2.1, h.2.2.resolve_left hsp⟩)]
      apply scanBlock_ok hL hb ?_ ⟨by omega, hdata.2 hs hmo⟩ htg
      cases strict
      · exact Or.inl rfl
      · right
        by_cases ho : off t L TH m % 8 = 0
        · exact Or.inl ho
        · right
          by_cases h64 : bl t L m ≤ 64
          · exact h64
          · exact absurd ⟨rfl, ho, by omega⟩ hmis

/-- What `getSelect_std` and `getSelect_bch` answer to `1 ≤ i ≤ tot`. -/
structure Answers (t : Vec Byte) (L TH : Nat) (q : Bool → Nat → Outcome Nat) : Prop where
  /-- Outside a bad last block: the position, or a misaligned load. -/
  good : ∀ strict i, 1 ≤ i → i ≤ tot t → ¬ (Bad t L ∧ tot t / L * L < i) → q strict i =
    if strict = true ∧ i % L ≠ 0 ∧ bl t L (i / L) ≠ L ∧ off t L TH (i / L) % 8 ≠ 0 ∧
      (bl t L (i / L) > TH ∨ bl t L (i / L) > 64) then ub .misaligned else ok (sel t i)
  /-- In a bad last block: as if it began with ones. -/
  bad : ∀ strict i, i ≤ tot t → Bad t L → tot t / L * L < i →
    q strict i = ok (en t L (tot t / L) + (i - tot t / L * L) - 1)

theorem sub64_one {x : Nat} (h1 : 1 ≤ x) (h2 : x < 2 ^ 64) : sub64 x 1 = x - 1 :=
  sub64_eq h1 (by simp only [W64]; omega)

theorem minus_plus {x i : Nat} (h : x + i < 2 ^ 64) (hi : 1 ≤ i) : add64 (sub64 x 1) i = x + i - 1 := by
  unfold add64 sub64
  simp only [W64]
  omega

/-- A query finds the end, the width and the offset of its block. -/
structure Heads (t : Vec Byte) (L TH : Nat) (bits : Vec (Option Byte)) (q : Bool → Nat → Outcome Nat) : Prop where
  full : ∀ strict i, 1 ≤ i → i ≤ tot t → i % L = 0 → q strict i = ok (sub64 (en t L (i / L)) 1)
  part : ∀ strict i, i ≤ tot t → i % L ≠ 0 → q strict i =
    if bl t L (i / L) = L then ok (add64 (sub64 (en t L (i / L)) 1) (i % L))
    else fetch strict TH bits (off t L TH (i / L)) (bl t L (i / L)) (i % L) (en t L (i / L))

/-- Both queries in one: how the header of block `i / L` was read does not matter. -/
theorem answers_of {q : Bool → Nat → Outcome Nat} {bits : Vec (Option Byte)} (hL : 1 ≤ L) (hlen : t.len < 2 ^ 60)
    (hbits : off t L TH (nbk t L) ≤ bits.len) (hdata : ∀ k, k < nbk t L → Data t L TH k bits)
    (hq : Heads t L TH bits q) : Answers t L TH q := by
  obtain ⟨hq0, hq⟩ := hq
  have htl := tot_le t
  have hmono : ∀ i, i ≤ tot t → i % L ≠ 0 →
      add64 (sub64 (en t L (i / L)) 1) (i % L) = en t L (i / L) + i % L - 1 := by
    intro i hit hi
    have hb := (block_of hL hi hit).1
    have := en_le (t := t) (L := L) hL (Nat.le_of_lt hb)
    have := Nat.mod_le i L
    exact minus_plus (by omega) (by omega)
  refine ⟨fun strict i h1 hit hbad => ?_, fun strict i hit hbad hlast => ?_⟩
  · by_cases hi : i % L = 0
    · rw [hq0 strict i h1 hit hi, if_neg (fun h => h.2.1 hi)]
      have hdm := Nat.div_add_mod i L
      rw [Nat.mul_comm, hi, Nat.add_zero] at hdm
      have hp : i / L ≠ 0 := by intro h; rw [h] at hdm; omega
      have hle := sel_spec h1 hit
      have he : en t L (i / L) = sel t i + 1 := by
        unfold en ob
        rw [if_neg hp, hdm, show min i (tot t) = i by omega]
      rw [he, sub64_one (by omega) (by omega), Nat.add_sub_cancel]
    · rw [hq strict i hit hi]
      have hb := block_of hL hi hit
      have hdm := Nat.div_add_mod i L
      have hml := Nat.mod_lt i hL
      rw [Nat.mul_comm] at hdm
      by_cases hm : bl t L (i / L) = L
      · rw [if_pos hm, if_neg (fun h => h.2.2.1 hm), hmono i hit hi]
        have hK : i / L < tot t / L := by
          apply hb.2.2
          refine Nat.le_of_not_lt (fun hlt => ?_)
          have he := hb.2.1 hlt
          have h3 := Nat.div_add_mod (tot t) L
          rw [Nat.mul_comm] at h3
          rw [he] at hm
          exact hbad ⟨⟨by omega, hm⟩, hlt⟩
        rw [← all_ones hL hK hm (by omega) hml, hdm]
      · rw [if_neg hm, fetch_ok hL hlen hi hit hm hbits (hdata _ hb.1)]
        by_cases hc : strict = true ∧ off t L TH (i / L) % 8 ≠ 0 ∧ (bl t L (i / L) > TH ∨ bl t L (i / L) > 64)
        · rw [if_pos hc, if_pos ⟨hc.1, hi, hm, hc.2.1, hc.2.2⟩]
        · rw [if_neg hc, if_neg (fun h => hc ⟨h.1, h.2.2.2.1, h.2.2.2.2⟩)]
  · have h3 := Nat.div_add_mod (tot t) L
    have h4 := Nat.mod_lt (tot t) hL
    rw [Nat.mul_comm] at h3
    have hmod : i % L = i - tot t / L * L := by
      have h5 : i = (i - tot t / L * L) + tot t / L * L := by omega
      rw [h5, Nat.add_mul_mod_self_right, Nat.add_sub_cancel]
      exact Nat.mod_eq_of_lt (by omega)
    have hi : i % L ≠ 0 := by omega
    have hb := (block_of hL hi hit).2.1 hlast
    have h5 := hmono i hit hi
    rw [hq strict i hit hi, h5, hb, if_pos hbad.2, hmod]

/-! ## `getSelect_std` -/

theorem selectStd_heads {x : Select} (hL : 1 ≤ L) (hlen : t.len < 2 ^ 60) (hsl : 2 * nbk t L + 2 ≤ x.sel.len)
    (ev : ∀ k, k ≤ nbk t L → x.sel.f (2 * k) = some (en t L k))
    (od : ∀ k, k ≤ nbk t L → x.sel.f (2 * k + 1) = some (if k < nbk t L then off t L TH k else 0)) :
    Heads t L TH x.bits (fun strict i => selectStd strict L TH x i) := by
  have hn := nbk_ge t L
  refine ⟨?_, ?_⟩
  · intro strict i _ hit hi
    have : i / L ≤ tot t / L := Nat.div_le_div_right hit
    unfold selectStd
    simp only []
    rw [uget_ok (a := en t L (i / L)) (by omega) (ev _ (by omega)), ok_bind, if_pos hi]
  · intro strict i hit hi
    have hb := (block_of hL hi hit).1
    have hle := en_le (t := t) (L := L) (m := i / L + 1) hL hb
    have hlt := en_lt hL hb
    show selectStd strict L TH x i = _
    unfold selectStd
    simp only []
    rw [uget_ok (a := en t L (i / L)) (by omega) (ev _ (by omega)), ok_bind, if_neg hi,
      uget_ok (i := 2 * (i / L) + 2) (a := en t L (i / L + 1)) (by omega)
        (by rw [show 2 * (i / L) + 2 = 2 * (i / L + 1) by omega]; exact ev _ (by omega)), ok_bind,
      sub64_eq (by omega) (by simp only [W64]; omega)]
    have hod := od (i / L) (by omega)
    rw [if_pos hb] at hod
    show (if bl t L (i / L) = L then _ else _) = _
    by_cases hm : bl t L (i / L) = L
    · rw [if_pos hm, if_pos hm]
    · rw [if_neg hm, if_neg hm, uget_ok (by omega) hod, ok_bind]
      rfl

theorem selectStd_ok {x : Select} (hL : 1 ≤ L) (hlen : t.len < 2 ^ 60) (h1 : 1 ≤ tot t) (hx : BuiltSel t L TH x) :
    Answers t L TH (fun strict i => selectStd strict L TH x i) :=
  answers_of hL hlen hx.bits hx.data
    (selectStd_heads hL hlen (by have := hx.slen; rw [hx.selLen] at this; exact this) hx.ev hx.od)

/-- `select(0)`. -/
theorem selectStd_zero {x : Select} (hx : BuiltSel t L TH x) (strict : Bool) :
    selectStd strict L TH x 0 = ok (2 ^ 64 - 1) := by
  have hsl := hx.slen
  rw [hx.selLen] at hsl
  have h0 := hx.ev 0 (Nat.zero_le _)
  unfold selectStd
  simp only []
  rw [Nat.zero_div, Nat.zero_mod, uget_ok (a := en t L 0) (by omega) h0, ok_bind, if_pos rfl, en_zero,
    show sub64 0 1 = 2 ^ 64 - 1 by decide]

/-! ## Words of the specification -/

theorem tot_count (X : List Byte) : tot (textOf X) = (Text.bits X).count true := by
  unfold tot
  show T (textOf X) (8 * X.length) = _
  rw [← ones_T]
  unfold ones
  rw [List.take_of_length_le (by rw [bits_length]; exact Nat.le_refl _)]

theorem isSelect_iff (X : List Byte) {k p : Nat} :
    IsSelect (Text.bits X) k p ↔ p < 8 * X.length ∧ tbit (textOf X) p = true ∧ T (textOf X) p = k := by
  unfold IsSelect
  rw [ones_T]
  by_cases hp : p < 8 * X.length
  · rw [bits_get X p hp]
    simp [hp]
  · rw [List.getElem?_eq_none (by rw [bits_length]; omega)]
    simp [hp]

theorem isSelect_sel (X : List Byte) {i p : Nat} (h1 : 1 ≤ i) (hi : i ≤ tot (textOf X)) :
    IsSelect (Text.bits X) (i - 1) p ↔ p = sel (textOf X) i := by
  rw [isSelect_iff]
  constructor
  · rintro ⟨a, b, c⟩
    exact (sel_eq a b (by omega)).symm
  · intro h
    obtain ⟨a, b, c⟩ := sel_spec h1 hi
    rw [h]
    exact ⟨a, b, by omega⟩

end MRS.Mran
