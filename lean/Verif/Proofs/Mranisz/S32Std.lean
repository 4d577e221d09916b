import Verif.Proofs.Mranisz.S32Top

/-! # 32-bit compressed select: `getSelect_std` -/

set_option autoImplicit false

namespace MRS.Mran.S32
open Outcome Spec Poppy

variable {t : Vec Byte} {L TH : Nat}

/-! ## Reading a block, however its offset was found -/

theorem leWord_pos4 {p : Nat} (hp : p < 2 ^ 32) :
    (leWord (fun k => BitVec.ofNat 8 (p >>> (8 * k))) 4).toNat = p := by
  have : leWord (fun k => BitVec.ofNat 8 (p >>> (8 * k))) 4 = BitVec.ofNat 64 p := by
    apply BitVec.eq_of_getLsbD_eq
    intro j hj
    rw [leWord_bit _ (by omega) hj, BitVec.getLsbD_ofNat, BitVec.getLsbD_ofNat,
      decide_eq_true (show j % 8 < 8 by omega), decide_eq_true hj,
      Bool.true_and, Bool.true_and, Nat.testBit_shiftRight, show 8 * (j / 8) + j % 8 = j by omega]
    by_cases h : j < 8 * 4
    · rw [decide_eq_true h, Bool.true_and]
    · rw [decide_eq_false h, Bool.false_and, Nat.testBit_lt_two_pow]
      exact Nat.lt_of_lt_of_le hp (Nat.pow_le_pow_right (by omega) (by omega))
  rw [this, BitVec.toNat_ofNat, Nat.mod_eq_of_lt (by omega)]

theorem load4_ok {strict : Bool} {bits : Vec (Option Byte)} {o : Nat} {b : Nat → Byte}
    (hs : strict = false ∨ o % 4 = 0) (hlen : o + 4 ≤ bits.len)
    (h : ∀ k, k < 4 → bits.f (o + k) = some (b k)) : load4 strict bits o = ok (leWord b 4) := by
  unfold load4
  have hc : (strict && o % 4 != 0) = false := by
    rcases hs with h | h
    · rw [h, Bool.false_and]
    · rw [h]; simp
  rw [hc, if_neg (by simp)]
  obtain ⟨w, e, hw⟩ := forN_inv
    (body := fun k (w : Word) => do
      let b ← uget bits (o + k)
      ok (w + b.setWidth 64 <<< (8 * k)))
    (fun k w => w = leWord b k) 4 0#64 rfl
    (by
      intro k w hk hw
      rw [uget_ok (by omega) (h k hk), ok_bind, hw]
      exact ⟨_, rfl, rfl⟩)
  rw [e, hw]

theorem load4_mis {strict : Bool} {bits : Vec (Option Byte)} {o : Nat}
    (hs : ¬ (strict = false ∨ o % 4 = 0)) : load4 strict bits o = ub .misaligned := by
  unfold load4
  have hc : (strict && o % 4 != 0) = true := by
    cases strict
    · exact absurd (Or.inl rfl) hs
    · have : o % 4 ≠ 0 := fun hh => hs (Or.inr hh)
      simp [this]
  rw [hc, if_pos rfl]

/-- The load that reads block `m` is misaligned. -/
def Mis (t : Vec Byte) (L TH m : Nat) : Prop :=
  (bl t L m > TH ∧ off t L TH m % 4 ≠ 0) ∨ (¬ bl t L m > TH ∧ bl t L m > 64 ∧ off t L TH m % 8 ≠ 0)

instance (t : Vec Byte) (L TH m : Nat) : Decidable (Mis t L TH m) := by unfold Mis; infer_instance

/-- The end of both queries. -/
def fetch (strict : Bool) (TH : Nat) (bits : Vec (Option Byte)) (o diff i select : Nat) : Outcome Nat :=
  if diff > TH then do
    let w ← load4 strict bits (o + 4 * (i - 1) % W32)
    ok w.toNat
  else scanBlock32 strict bits o diff i select

theorem fetch_ok {bits : Vec (Option Byte)} {strict : Bool} {i : Nat} (hL : 1 ≤ L) (hlen : t.len < 2 ^ 29)
    (hi : i % L ≠ 0) (hit : i ≤ tot t) (hne : bl t L (i / L) ≠ L)
    (hbits : off t L TH (nbk t L) ≤ bits.len) (hbig : bits.len < 2 ^ 32) (hdata : Data t L TH (i / L) bits) :
    fetch strict TH bits (off t L TH (i / L)) (bl t L (i / L)) (i % L) (en t L (i / L)) =
      if strict = true ∧ Mis t L TH (i / L) then ub .misaligned
      else ok (sel t i) := by
  have hb := (block_of hL hi hit).1
  have hdm := Nat.div_add_mod i L
  have hml := Nat.mod_lt i hL
  rw [Nat.mul_comm] at hdm
  generalize i / L = m at *
  generalize hr : i % L = r at *
  have htg := target (t := t) (m := m) (i := r) hL hb (by omega) hml (by omega)
  rw [hdm] at htg
  have hoff := off_mono (t := t) (L := L) TH (show m + 1 ≤ nbk t L from hb)
  rw [off_succ] at hoff
  have hslt : sel t i < 8 * t.len := htg.lt
  unfold fetch
  by_cases hsp : bl t L m > TH
  · rw [if_pos hsp]
    have hs : sparse t L TH m = true := decide_eq_true hsp
    have hw : wd t L TH m = 4 * sq t L m := by unfold wd; rw [hs, if_pos rfl]
    have hsq : r ≤ sq t L m := by
      have ho := ob_sq hL hb
      by_cases hm : m < tot t / L
      · unfold sq; rw [if_pos hm]; omega
      · have h1 := ho.2 hm
        rw [h1.2.1, ob_all hL] at h1
        omega
    rw [Nat.mod_eq_of_lt (show 4 * (r - 1) < W32 by simp only [W32]; omega)]
    by_cases hmis : strict = true ∧ off t L TH m % 4 ≠ 0
    · rw [if_pos ⟨hmis.1, Or.inl ⟨hsp, hmis.2⟩⟩, load4_mis]
      · rfl
      · intro h
        rcases h with h | h
        · rw [hmis.1] at h; cases h
        · omega
    · rw [if_neg (fun h => hmis ⟨h.1, by rcases h.2 with h | h; exact h.2; exact absurd hsp h.1⟩),
        load4_ok (b := fun k => BitVec.ofNat 8 (sel t i >>> (8 * k)))]
      · rw [ok_bind, leWord_pos4 (by omega)]
      · cases strict
        · exact Or.inl rfl
        · right
          have : ¬ off t L TH m % 4 ≠ 0 := fun h => hmis ⟨rfl, h⟩
          omega
      · omega
      · intro k hk
        have := hdata.1 hs (r - 1) (by omega) k hk
        rw [this, show m * L + 1 + (r - 1) = i by omega]
  · rw [if_neg hsp]
    have hs : sparse t L TH m = false := decide_eq_false hsp
    have hmo : mono t L TH m = false := decide_eq_false (fun h => hne h.2)
    have hw : wd t L TH m = (sb t L m + 7) / 8 := by
      unfold wd; rw [hs, hmo, if_neg (by simp), if_neg (by simp)]
    unfold scanBlock32
    by_cases hmis : strict = true ∧ off t L TH m % 8 ≠ 0 ∧ bl t L m > 64
    · rw [if_pos ⟨hmis.1, Or.inr ⟨hsp, hmis.2.2, hmis.2.1⟩⟩, hmis.1, scanBlock_mis hmis.2.1 hmis.2.2]
      rfl
    · rw [if_neg (fun h => hmis ⟨h.1, by rcases h.2 with h | h; exact absurd h.1 hsp; exact ⟨h.2.2, h.2.1⟩⟩)]
      rw [scanBlock_ok hL hb ?_ ⟨by omega, hdata.2 hs hmo⟩ htg, ok_bind, Nat.mod_eq_of_lt (by simp only [W32]; omega)]
      cases strict
      · exact Or.inl rfl
      · right
        by_cases ho : off t L TH m % 8 = 0
        · exact Or.inl ho
        · right
          by_cases h64 : bl t L m ≤ 64
          · exact h64
          · exact absurd ⟨rfl, ho, by omega⟩ hmis

/-- What `getSelect_std` and `getSelect_bch` answer to `1 ≤ i ≤ tot`. -/
structure Answers (t : Vec Byte) (L TH : Nat) (q : Bool → Nat → Outcome Nat) : Prop where
  /-- Outside a bad last block: the position, or a misaligned load. -/
  good : ∀ strict i, 1 ≤ i → i ≤ tot t → ¬ (Bad t L ∧ tot t / L * L < i) → q strict i =
    if strict = true ∧ i % L ≠ 0 ∧ bl t L (i / L) ≠ L ∧ Mis t L TH (i / L) then ub .misaligned else ok (sel t i)
  /-- In a bad last block: as if it began with ones. -/
  bad : ∀ strict i, i ≤ tot t → Bad t L → tot t / L * L < i →
    q strict i = ok (en t L (tot t / L) + (i - tot t / L * L) - 1)

theorem sub32_one {x : Nat} (h1 : 1 ≤ x) (h2 : x < 2 ^ 32) : sub32 x 1 = x - 1 :=
  sub32_eq h1 (by simp only [W32]; omega)

theorem minus_plus {x i : Nat} (h : x + i < 2 ^ 32) (hi : 1 ≤ i) : add32 (sub32 x 1) i = x + i - 1 := by
  unfold add32 sub32
  simp only [W32]
  omega

/-- A query finds the end, the width and the offset of its block. -/
structure Heads (t : Vec Byte) (L TH : Nat) (bits : Vec (Option Byte)) (q : Bool → Nat → Outcome Nat) : Prop where
  full : ∀ strict i, 1 ≤ i → i ≤ tot t → i % L = 0 → q strict i = ok (sub32 (en t L (i / L)) 1)
  part : ∀ strict i, i ≤ tot t → i % L ≠ 0 → q strict i =
    if bl t L (i / L) = L then ok (add32 (sub32 (en t L (i / L)) 1) (i % L))
    else fetch strict TH bits (off t L TH (i / L)) (bl t L (i / L)) (i % L) (en t L (i / L))

/-- Both queries in one: how the header of block `i / L` was read does not matter. -/
theorem answers_of {q : Bool → Nat → Outcome Nat} {bits : Vec (Option Byte)} (hL : 1 ≤ L) (hlen : t.len < 2 ^ 29)
    (hbits : off t L TH (nbk t L) ≤ bits.len) (hbig : bits.len < 2 ^ 32) (hdata : ∀ k, k < nbk t L → Data t L TH k bits)
    (hq : Heads t L TH bits q) : Answers t L TH q := by
  obtain ⟨hq0, hq⟩ := hq
  have htl := tot_le t
  have hmono : ∀ i, i ≤ tot t → i % L ≠ 0 → bl t L (i / L) = L →
      add32 (sub32 (en t L (i / L)) 1) (i % L) = en t L (i / L) + i % L - 1 := by
    intro i hit hi hbl
    have hb := (block_of hL hi hit).1
    have h1 := en_le (t := t) (L := L) (m := i / L + 1) hL hb
    have h2 := en_succ (t := t) (L := L) hL hb
    have := Nat.mod_lt i hL
    exact minus_plus (by omega) (by omega)
  refine ⟨fun strict i h1 hit hbad => ?_, fun strict i hit hbad hlast => ?_⟩
  · by_cases hi : i % L = 0
    · rw [hq0 strict i h1 hit hi, if_neg (fun h => h.2.1 hi)]
      have hdm := Nat.div_add_mod i L
      rw [Nat.mul_comm, hi, Nat.add_zero] at hdm
      have hp : i / L ≠ 0 := by intro h; rw [h] at hdm; omega
      have hle := sel_spec h1 hit
      have he : en t L (i / L) = sel t i + 1 := by
        unfold en ob
        rw [if_neg hp, hdm, show min i (tot t) = i by omega]
      rw [he, sub32_one (by omega) (by omega), Nat.add_sub_cancel]
    · rw [hq strict i hit hi]
      have hb := block_of hL hi hit
      have hdm := Nat.div_add_mod i L
      have hml := Nat.mod_lt i hL
      rw [Nat.mul_comm] at hdm
      by_cases hm : bl t L (i / L) = L
      · rw [if_pos hm, if_neg (fun h => h.2.2.1 hm), hmono i hit hi hm]
        have hK : i / L < tot t / L := by
          apply hb.2.2
          refine Nat.le_of_not_lt (fun hlt => ?_)
          have he := hb.2.1 hlt
          have h3 := Nat.div_add_mod (tot t) L
          rw [Nat.mul_comm] at h3
          rw [he] at hm
          exact hbad ⟨⟨by omega, hm⟩, hlt⟩
        rw [← all_ones hL hK hm (by omega) hml, hdm]
      · rw [if_neg hm, fetch_ok hL hlen hi hit hm hbits hbig (hdata _ hb.1)]
        by_cases hc : strict = true ∧ Mis t L TH (i / L)
        · rw [if_pos hc, if_pos ⟨hc.1, hi, hm, hc.2⟩]
        · rw [if_neg hc, if_neg (fun h => hc ⟨h.1, h.2.2.2⟩)]
  · have h3 := Nat.div_add_mod (tot t) L
    have h4 := Nat.mod_lt (tot t) hL
    rw [Nat.mul_comm] at h3
    have hmod : i % L = i - tot t / L * L := by
      have h5 : i = (i - tot t / L * L) + tot t / L * L := by omega
      rw [h5, Nat.add_mul_mod_self_right, Nat.add_sub_cancel]
      exact Nat.mod_eq_of_lt (by omega)
    have hi : i % L ≠ 0 := by omega
    have hb := (block_of hL hi hit).2.1 hlast
    have h5 := hmono i hit hi (by rw [hb]; exact hbad.2)
    rw [hq strict i hit hi, h5, hb, if_pos hbad.2, hmod]

/-! ## `getSelect_std` -/

theorem selectStd_heads {x : Select} (hL : 1 ≤ L) (hlen : t.len < 2 ^ 29) (hE : 2 * nbk t L + 2 < W32)
    (hsl : 2 * nbk t L + 2 ≤ x.sel.len)
    (ev : ∀ k, k ≤ nbk t L → x.sel.f (2 * k) = some (en t L k))
    (od : ∀ k, k ≤ nbk t L → x.sel.f (2 * k + 1) = some (if k < nbk t L then off t L TH k else 0)) :
    Heads t L TH x.bits (fun strict i => selectStd strict L TH x i) := by
  have hn := nbk_ge t L
  refine ⟨?_, ?_⟩
  · intro strict i _ hit hi
    have : i / L ≤ tot t / L := Nat.div_le_div_right hit
    unfold selectStd
    simp only []
    rw [Nat.mod_eq_of_lt (show 2 * (i / L) < W32 by omega),
      uget_ok (a := en t L (i / L)) (by omega) (ev _ (by omega)), ok_bind, if_pos hi]
  · intro strict i hit hi
    have hb := (block_of hL hi hit).1
    have hle := en_le (t := t) (L := L) (m := i / L + 1) hL hb
    have hlt := en_lt hL hb
    show selectStd strict L TH x i = _
    unfold selectStd
    simp only []
    rw [Nat.mod_eq_of_lt (show 2 * (i / L) < W32 by omega), Nat.mod_eq_of_lt (show 2 * (i / L) + 2 < W32 by omega),
      Nat.mod_eq_of_lt (show 2 * (i / L) + 1 < W32 by omega),
      uget_ok (a := en t L (i / L)) (by omega) (ev _ (by omega)), ok_bind, if_neg hi,
      uget_ok (i := 2 * (i / L) + 2) (a := en t L (i / L + 1)) (by omega)
        (by rw [show 2 * (i / L) + 2 = 2 * (i / L + 1) by omega]; exact ev _ (by omega)), ok_bind,
      sub32_eq (by omega) (by simp only [W32]; omega)]
    have hod := od (i / L) (by omega)
    rw [if_pos hb] at hod
    show (if bl t L (i / L) = L then _ else _) = _
    by_cases hm : bl t L (i / L) = L
    · rw [if_pos hm, if_pos hm]
    · rw [if_neg hm, if_neg hm, uget_ok (by omega) hod, ok_bind]
      rfl

theorem selectStd_ok {x : Select} (hL : 1 ≤ L) (hlen : t.len < 2 ^ 29) (hE : 2 * nbk t L + 2 < W32) (hx : BuiltSel t L TH x) :
    Answers t L TH (fun strict i => selectStd strict L TH x i) :=
  answers_of hL hlen hx.bits hx.big hx.data
    (selectStd_heads hL hlen hE (by have := hx.slen; rw [hx.selLen] at this; exact this) hx.ev hx.od)

/-- `select(0)`. -/
theorem selectStd_zero {x : Select} (hx : BuiltSel t L TH x) (strict : Bool) :
    selectStd strict L TH x 0 = ok (2 ^ 32 - 1) := by
  have hsl := hx.slen
  rw [hx.selLen] at hsl
  have h0 := hx.ev 0 (Nat.zero_le _)
  unfold selectStd
  simp only []
  rw [Nat.zero_div, Nat.zero_mod, Nat.mul_zero, Nat.zero_mod, uget_ok (a := en t L 0) (by omega) h0, ok_bind, if_pos rfl, en_zero,
    show sub32 0 1 = 2 ^ 32 - 1 by decide]

end MRS.Mran.S32
