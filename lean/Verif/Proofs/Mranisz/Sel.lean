import Verif.Model.Mranisz.Select
import Verif.Proofs.Mranisz.Basic

/-! # Compressed select: positions of ones, blocks -/

set_option autoImplicit false

namespace MRS.Mran
open Outcome Spec Poppy

/-! ## Positions of ones -/

/-- Number of ones of the text. -/
def tot (t : Vec Byte) : Nat := T t (8 * t.len)

/-- Position of one number `k`, counted from 1. -/
def sel (t : Vec Byte) (k : Nat) : Nat := psum (fun p => if T t (p + 1) < k then 1 else 0) (8 * t.len)

theorem sel_eq {t : Vec Byte} {p k : Nat} (hp : p < 8 * t.len) (hb : tbit t p = true)
    (hk : T t p + 1 = k) : sel t k = p := by
  have h1 : ∀ a, a ≤ p → psum (fun p => if T t (p + 1) < k then 1 else 0) a = a := by
    intro a
    induction a with
    | zero => intro _; rfl
    | succ a ih =>
      intro ha
      have := T_mono t (show a + 1 ≤ p from ha)
      rw [psum_succ, ih (by omega)]
      rw [if_pos (by omega)]
  have h2 : ∀ d, psum (fun p => if T t (p + 1) < k then 1 else 0) (p + d) = p := by
    intro d
    induction d with
    | zero => exact h1 p (Nat.le_refl _)
    | succ d ih =>
      have := T_mono t (show p + 1 ≤ p + d + 1 by omega)
      have h3 := T_succ t p
      rw [hb] at h3
      have h4 : (true : Bool).toNat = 1 := rfl
      rw [← Nat.add_assoc, psum_succ, ih]
      rw [if_neg (by omega)]
      rfl
  have := h2 (8 * t.len - p)
  rw [show p + (8 * t.len - p) = 8 * t.len by omega] at this
  exact this

theorem one_exists (t : Vec Byte) {k : Nat} (hk : 1 ≤ k) : ∀ n, k ≤ T t n →
    ∃ p, p < n ∧ tbit t p = true ∧ T t p + 1 = k := by
  intro n
  induction n with
  | zero => intro h; rw [T_zero] at h; omega
  | succ n ih =>
    intro h
    by_cases h1 : k ≤ T t n
    · obtain ⟨p, h2, h3⟩ := ih h1
      exact ⟨p, by omega, h3⟩
    · rw [T_succ] at h
      cases hb : tbit t n
      · rw [hb] at h
        have : (false : Bool).toNat = 0 := rfl
        omega
      · rw [hb] at h
        have : (true : Bool).toNat = 1 := rfl
        exact ⟨n, by omega, hb, by omega⟩

theorem sel_spec {t : Vec Byte} {k : Nat} (hk : 1 ≤ k) (hm : k ≤ tot t) :
    sel t k < 8 * t.len ∧ tbit t (sel t k) = true ∧ T t (sel t k) + 1 = k := by
  obtain ⟨p, h1, h2, h3⟩ := one_exists t hk _ hm
  rw [sel_eq h1 h2 h3]
  exact ⟨h1, h2, h3⟩

theorem T_sel {t : Vec Byte} {k : Nat} (hk : 1 ≤ k) (hm : k ≤ tot t) : T t (sel t k + 1) = k := by
  obtain ⟨-, h2, h3⟩ := sel_spec hk hm
  rw [T_succ, h2]; exact h3

theorem sel_lt {t : Vec Byte} {a b : Nat} (ha : 1 ≤ a) (hab : a < b) (hb : b ≤ tot t) : sel t a < sel t b := by
  obtain ⟨-, -, h1⟩ := sel_spec ha (by omega : a ≤ tot t)
  obtain ⟨-, -, h2⟩ := sel_spec (by omega) hb
  refine Nat.lt_of_not_le (fun h => ?_)
  have := T_mono t h
  omega

theorem tot_le (t : Vec Byte) : tot t ≤ 8 * t.len := T_le t _

theorem T_le_tot (t : Vec Byte) (p : Nat) : T t p ≤ tot t := by
  by_cases h : p ≤ 8 * t.len
  · exact T_mono t h
  · rw [T_beyond t (by omega)]; exact Nat.le_refl _

/-! ## Blocks of `L` ones -/

/-- Number of blocks, the last one possibly incomplete. -/
def nbk (t : Vec Byte) (L : Nat) : Nat := tot t / L + if tot t % L > 0 then 1 else 0

/-- Ones before block `m`. -/
def ob (t : Vec Byte) (L m : Nat) : Nat := min (m * L) (tot t)

/-- First position after block `m - 1`. -/
def en (t : Vec Byte) (L m : Nat) : Nat := if m = 0 then 0 else sel t (ob t L m) + 1

theorem en_zero (t : Vec Byte) (L : Nat) : en t L 0 = 0 := rfl

theorem ob_zero (t : Vec Byte) (L : Nat) : ob t L 0 = 0 := by unfold ob; omega

theorem nbk_pos {t : Vec Byte} {L : Nat} : tot t = 0 → nbk t L = 0 := by
  intro h; unfold nbk; rw [h]; simp

variable {t : Vec Byte} {L : Nat}

theorem nbk_lt {m : Nat} (hL : 1 ≤ L) (h : m < nbk t L) : m * L < tot t := by
  have h1 := Nat.div_add_mod (tot t) L
  have h2 : m * L ≤ (tot t / L) * L := Nat.mul_le_mul_right L (by unfold nbk at h; split at h <;> omega)
  rw [Nat.mul_comm] at h1
  by_cases hm : m < tot t / L
  · have : (m + 1) * L ≤ (tot t / L) * L := Nat.mul_le_mul_right L hm
    rw [Nat.add_mul, Nat.one_mul] at this
    omega
  · unfold nbk at h
    split at h
    · omega
    · omega

theorem ob_lt {m : Nat} (hL : 1 ≤ L) (h : m < nbk t L) : ob t L m = m * L := by
  have := nbk_lt hL h
  unfold ob; omega

theorem ob_full {m : Nat} (h : m ≤ tot t / L) : ob t L m = m * L := by
  have : m * L ≤ (tot t / L) * L := Nat.mul_le_mul_right L h
  have h1 := Nat.div_add_mod (tot t) L
  rw [Nat.mul_comm] at h1
  unfold ob; omega

theorem nbk_mul (hL : 1 ≤ L) : tot t ≤ nbk t L * L := by
  have h1 := Nat.div_add_mod (tot t) L
  rw [Nat.mul_comm] at h1
  have h2 := Nat.mod_lt (tot t) hL
  unfold nbk
  split
  · rw [Nat.add_mul, Nat.one_mul]; omega
  · rw [Nat.add_zero]; omega

theorem ob_all (hL : 1 ≤ L) : ob t L (nbk t L) = tot t := by
  have := nbk_mul (t := t) hL
  unfold ob; omega

theorem ob_succ {m : Nat} (hL : 1 ≤ L) (h : m < nbk t L) : m * L < ob t L (m + 1) := by
  have := nbk_lt hL h
  unfold ob
  rw [Nat.add_mul, Nat.one_mul]
  omega

theorem ob_le (m : Nat) : ob t L m ≤ tot t := by unfold ob; omega

theorem ob_pos {m : Nat} (hL : 1 ≤ L) (h : 0 < nbk t L) (hm : m ≠ 0) : 1 ≤ ob t L m := by
  have h1 := nbk_lt hL h
  rw [Nat.zero_mul] at h1
  have : 1 * 1 ≤ m * L := Nat.mul_le_mul (by omega) hL
  unfold ob; omega

theorem T_en {m : Nat} (hL : 1 ≤ L) (h : 0 < nbk t L) : T t (en t L m) = ob t L m := by
  unfold en
  by_cases hm : m = 0
  · rw [if_pos hm, hm, ob_zero, T_zero]
  · rw [if_neg hm, T_sel (ob_pos hL h hm) (ob_le m)]

theorem en_last {m : Nat} (hL : 1 ≤ L) (h : m < nbk t L) :
    en t L (m + 1) - 1 = sel t (ob t L (m + 1)) ∧ 1 ≤ en t L (m + 1) ∧ en t L (m + 1) ≤ 8 * t.len ∧
      tbit t (en t L (m + 1) - 1) = true ∧ T t (en t L (m + 1) - 1) + 1 = ob t L (m + 1) := by
  have hs := sel_spec (t := t) (ob_pos hL (by omega) (show m + 1 ≠ 0 by omega)) (ob_le (L := L) (m + 1))
  have he : en t L (m + 1) = sel t (ob t L (m + 1)) + 1 := if_neg (by omega)
  rw [he, Nat.add_sub_cancel]
  exact ⟨rfl, by omega, by omega, hs.2.1, hs.2.2⟩

theorem en_lt {m : Nat} (hL : 1 ≤ L) (h : m < nbk t L) : en t L m < en t L (m + 1) := by
  refine Nat.lt_of_not_le (fun hh => ?_)
  have h1 := T_mono t hh
  rw [T_en hL (by omega), T_en hL (by omega), ob_lt hL h] at h1
  have := ob_succ hL h
  omega

theorem en_le (hL : 1 ≤ L) {m : Nat} (h : m ≤ nbk t L) : en t L m ≤ 8 * t.len := by
  cases m with
  | zero => rw [en_zero]; omega
  | succ m => exact (en_last hL (by omega)).2.2.1

/-- Length of block `m` in bits. -/
def bl (t : Vec Byte) (L m : Nat) : Nat := en t L (m + 1) - en t L m

theorem bl_pos {m : Nat} (hL : 1 ≤ L) (h : m < nbk t L) : 1 ≤ bl t L m := by
  have := en_lt hL h
  unfold bl; omega

theorem en_succ {m : Nat} (hL : 1 ≤ L) (h : m < nbk t L) : en t L m + bl t L m = en t L (m + 1) := by
  have := en_lt hL h
  unfold bl; omega

/-- A position of block `m` before its last one. -/
theorem T_in {m p : Nat} (hL : 1 ≤ L) (h : m < nbk t L) (h1 : en t L m ≤ p) (h2 : p + 1 ≤ en t L (m + 1)) :
    m * L ≤ T t p ∧ T t p + 1 ≤ ob t L (m + 1) := by
  have h3 := T_mono t h1
  rw [T_en hL (by omega), ob_lt hL h] at h3
  have h4 := T_mono t (show p ≤ en t L (m + 1) - 1 by omega)
  have h5 := (en_last hL h).2.2.2.2
  omega

/-! ## Bits of the text -/

theorem bit_table : ∀ (j : Fin 8) (c : BitVec 8), (((c >>> j.1) &&& 1#8) == 1#8) = c.getLsbD j.1 := by
  decide +kernel

theorem bitAt_ok {p : Nat} (h : p < 8 * t.len) : bitAt t p = ok (tbit t p) := by
  unfold bitAt tbit tbyte
  rw [Vec.get_ok (by omega), ok_bind, if_pos (by omega)]
  rw [bit_table ⟨7 - p % 8, by omega⟩]

/-- Ones among the first `j` bits of a byte. -/
def bcnt (b : Byte) (j : Nat) : Nat := psum (fun z => (b.getLsbD (7 - z)).toNat) j

theorem bcnt_succ (b : Byte) (j : Nat) : bcnt b (j + 1) = bcnt b j + (b.getLsbD (7 - j)).toNat := rfl

theorem byte_popcnt : ∀ c : BitVec 8, popcnt (c.setWidth 64) = bcnt c 8 := by decide +kernel

theorem byte_table : ∀ c : BitVec 8, popcntTable.getD c.toNat 0 = bcnt c 8 := by decide +kernel

theorem T_bcnt (k : Nat) {j : Nat} (hj : j ≤ 8) : T t (8 * k + j) = T t (8 * k) + bcnt (tbyte t k) j := by
  induction j with
  | zero => rfl
  | succ j ih =>
    rw [← Nat.add_assoc, T_succ, ih (by omega), bcnt_succ]
    unfold tbit
    rw [show (8 * k + j) / 8 = k by omega, show (8 * k + j) % 8 = j by omega]
    omega

theorem countOnes_ok (t : Vec Byte) : countOnes t = ok (tot t) := by
  unfold countOnes
  obtain ⟨n, e, h⟩ := forN_inv (body := fun i (n : Nat) => do
      let c ← t.get i
      ok (n + popcnt (c.setWidth 64))) (fun i n => n = T t (8 * i)) t.len 0 (T_zero t).symm
    (by
      intro i n hi h
      rw [Vec.get_ok hi, ok_bind]
      refine ⟨_, rfl, ?_⟩
      have := T_bcnt (t := t) i (Nat.le_refl 8)
      rw [show 8 * (i + 1) = 8 * i + 8 by omega, this, h, byte_popcnt]
      unfold tbyte
      rw [if_pos hi])
  rw [e, h]
  rfl

/-! ## Bytes of a block under construction -/

/-- The byte that holds the first `x` bits from position `base`. -/
def bacc (t : Vec Byte) (base : Nat) : Nat → Byte
  | 0 => 0#8
  | x + 1 => if tbit t (base + x) then bacc t base x + 1#8 <<< (7 - x) else bacc t base x

theorem shl_table : ∀ (x z : Fin 8), (1#8 <<< (7 - x.1)).getLsbD (7 - z.1) = decide (x = z) := by decide +kernel

theorem bacc_bit (base : Nat) {x : Nat} (hx : x ≤ 8) : ∀ {z : Nat}, z < 8 →
    (bacc t base x).getLsbD (7 - z) = (decide (z < x) && tbit t (base + z)) := by
  induction x with
  | zero => intro z _; simp [bacc]
  | succ x ih =>
    intro z hz
    unfold bacc
    cases hb : tbit t (base + x)
    · rw [if_neg (by simp), ih (by omega) hz]
      by_cases hzx : z = x
      · rw [hzx, hb]; simp
      · rw [show decide (z < x + 1) = decide (z < x) by rw [decide_eq_decide]; omega]
    · rw [if_pos rfl]
      have hdis : bacc t base x &&& 1#8 <<< (7 - x) = 0#8 := by
        apply BitVec.eq_of_getLsbD_eq
        intro l hl
        rw [BitVec.getLsbD_and]
        have h1 := shl_table ⟨x, by omega⟩ ⟨7 - l, by omega⟩
        have h2 := ih (by omega) (show 7 - l < 8 by omega)
        simp only [] at h1
        rw [show 7 - (7 - l) = l by omega] at h1 h2
        rw [h1, h2]
        by_cases hlx : x = 7 - l
        · rw [decide_eq_false (show ¬ 7 - l < x by omega)]; simp
        · rw [decide_eq_false (show ¬ (⟨x, by omega⟩ : Fin 8) = ⟨7 - l, by omega⟩ by
            intro hh; exact hlx (congrArg Fin.val hh)), Bool.and_false]; simp
      rw [BitVec.add_eq_or_of_and_eq_zero _ _ hdis, BitVec.getLsbD_or, ih (by omega) hz,
        shl_table ⟨x, by omega⟩ ⟨z, hz⟩]
      by_cases hzx : z = x
      · subst hzx; rw [hb]; simp
      · rw [decide_eq_false (show ¬ (⟨x, _⟩ : Fin 8) = ⟨z, hz⟩ by
          intro hh; exact hzx (congrArg Fin.val hh).symm), Bool.or_false,
          show decide (z < x + 1) = decide (z < x) by rw [decide_eq_decide]; omega]

theorem bacc_cnt (base : Nat) {x : Nat} (hx : x ≤ 8) {j : Nat} (hj : j ≤ 8) :
    T t base + bcnt (bacc t base x) j = T t (base + min j x) := by
  induction j with
  | zero => rw [Nat.zero_min]; rfl
  | succ j ih =>
    rw [bcnt_succ, bacc_bit base hx (by omega), ← Nat.add_assoc, ih (by omega)]
    by_cases h : j < x
    · rw [decide_eq_true h, Bool.true_and, show min (j + 1) x = j + 1 by omega, show min j x = j by omega,
        ← Nat.add_assoc, T_succ]
    · rw [decide_eq_false h, Bool.false_and, show min (j + 1) x = min j x by omega]
      rfl

/-! ## What is stored of a block -/

/-- More than `TH` bits: positions are stored. -/
def sparse (t : Vec Byte) (L TH m : Nat) : Bool := decide (bl t L m > TH)

/-- `L` bits: nothing is stored. -/
def mono (t : Vec Byte) (L TH m : Nat) : Bool := decide (¬ bl t L m > TH ∧ bl t L m = L)

/-- Ones of block `m` that are stored: the last one of a complete block is not. -/
def sq (t : Vec Byte) (L m : Nat) : Nat := if m < tot t / L then L - 1 else tot t % L

/-- Bits of block `m` that are stored when it is neither sparse nor all ones. -/
def sb (t : Vec Byte) (L m : Nat) : Nat := if m < tot t / L then bl t L m - 1 else bl t L m

/-- Bytes that block `m` takes. -/
def wd (t : Vec Byte) (L TH m : Nat) : Nat :=
  if sparse t L TH m then 8 * sq t L m else if mono t L TH m then 0 else (sb t L m + 7) / 8

/-- Where they start. -/
def off (t : Vec Byte) (L TH m : Nat) : Nat := psum (wd t L TH) m

theorem off_succ (TH m : Nat) : off t L TH (m + 1) = off t L TH m + wd t L TH m := rfl
theorem off_mono (TH : Nat) {a b : Nat} (h : a ≤ b) : off t L TH a ≤ off t L TH b := psum_mono _ h

/-- The bytes of block `m`. -/
def Data (t : Vec Byte) (L TH m : Nat) (bits : Vec (Option Byte)) : Prop :=
  (sparse t L TH m = true → ∀ j, j < sq t L m → ∀ b, b < 8 →
    bits.f (off t L TH m + 8 * j + b) = some (BitVec.ofNat 8 (sel t (m * L + 1 + j) >>> (8 * b)))) ∧
  (sparse t L TH m = false → mono t L TH m = false → ∀ y, y < (sb t L m + 7) / 8 →
    bits.f (off t L TH m + y) = some (bacc t (en t L m + 8 * y) (min 8 (sb t L m - 8 * y))))

theorem Data.frame {TH m : Nat} {b b' : Vec (Option Byte)} (h : Data t L TH m b)
    (hf : ∀ y, y < off t L TH (m + 1) → b'.f y = b.f y) : Data t L TH m b' := by
  rw [off_succ] at hf
  unfold wd at hf
  refine ⟨fun h1 j hj c hc => ?_, fun h1 h2 y hy => ?_⟩
  · rw [h1, if_pos rfl] at hf
    rw [hf _ (by omega), h.1 h1 j hj c hc]
  · rw [h1, h2, if_neg (by simp), if_neg (by simp)] at hf
    rw [hf _ (by omega), h.2 h1 h2 y hy]

end MRS.Mran
