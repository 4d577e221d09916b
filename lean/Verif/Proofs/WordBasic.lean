import Verif.Model.Word
import Verif.Proofs.TreeBuild

/-! # Words as bytes, counting bits -/

set_option autoImplicit false

namespace MRS
open Outcome Spec

/-- Bit `j` of a natural number as 0 or 1. -/
def nbit (x j : Nat) : Nat := (x.testBit j).toNat

/-- Number of ones among the first `k` bits of `x`. -/
def ncnt (x k : Nat) : Nat := psum (nbit x) k

/-- Number of ones of a byte. -/
def bo (a : Nat) : Nat := ncnt a 8

/-- Byte `j` of `x`. -/
def by8 (x j : Nat) : Nat := x / 256 ^ j % 256

/-- Number of ones among the first `k` bits of a word. -/
def wcnt (w : Word) (k : Nat) : Nat := ncnt w.toNat k

theorem nbit_le (x j : Nat) : nbit x j ≤ 1 := by unfold nbit; cases x.testBit j <;> decide

theorem ncnt_le (x k : Nat) : ncnt x k ≤ k := by
  have := psum_diff_le (A := nbit x) (M := 1) (fun j => nbit_le x j) 0 k
  have h0 : psum (nbit x) 0 = 0 := rfl
  rw [Nat.zero_add] at this
  unfold ncnt
  omega

theorem bo_le (a : Nat) : bo a ≤ 8 := ncnt_le a 8

theorem by8_lt (x j : Nat) : by8 x j < 256 := Nat.mod_lt _ (by decide)

theorem nbit_by8 (x j t : Nat) (ht : t < 8) : nbit (by8 x j) t = nbit x (8 * j + t) := by
  unfold nbit by8
  rw [show (256 : Nat) ^ j = 2 ^ (8 * j) by rw [Nat.pow_mul]]
  rw [show (256 : Nat) = 2 ^ 8 from rfl, Nat.testBit_mod_two_pow, Nat.testBit_div_two_pow]
  simp [ht, Nat.add_comm]

theorem ncnt_byte (x r t : Nat) (ht : t ≤ 8) :
    ncnt x (8 * r + t) = ncnt x (8 * r) + ncnt (by8 x r) t := by
  have := psum_shift (f := nbit (by8 x r)) (A := nbit x) (base := 8 * r) (k := t)
    (fun j hj => nbit_by8 x r j (by omega))
  unfold ncnt
  omega

theorem ncnt_bytes (x r : Nat) : ncnt x (8 * r) = psum (fun j => bo (by8 x j)) r := by
  induction r with
  | zero => rfl
  | succ r ih =>
    rw [show 8 * (r + 1) = 8 * r + 8 by omega, ncnt_byte x r 8 (by omega), ih]
    rfl

theorem filter_len (w : Word) (n : Nat) :
    ((List.range n).filter fun j => w.getLsbD j).length = psum (nbit w.toNat) n := by
  induction n with
  | zero => rfl
  | succ n ih =>
    rw [List.range_succ, List.filter_append, List.length_append, ih, psum_succ]
    congr 1
    show _ = (w.toNat.testBit n).toNat
    rw [BitVec.testBit_toNat]
    cases h : w.getLsbD n <;> simp [h]

theorem popcnt_eq (w : Word) : popcnt w = wcnt w 64 := filter_len w 64

/-! ## Packed bytes -/

/-- The word with the given bytes, least significant first. -/
def pk (a0 a1 a2 a3 a4 a5 a6 a7 : Nat) : Nat :=
  a0 + 256 * (a1 + 256 * (a2 + 256 * (a3 + 256 * (a4 + 256 * (a5 + 256 * (a6 + 256 * a7))))))

theorem pk_by8 (x : Nat) (h : x < 2 ^ 64) :
    x = pk (by8 x 0) (by8 x 1) (by8 x 2) (by8 x 3) (by8 x 4) (by8 x 5) (by8 x 6) (by8 x 7) := by
  have e : ∀ j, x / 256 ^ j = by8 x j + 256 * (x / 256 ^ (j + 1)) := by
    intro j
    unfold by8
    rw [Nat.pow_succ, ← Nat.div_div_eq_div_mul]
    omega
  have h8 : x / 256 ^ 8 = 0 := Nat.div_eq_of_lt (by
    calc x < 2 ^ 64 := h
      _ = 256 ^ 8 := by decide)
  have e0 := e 0
  rw [Nat.pow_zero, Nat.div_one, e 1, e 2, e 3, e 4, e 5, e 6, e 7, h8] at e0
  exact e0

theorem pk_add (a0 a1 a2 a3 a4 a5 a6 a7 c0 c1 c2 c3 c4 c5 c6 c7 : Nat) :
    pk a0 a1 a2 a3 a4 a5 a6 a7 + pk c0 c1 c2 c3 c4 c5 c6 c7 =
      pk (a0 + c0) (a1 + c1) (a2 + c2) (a3 + c3) (a4 + c4) (a5 + c5) (a6 + c6) (a7 + c7) := by
  unfold pk
  omega

theorem pk_lt {a0 a1 a2 a3 a4 a5 a6 a7 : Nat} (h0 : a0 < 256) (h1 : a1 < 256) (h2 : a2 < 256)
    (h3 : a3 < 256) (h4 : a4 < 256) (h5 : a5 < 256) (h6 : a6 < 256) (h7 : a7 < 256) :
    pk a0 a1 a2 a3 a4 a5 a6 a7 < 2 ^ 64 := by
  unfold pk
  omega

theorem and_step {a c : Nat} (ha : a < 256) (hc : c < 256) (y z : Nat) :
    (a + 256 * y) &&& (c + 256 * z) = (a &&& c) + 256 * (y &&& z) := by
  have h1 : ((a + 256 * y) &&& (c + 256 * z)) % 2 ^ 8 = a &&& c := by
    rw [Nat.and_mod_two_pow]
    rw [show (a + 256 * y) % 2 ^ 8 = a by omega, show (c + 256 * z) % 2 ^ 8 = c by omega]
  have h2 : ((a + 256 * y) &&& (c + 256 * z)) / 2 ^ 8 = y &&& z := by
    rw [Nat.and_div_two_pow]
    rw [show (a + 256 * y) / 2 ^ 8 = y by omega, show (c + 256 * z) / 2 ^ 8 = z by omega]
  omega

theorem and_pk {a0 a1 a2 a3 a4 a5 a6 a7 c0 c1 c2 c3 c4 c5 c6 c7 : Nat}
    (h0 : a0 < 256) (h1 : a1 < 256) (h2 : a2 < 256) (h3 : a3 < 256) (h4 : a4 < 256) (h5 : a5 < 256)
    (h6 : a6 < 256)
    (g0 : c0 < 256) (g1 : c1 < 256) (g2 : c2 < 256) (g3 : c3 < 256) (g4 : c4 < 256) (g5 : c5 < 256)
    (g6 : c6 < 256) :
    pk a0 a1 a2 a3 a4 a5 a6 a7 &&& pk c0 c1 c2 c3 c4 c5 c6 c7 =
      pk (a0 &&& c0) (a1 &&& c1) (a2 &&& c2) (a3 &&& c3) (a4 &&& c4) (a5 &&& c5) (a6 &&& c6)
        (a7 &&& c7) := by
  unfold pk
  rw [and_step h0 g0, and_step h1 g1, and_step h2 g2, and_step h3 g3, and_step h4 g4,
    and_step h5 g5, and_step h6 g6]

theorem and_lt_of_right {a m k : Nat} (h : m < k) : a &&& m < k :=
  Nat.lt_of_le_of_lt Nat.and_le_right h

/-- A masked byte ignores what a right shift brings in from the byte above. -/
theorem shr_mask {a y m : Nat} (k : Nat) (hk : k ≤ 8) (ha : a < 256) (hm : m < 2 ^ (8 - k)) :
    (a / 2 ^ k + 2 ^ (8 - k) * y) &&& m = (a / 2 ^ k) &&& m := by
  apply Nat.eq_of_testBit_eq
  intro i
  rw [Nat.testBit_and, Nat.testBit_and]
  rcases Nat.lt_or_ge i (8 - k) with h | h
  · have h1 : (a / 2 ^ k + 2 ^ (8 - k) * y).testBit i = (a / 2 ^ k).testBit i := by
      rw [Nat.add_comm, Nat.testBit_two_pow_mul_add y (by
        rw [Nat.div_lt_iff_lt_mul (Nat.two_pow_pos k), ← Nat.pow_add,
          show 8 - k + k = 8 by omega]
        exact ha)]
      rw [if_pos h]
    rw [h1]
  · have : m.testBit i = false := Nat.testBit_lt_two_pow (Nat.lt_of_lt_of_le hm (Nat.pow_le_pow_right (by decide) h))
    rw [this]; simp

/-- Right shift of a packed word by fewer than 8 bits. -/
theorem shr_pk {a0 a1 a2 a3 a4 a5 a6 a7 : Nat} (k : Nat) (hk : k ≤ 8) :
    pk a0 a1 a2 a3 a4 a5 a6 a7 / 2 ^ k =
      pk (a0 / 2 ^ k + 2 ^ (8 - k) * (a1 % 2 ^ k)) (a1 / 2 ^ k + 2 ^ (8 - k) * (a2 % 2 ^ k))
        (a2 / 2 ^ k + 2 ^ (8 - k) * (a3 % 2 ^ k)) (a3 / 2 ^ k + 2 ^ (8 - k) * (a4 % 2 ^ k))
        (a4 / 2 ^ k + 2 ^ (8 - k) * (a5 % 2 ^ k)) (a5 / 2 ^ k + 2 ^ (8 - k) * (a6 % 2 ^ k))
        (a6 / 2 ^ k + 2 ^ (8 - k) * (a7 % 2 ^ k)) (a7 / 2 ^ k) := by
  have st : ∀ a y : Nat, (a + 256 * y) / 2 ^ k =
      (a / 2 ^ k + 2 ^ (8 - k) * (y % 2 ^ k)) + 256 * (y / 2 ^ k) := by
    intro a y
    have : k = 0 ∨ k = 1 ∨ k = 2 ∨ k = 3 ∨ k = 4 ∨ k = 5 ∨ k = 6 ∨ k = 7 ∨ k = 8 := by omega
    rcases this with rfl | rfl | rfl | rfl | rfl | rfl | rfl | rfl | rfl <;> omega
  have sm : ∀ a y : Nat, (a + 256 * y) % 2 ^ k = a % 2 ^ k := by
    intro a y
    have : k = 0 ∨ k = 1 ∨ k = 2 ∨ k = 3 ∨ k = 4 ∨ k = 5 ∨ k = 6 ∨ k = 7 ∨ k = 8 := by omega
    rcases this with rfl | rfl | rfl | rfl | rfl | rfl | rfl | rfl | rfl <;> omega
  unfold pk
  rw [st, st, st, st, st, st, st, sm, sm, sm, sm, sm, sm]

theorem shr_lt {a y k : Nat} (hk : k ≤ 8) (ha : a < 256) :
    a / 2 ^ k + 2 ^ (8 - k) * (y % 2 ^ k) < 256 := by
  have : k = 0 ∨ k = 1 ∨ k = 2 ∨ k = 3 ∨ k = 4 ∨ k = 5 ∨ k = 6 ∨ k = 7 ∨ k = 8 := by omega
  rcases this with rfl | rfl | rfl | rfl | rfl | rfl | rfl | rfl | rfl <;> omega

/-- Shift then mask, bytewise. -/
theorem shr_and_pk {a0 a1 a2 a3 a4 a5 a6 a7 m : Nat} (k : Nat) (hk : k ≤ 8) (hm : m < 2 ^ (8 - k))
    (h0 : a0 < 256) (h1 : a1 < 256) (h2 : a2 < 256) (h3 : a3 < 256) (h4 : a4 < 256) (h5 : a5 < 256)
    (h6 : a6 < 256) (h7 : a7 < 256) :
    (pk a0 a1 a2 a3 a4 a5 a6 a7 / 2 ^ k) &&& pk m m m m m m m m =
      pk (a0 / 2 ^ k &&& m) (a1 / 2 ^ k &&& m) (a2 / 2 ^ k &&& m) (a3 / 2 ^ k &&& m)
        (a4 / 2 ^ k &&& m) (a5 / 2 ^ k &&& m) (a6 / 2 ^ k &&& m) (a7 / 2 ^ k &&& m) := by
  have hm' : m < 256 := Nat.lt_of_lt_of_le hm (by
    calc 2 ^ (8 - k) ≤ 2 ^ 8 := Nat.pow_le_pow_right (by decide) (by omega)
      _ = 256 := rfl)
  rw [shr_pk k hk, and_pk (shr_lt hk h0) (shr_lt hk h1) (shr_lt hk h2) (shr_lt hk h3)
    (shr_lt hk h4) (shr_lt hk h5) (shr_lt hk h6) hm' hm' hm' hm' hm' hm' hm']
  rw [shr_mask k hk h0 hm, shr_mask k hk h1 hm, shr_mask k hk h2 hm, shr_mask k hk h3 hm,
    shr_mask k hk h4 hm, shr_mask k hk h5 hm, shr_mask k hk h6 hm]

/-! ## The byte steps of the sideways addition -/

/-- `x - ((x >> 1) & 0x55)` on a byte. -/
def f1 (a : Nat) : Nat := a - (a / 2 &&& 0x55)
/-- The second step on a byte. -/
def f2 (a : Nat) : Nat := (f1 a &&& 0x33) + (f1 a / 4 &&& 0x33)

theorem f_table : ∀ a : Fin 256, (a.1 / 2 &&& 0x55) ≤ a.1 ∧ f1 a < 256 ∧ f2 a.1 % 16 ≤ 4 ∧
    f2 a.1 / 16 ≤ 4 ∧ f2 a.1 % 16 + f2 a.1 / 16 = bo a.1 := by
  decide +kernel

theorem f_facts {a : Nat} (h : a < 256) : (a / 2 &&& 0x55) ≤ a ∧ f1 a < 256 ∧ f2 a % 16 ≤ 4 ∧
    f2 a / 16 ≤ 4 ∧ f2 a % 16 + f2 a / 16 = bo a := f_table ⟨a, h⟩

theorem f2_lt {a : Nat} (h : a < 256) : f2 a < 256 := by
  have := f_facts h
  omega

theorem sw1 {x : Word} {a0 a1 a2 a3 a4 a5 a6 a7 : Nat} (hp : x.toNat = pk a0 a1 a2 a3 a4 a5 a6 a7)
    (h0 : a0 < 256) (h1 : a1 < 256) (h2 : a2 < 256) (h3 : a3 < 256) (h4 : a4 < 256) (h5 : a5 < 256) (h6 : a6 < 256) (h7 : a7 < 256) :
    (x - ((x >>> 1) &&& 0x5555555555555555#64)).toNat = pk (f1 a0) (f1 a1) (f1 a2) (f1 a3) (f1 a4) (f1 a5) (f1 a6) (f1 a7) := by
  rw [BitVec.toNat_sub, BitVec.toNat_and, BitVec.toNat_ushiftRight, Nat.shiftRight_eq_div_pow]
  rw [show (0x5555555555555555#64).toNat = pk 0x55 0x55 0x55 0x55 0x55 0x55 0x55 0x55 by decide]
  have hx : x.toNat < 2 ^ 64 := x.isLt
  rw [hp] at hx ⊢
  rw [shr_and_pk 1 (by decide) (by decide) h0 h1 h2 h3 h4 h5 h6 h7]
  simp only [Nat.pow_one]
  have s0 : a0 = (a0 / 2 &&& 0x55) + f1 a0 := (Nat.add_sub_cancel' (f_facts h0).1).symm
  have s1 : a1 = (a1 / 2 &&& 0x55) + f1 a1 := (Nat.add_sub_cancel' (f_facts h1).1).symm
  have s2 : a2 = (a2 / 2 &&& 0x55) + f1 a2 := (Nat.add_sub_cancel' (f_facts h2).1).symm
  have s3 : a3 = (a3 / 2 &&& 0x55) + f1 a3 := (Nat.add_sub_cancel' (f_facts h3).1).symm
  have s4 : a4 = (a4 / 2 &&& 0x55) + f1 a4 := (Nat.add_sub_cancel' (f_facts h4).1).symm
  have s5 : a5 = (a5 / 2 &&& 0x55) + f1 a5 := (Nat.add_sub_cancel' (f_facts h5).1).symm
  have s6 : a6 = (a6 / 2 &&& 0x55) + f1 a6 := (Nat.add_sub_cancel' (f_facts h6).1).symm
  have s7 : a7 = (a7 / 2 &&& 0x55) + f1 a7 := (Nat.add_sub_cancel' (f_facts h7).1).symm
  have b0 := (f_facts h0).2.1
  generalize (a0 / 2 &&& 0x55) = c0 at *
  generalize f1 a0 = d0 at *
  have b1 := (f_facts h1).2.1
  generalize (a1 / 2 &&& 0x55) = c1 at *
  generalize f1 a1 = d1 at *
  have b2 := (f_facts h2).2.1
  generalize (a2 / 2 &&& 0x55) = c2 at *
  generalize f1 a2 = d2 at *
  have b3 := (f_facts h3).2.1
  generalize (a3 / 2 &&& 0x55) = c3 at *
  generalize f1 a3 = d3 at *
  have b4 := (f_facts h4).2.1
  generalize (a4 / 2 &&& 0x55) = c4 at *
  generalize f1 a4 = d4 at *
  have b5 := (f_facts h5).2.1
  generalize (a5 / 2 &&& 0x55) = c5 at *
  generalize f1 a5 = d5 at *
  have b6 := (f_facts h6).2.1
  generalize (a6 / 2 &&& 0x55) = c6 at *
  generalize f1 a6 = d6 at *
  have b7 := (f_facts h7).2.1
  generalize (a7 / 2 &&& 0x55) = c7 at *
  generalize f1 a7 = d7 at *
  have hsum : pk a0 a1 a2 a3 a4 a5 a6 a7 = pk c0 c1 c2 c3 c4 c5 c6 c7 + pk d0 d1 d2 d3 d4 d5 d6 d7 := by
    rw [pk_add, ← s0, ← s1, ← s2, ← s3, ← s4, ← s5, ← s6, ← s7]
  clear s0 s1 s2 s3 s4 s5 s6 s7
  have hlt := pk_lt b0 b1 b2 b3 b4 b5 b6 b7
  generalize pk a0 a1 a2 a3 a4 a5 a6 a7 = u at *
  generalize pk c0 c1 c2 c3 c4 c5 c6 c7 = v at *
  generalize pk d0 d1 d2 d3 d4 d5 d6 d7 = w at *
  clear hp h0 h1 h2 h3 h4 h5 h6 h7 b0 b1 b2 b3 b4 b5 b6 b7
  omega

theorem sw2 {y : Word} {a0 a1 a2 a3 a4 a5 a6 a7 : Nat} (hp : y.toNat = pk (f1 a0) (f1 a1) (f1 a2) (f1 a3) (f1 a4) (f1 a5) (f1 a6) (f1 a7))
    (h0 : a0 < 256) (h1 : a1 < 256) (h2 : a2 < 256) (h3 : a3 < 256) (h4 : a4 < 256) (h5 : a5 < 256) (h6 : a6 < 256) (h7 : a7 < 256) :
    ((y &&& 0x3333333333333333#64) + ((y >>> 2) &&& 0x3333333333333333#64)).toNat =
      pk (f2 a0) (f2 a1) (f2 a2) (f2 a3) (f2 a4) (f2 a5) (f2 a6) (f2 a7) := by
  rw [BitVec.toNat_add, BitVec.toNat_and, BitVec.toNat_and, BitVec.toNat_ushiftRight,
    Nat.shiftRight_eq_div_pow]
  rw [show (0x3333333333333333#64).toNat = pk 0x33 0x33 0x33 0x33 0x33 0x33 0x33 0x33 by decide]
  have q0 := (f_facts h0).2.1
  have q1 := (f_facts h1).2.1
  have q2 := (f_facts h2).2.1
  have q3 := (f_facts h3).2.1
  have q4 := (f_facts h4).2.1
  have q5 := (f_facts h5).2.1
  have q6 := (f_facts h6).2.1
  have q7 := (f_facts h7).2.1
  rw [hp, shr_and_pk 2 (by decide) (by decide) q0 q1 q2 q3 q4 q5 q6 q7,
    and_pk q0 q1 q2 q3 q4 q5 q6 (by decide) (by decide) (by decide) (by decide) (by decide)
      (by decide) (by decide), pk_add]
  exact Nat.mod_eq_of_lt (pk_lt (f2_lt h0) (f2_lt h1) (f2_lt h2) (f2_lt h3) (f2_lt h4) (f2_lt h5) (f2_lt h6) (f2_lt h7))

theorem sw3 {z : Word} {c0 c1 c2 c3 c4 c5 c6 c7 : Nat} (hp : z.toNat = pk c0 c1 c2 c3 c4 c5 c6 c7)
    (l0 : c0 % 16 ≤ 4) (u0 : c0 / 16 ≤ 4) (l1 : c1 % 16 ≤ 4) (u1 : c1 / 16 ≤ 4) (l2 : c2 % 16 ≤ 4) (u2 : c2 / 16 ≤ 4) (l3 : c3 % 16 ≤ 4) (u3 : c3 / 16 ≤ 4) (l4 : c4 % 16 ≤ 4) (u4 : c4 / 16 ≤ 4) (l5 : c5 % 16 ≤ 4) (u5 : c5 / 16 ≤ 4) (l6 : c6 % 16 ≤ 4) (u6 : c6 / 16 ≤ 4) (l7 : c7 % 16 ≤ 4) (u7 : c7 / 16 ≤ 4) :
    ((z + (z >>> 4)) &&& 0x0F0F0F0F0F0F0F0F#64).toNat =
      pk (c0 % 16 + c0 / 16) (c1 % 16 + c1 / 16) (c2 % 16 + c2 / 16) (c3 % 16 + c3 / 16) (c4 % 16 + c4 / 16) (c5 % 16 + c5 / 16) (c6 % 16 + c6 / 16) (c7 % 16 + c7 / 16) := by
  rw [BitVec.toNat_and, BitVec.toNat_add, BitVec.toNat_ushiftRight, Nat.shiftRight_eq_div_pow]
  rw [show (0x0F0F0F0F0F0F0F0F#64).toNat = pk 15 15 15 15 15 15 15 15 by decide]
  rw [hp, shr_pk 4 (by decide), pk_add]
  simp only [show (2 : Nat) ^ 4 = 16 from rfl, Nat.reduceSub]
  have b0 : c0 + (c0 / 16 + 16 * (c1 % 16)) < 256 := by omega
  have b1 : c1 + (c1 / 16 + 16 * (c2 % 16)) < 256 := by omega
  have b2 : c2 + (c2 / 16 + 16 * (c3 % 16)) < 256 := by omega
  have b3 : c3 + (c3 / 16 + 16 * (c4 % 16)) < 256 := by omega
  have b4 : c4 + (c4 / 16 + 16 * (c5 % 16)) < 256 := by omega
  have b5 : c5 + (c5 / 16 + 16 * (c6 % 16)) < 256 := by omega
  have b6 : c6 + (c6 / 16 + 16 * (c7 % 16)) < 256 := by omega
  have b7 : c7 + c7 / 16 < 256 := by omega
  rw [Nat.mod_eq_of_lt (pk_lt b0 b1 b2 b3 b4 b5 b6 b7)]
  rw [and_pk b0 b1 b2 b3 b4 b5 b6 (by decide) (by decide) (by decide) (by decide) (by decide)
    (by decide) (by decide)]
  have m15 : ∀ u : Nat, u &&& 15 = u % 16 := fun u => Nat.and_two_pow_sub_one_eq_mod u 4
  have g : ∀ c d : Nat, c % 16 ≤ 4 → c / 16 ≤ 4 → (c + (c / 16 + 16 * d)) &&& 15 = c % 16 + c / 16 := by
    intro c d h1 h2
    rw [m15]; omega
  have g' : ∀ c : Nat, c % 16 ≤ 4 → c / 16 ≤ 4 → (c + c / 16) &&& 15 = c % 16 + c / 16 := by
    intro c h1 h2
    rw [m15]; omega
  rw [g c0 _ l0 u0, g c1 _ l1 u1, g c2 _ l2 u2, g c3 _ l3 u3, g c4 _ l4 u4, g c5 _ l5 u5,
    g c6 _ l6 u6, g' c7 l7 u7]

/-- `sidewaysCounts` puts the number of ones of each byte into that byte. -/
theorem sideways_toNat (x : Word) :
    (sidewaysCounts x).toNat = pk (bo (by8 x.toNat 0)) (bo (by8 x.toNat 1)) (bo (by8 x.toNat 2))
      (bo (by8 x.toNat 3)) (bo (by8 x.toNat 4)) (bo (by8 x.toNat 5)) (bo (by8 x.toNat 6))
      (bo (by8 x.toNat 7)) := by
  have e1 := sw1 (pk_by8 x.toNat x.isLt) (by8_lt _ _) (by8_lt _ _) (by8_lt _ _) (by8_lt _ _)
    (by8_lt _ _) (by8_lt _ _) (by8_lt _ _) (by8_lt _ _)
  have e2 := sw2 e1 (by8_lt _ _) (by8_lt _ _) (by8_lt _ _) (by8_lt _ _)
    (by8_lt _ _) (by8_lt _ _) (by8_lt _ _) (by8_lt _ _)
  have t0 := (f_facts (by8_lt x.toNat 0)).2.2
  have t1 := (f_facts (by8_lt x.toNat 1)).2.2
  have t2 := (f_facts (by8_lt x.toNat 2)).2.2
  have t3 := (f_facts (by8_lt x.toNat 3)).2.2
  have t4 := (f_facts (by8_lt x.toNat 4)).2.2
  have t5 := (f_facts (by8_lt x.toNat 5)).2.2
  have t6 := (f_facts (by8_lt x.toNat 6)).2.2
  have t7 := (f_facts (by8_lt x.toNat 7)).2.2
  have e3 := sw3 e2 t0.1 t0.2.1 t1.1 t1.2.1 t2.1 t2.2.1 t3.1 t3.2.1 t4.1 t4.2.1 t5.1 t5.2.1 t6.1 t6.2.1 t7.1 t7.2.1
  rw [t0.2.2, t1.2.2, t2.2.2, t3.2.2, t4.2.2, t5.2.2, t6.2.2, t7.2.2] at e3
  exact e3

theorem byteCounts_eq (x : Word) : byteCounts x = sidewaysCounts x := by
  unfold byteCounts sidewaysCounts
  simp only []
  rw [show (x &&& (0xa#64 * onesStep4)) >>> 1 = (x >>> 1) &&& 0x5555555555555555#64 by
    rw [BitVec.ushiftRight_and_distrib]
    rw [show (0xa#64 * onesStep4) >>> 1 = 0x5555555555555555#64 by decide]]
  rw [show 3#64 * onesStep4 = 0x3333333333333333#64 by decide,
    show 0x0f#64 * onesStep8 = 0x0F0F0F0F0F0F0F0F#64 by decide]

end MRS
