import Verif.Model.Hft.Common

/-! # Arithmetic of node indices: every positive index is `2^h * (2*k + 1)` -/

set_option autoImplicit false

namespace MRS.Hft
open Outcome

/-- Number of trailing zeros of a 64-bit value. -/
def tz (x : Nat) : Nat := ctzFuel 64 x

theorem ctzFuel_spec : ∀ (f x : Nat), 0 < x → x < 2 ^ f →
    ctzFuel f x < f ∧ ∃ k, x = 2 ^ ctzFuel f x * (2 * k + 1)
  | 0, x, h0, h1 => by simp at h1; omega
  | f + 1, x, h0, h1 => by
    unfold ctzFuel
    split
    · exact ⟨by omega, x / 2, by simp; omega⟩
    · obtain ⟨hl, k, hk⟩ := ctzFuel_spec f (x / 2) (by omega) (by rw [Nat.pow_succ] at h1; omega)
      refine ⟨by omega, k, ?_⟩
      rw [Nat.pow_succ, Nat.mul_right_comm, ← hk]; omega

theorem ctzFuel_eq : ∀ (f h k : Nat), h < f → ctzFuel f (2 ^ h * (2 * k + 1)) = h
  | 0, h, k, hl => by omega
  | f + 1, 0, k, _ => by
    unfold ctzFuel
    rw [if_pos (by simp)]
  | f + 1, h + 1, k, hl => by
    unfold ctzFuel
    have e : 2 ^ (h + 1) * (2 * k + 1) = 2 * (2 ^ h * (2 * k + 1)) := by
      rw [Nat.pow_succ, Nat.mul_comm (2 ^ h) 2, Nat.mul_assoc]
    rw [e, if_neg (by omega), Nat.mul_div_cancel_left _ (by decide), ctzFuel_eq f h k (by omega)]

theorem tz_eq {h k : Nat} (hh : h < 64) : tz (2 ^ h * (2 * k + 1)) = h := ctzFuel_eq 64 h k hh

theorem tz_spec {x : Nat} (h0 : 0 < x) (h1 : x < W64) :
    tz x < 64 ∧ ∃ k, x = 2 ^ tz x * (2 * k + 1) :=
  ctzFuel_spec 64 x h0 h1

/-- Decomposition of a positive index. -/
theorem decomp {x : Nat} (h0 : 0 < x) (h1 : x < W64) :
    ∃ h k, h < 64 ∧ x = 2 ^ h * (2 * k + 1) ∧ tz x = h := by
  obtain ⟨hl, k, hk⟩ := tz_spec h0 h1
  exact ⟨tz x, k, hl, hk, rfl⟩

theorem rho_ok {x : Nat} (h0 : 0 < x) : rho x = ok (tz x) := by
  unfold rho builtinCtz tz
  rw [if_neg (by omega)]

theorem pow_le_node (h k : Nat) : 2 ^ h ≤ 2 ^ h * (2 * k + 1) :=
  Nat.le_mul_of_pos_right _ (by omega)

theorem node_pos (h k : Nat) : 0 < 2 ^ h * (2 * k + 1) :=
  Nat.mul_pos (Nat.two_pow_pos h) (by omega)

theorem node_lt {h k : Nat} (hx : 2 ^ h * (2 * k + 1) < W64) : h < 64 := by
  have h1 := pow_le_node h k
  by_cases hh : h < 64
  · exact hh
  · have : 2 ^ 64 ≤ 2 ^ h := Nat.pow_le_pow_right (by decide) (by omega)
    simp only [W64] at hx
    omega

/-- `2^h * (2k+1) = 2^(h+1) * k + 2^h`. -/
theorem node_eq (h k : Nat) : 2 ^ h * (2 * k + 1) = 2 ^ (h + 1) * k + 2 ^ h := by
  rw [Nat.mul_add, Nat.pow_succ, Nat.mul_one, Nat.mul_assoc]

theorem and_split (a b : Nat) : a &&& b = 2 * (a / 2 &&& b / 2) + (a % 2 &&& b % 2) := by
  have h1 : (a &&& b) / 2 = a / 2 &&& b / 2 := Nat.and_div_two
  have h2 : (a &&& b) % 2 = a % 2 &&& b % 2 := by
    have := Nat.and_mod_two_pow (a := a) (b := b) (n := 1)
    simpa using this
  omega

theorem and_pred : ∀ (h k : Nat),
    (2 ^ h * (2 * k + 1)) &&& (2 ^ h * (2 * k + 1) - 1) = 2 ^ (h + 1) * k
  | 0, k => by
    simp only [Nat.pow_zero, Nat.one_mul, Nat.zero_add, Nat.pow_one]
    rw [and_split]
    have h1 : (2 * k + 1) / 2 = k := by omega
    have h2 : (2 * k + 1 - 1) / 2 = k := by omega
    have h3 : (2 * k + 1 - 1) % 2 = 0 := by omega
    rw [h1, h2, h3]; simp
  | h + 1, k => by
    have e : 2 ^ (h + 1) * (2 * k + 1) = 2 * (2 ^ h * (2 * k + 1)) := by
      rw [Nat.pow_succ, Nat.mul_comm (2 ^ h) 2, Nat.mul_assoc]
    have hp := node_pos h k
    rw [and_split, e]
    have h1 : 2 * (2 ^ h * (2 * k + 1)) / 2 = 2 ^ h * (2 * k + 1) := by omega
    have h2 : (2 * (2 ^ h * (2 * k + 1)) - 1) / 2 = 2 ^ h * (2 * k + 1) - 1 := by omega
    have h3 : 2 * (2 ^ h * (2 * k + 1)) % 2 = 0 := by omega
    rw [h1, h2, h3, and_pred h k, Nat.zero_and, Nat.add_zero, ← Nat.mul_assoc, Nat.pow_succ 2 (h + 1),
      Nat.mul_comm 2]

theorem and_compl (n k : Nat) (hk : k < 2 ^ n) : k &&& (2 ^ n - (k + 1)) = 0 := by
  apply Nat.eq_of_testBit_eq
  intro i
  rw [Nat.testBit_and, Nat.testBit_two_pow_sub_succ hk]
  cases k.testBit i <;> simp

theorem and_neg : ∀ (h k n : Nat), 2 ^ h * (2 * k + 1) ≤ 2 ^ n →
    (2 ^ h * (2 * k + 1)) &&& (2 ^ n - 2 ^ h * (2 * k + 1)) = if 2 ^ h * (2 * k + 1) = 2 ^ n then 0 else 2 ^ h
  | 0, k, 0, hn => by
    have : k = 0 := by simp at hn; omega
    subst this; simp
  | 0, k, n + 1, hn => by
    simp only [Nat.pow_zero, Nat.one_mul] at *
    rw [Nat.pow_succ] at *
    rw [if_neg (by omega), and_split]
    have h1 : (2 * k + 1) / 2 = k := by omega
    have h2 : (2 ^ n * 2 - (2 * k + 1)) / 2 = 2 ^ n - (k + 1) := by omega
    have h3 : (2 ^ n * 2 - (2 * k + 1)) % 2 = 1 := by omega
    have h4 : (2 * k + 1) % 2 = 1 := by omega
    rw [h1, h2, h3, h4, and_compl n k (by omega)]
    rfl
  | h + 1, k, 0, hn => by
    have := node_pos h k
    rw [Nat.pow_succ, Nat.mul_right_comm] at hn
    simp at hn; omega
  | h + 1, k, n + 1, hn => by
    have e : 2 ^ (h + 1) * (2 * k + 1) = 2 * (2 ^ h * (2 * k + 1)) := by
      rw [Nat.pow_succ, Nat.mul_comm (2 ^ h) 2, Nat.mul_assoc]
    rw [e, Nat.pow_succ 2 n] at hn
    rw [e, Nat.pow_succ 2 n]
    have hp := node_pos h k
    have ih := and_neg h k n (by omega)
    rw [and_split]
    have h1 : 2 * (2 ^ h * (2 * k + 1)) / 2 = 2 ^ h * (2 * k + 1) := by omega
    have h2 : (2 ^ n * 2 - 2 * (2 ^ h * (2 * k + 1))) / 2 = 2 ^ n - 2 ^ h * (2 * k + 1) := by omega
    have h3 : 2 * (2 ^ h * (2 * k + 1)) % 2 = 0 := by omega
    rw [h1, h2, h3, ih, Nat.zero_and, Nat.add_zero]
    by_cases hc : 2 ^ h * (2 * k + 1) = 2 ^ n
    · rw [if_pos hc, if_pos (by omega)]
    · rw [if_neg hc, if_neg (by omega), Nat.pow_succ, Nat.mul_comm]

theorem clearRho_eq {h k : Nat} (hx : 2 ^ h * (2 * k + 1) < W64) :
    clearRho (2 ^ h * (2 * k + 1)) = 2 ^ (h + 1) * k := by
  unfold clearRho
  rw [sub64_eq (node_pos h k) hx, and_pred]

theorem maskRho_eq {h k : Nat} (hx : 2 ^ h * (2 * k + 1) < W64) :
    maskRho (2 ^ h * (2 * k + 1)) = 2 ^ h := by
  unfold maskRho sub64
  have hp := node_pos h k
  have e : (0 + (W64 - 2 ^ h * (2 * k + 1) % W64)) % W64 = 2 ^ 64 - 2 ^ h * (2 * k + 1) := by
    simp only [W64] at *; omega
  rw [e, and_neg h k 64 (by simp only [W64] at hx; omega), if_neg (by simp only [W64] at hx; omega)]

theorem maskLambda_ok {n : Nat} (h0 : 0 < n) (h1 : n < W64) :
    maskLambda n = ok (2 ^ Nat.log2 n) := by
  unfold maskLambda
  rw [if_neg (by omega)]
  have hl : Nat.log2 n < 64 := (Nat.log2_lt (by omega)).2 h1
  congr 1
  rw [Nat.shiftRight_eq_div_pow]
  apply Nat.div_eq_of_eq_mul_left (Nat.two_pow_pos _)
  rw [← Nat.pow_add]
  congr 1
  omega

/-! ## Which nodes cover an index -/

/-- Index `i` is summed in node `2^h * (2k+1)`: `2^h * 2k < i ≤ 2^h * (2k+1)`. -/
theorem cover_iff {h k i : Nat} (hi : 0 < i) :
    (2 ^ (h + 1) * k < i ∧ i ≤ 2 ^ h * (2 * k + 1)) ↔ (i - 1) / 2 ^ h = 2 * k := by
  have hp : 0 < 2 ^ h := Nat.two_pow_pos h
  rw [node_eq, Nat.pow_succ, Nat.div_eq_iff hp]
  have e : 2 ^ h * 2 * k = 2 * k * 2 ^ h := by rw [Nat.mul_assoc, Nat.mul_comm]
  rw [e]
  generalize 2 * k * 2 ^ h = z
  omega

theorem div_pred_mul {p q : Nat} (hp : 0 < p) : (p * (q + 1) - 1) / p = q := by
  rw [Nat.div_eq_iff hp, Nat.mul_add, Nat.mul_one, Nat.mul_comm q p]
  omega

/-- Between a node and the next one on the update path, no node covers it. -/
theorem cover_between {a b h k : Nat} (h1 : 2 ^ a * (2 * b + 1) < 2 ^ h * (2 * k + 1))
    (h2 : 2 ^ h * (2 * k + 1) < 2 ^ a * (2 * b + 1) + 2 ^ a) :
    (2 ^ a * (2 * b + 1) - 1) / 2 ^ h ≠ 2 * k := by
  intro hc
  by_cases ha : a ≤ h
  · obtain ⟨d, rfl⟩ := Nat.exists_eq_add_of_le ha
    rw [Nat.pow_add, Nat.mul_assoc] at h1 h2
    have h1' := Nat.lt_of_mul_lt_mul_left h1
    rw [← Nat.mul_add_one] at h2
    have h2' := Nat.lt_of_mul_lt_mul_left h2
    omega
  · obtain ⟨d, rfl⟩ := Nat.exists_eq_add_of_le (Nat.le_of_not_le ha)
    have hp : 0 < 2 ^ h := Nat.two_pow_pos h
    have hq : 0 < 2 ^ d * (2 * b + 1) := node_pos d b
    obtain ⟨q, hq'⟩ : ∃ q, 2 ^ d * (2 * b + 1) = q + 1 := ⟨_, (Nat.sub_add_cancel hq).symm⟩
    rw [Nat.pow_add, Nat.mul_assoc, hq', div_pred_mul hp] at hc
    rw [Nat.pow_add, Nat.mul_assoc, hq', hc] at h1
    omega

/-- A later node covers an index exactly when it covers the next index on the update path. -/
theorem cover_step {a b h k : Nat} (h1 : 2 ^ a * (2 * b + 1) + 2 ^ a ≤ 2 ^ h * (2 * k + 1)) :
    (2 ^ a * (2 * b + 1) - 1) / 2 ^ h = 2 * k ↔ (2 ^ a * (2 * b + 1) + 2 ^ a - 1) / 2 ^ h = 2 * k := by
  have hpa : 0 < 2 ^ a := Nat.two_pow_pos a
  by_cases ha : h ≤ a
  · obtain ⟨d, rfl⟩ := Nat.exists_eq_add_of_le ha
    have hp : 0 < 2 ^ h := Nat.two_pow_pos h
    have hpd : 0 < 2 ^ d := Nat.two_pow_pos d
    have hq : 0 < 2 ^ d * (2 * b + 1) := node_pos d b
    obtain ⟨q, hq'⟩ : ∃ q, 2 ^ d * (2 * b + 1) = q + 1 := ⟨_, (Nat.sub_add_cancel hq).symm⟩
    have e2 : 2 ^ (h + d) * (2 * b + 1) + 2 ^ (h + d) = 2 ^ h * ((2 ^ d * (2 * b + 1) + 2 ^ d - 1) + 1) := by
      rw [Nat.sub_add_cancel (by omega), Nat.pow_add, Nat.mul_assoc, ← Nat.mul_add]
    rw [e2] at h1 ⊢
    rw [div_pred_mul hp]
    have h1' := Nat.le_of_mul_le_mul_left h1 hp
    rw [Nat.pow_add, Nat.mul_assoc, hq', div_pred_mul hp]
    have ev : (2 ^ d * (2 * b + 1) + 2 ^ d) % 2 = 0 := by
      have : 2 ^ d * (2 * b + 1) + 2 ^ d = 2 * (2 ^ d * (b + 1)) := by
        rw [← Nat.mul_add_one, Nat.mul_left_comm]; congr 1
      omega
    omega
  · obtain ⟨d, rfl⟩ : ∃ d, h = a + 1 + d := ⟨h - a - 1, by omega⟩
    have e1 : (2 ^ a * (2 * b + 1) - 1) / 2 ^ (a + 1 + d) = b / 2 ^ d := by
      rw [Nat.pow_add 2 (a + 1), ← Nat.div_div_eq_div_mul]
      congr 1
      rw [Nat.div_eq_iff (Nat.two_pow_pos _), node_eq, Nat.mul_comm b]
      rw [Nat.pow_succ]
      omega
    have e2 : (2 ^ a * (2 * b + 1) + 2 ^ a - 1) / 2 ^ (a + 1 + d) = b / 2 ^ d := by
      rw [Nat.pow_add 2 (a + 1), ← Nat.div_div_eq_div_mul]
      congr 1
      rw [Nat.div_eq_iff (Nat.two_pow_pos _), node_eq, Nat.mul_comm b]
      rw [Nat.pow_succ]
      omega
    rw [e1, e2]

end MRS.Hft
