import Verif.Proofs.WordSum

/-! # Every variant of select in a word is exact -/

set_option autoImplicit false

namespace MRS
open Outcome Spec

/-! ## broadword_sdsl -/

/-- `b` in `broadword_sdsl` and `sse4_sdsl`: byte `j` is `P (j+1) + 127 - k`. -/
theorem overflow_toNat (x : Word) {k : Nat} (hk : k < 64) :
    ((0x0101010101010101#64 * sidewaysCounts x) +
      BitVec.ofNat 64 (0x0101010101010101 * (128 - (k + 1)))).toNat
      = pkf fun j => P x (j + 1) + (127 - k) := by
  have e : 0x0101010101010101 * (128 - (k + 1)) = pkf fun _ => 127 - k := by
    simp only [pkf, pk]; omega
  rw [BitVec.toNat_add, sums_toNat, BitVec.toNat_ofNat, e, Nat.add_mod_mod, pkf_add]
  apply Nat.mod_eq_of_lt
  apply pkf_lt
  intro j hj
  have := P_le x (j + 1)
  show P x (j + 1) + (127 - k) < 256
  omega

theorem testBit7 {v : Nat} (h : v < 256) : v.testBit 7 = decide (128 ≤ v) := by
  have : ∀ v : Fin 256, v.1.testBit 7 = decide (128 ≤ v.1) := by decide +kernel
  exact this ⟨v, h⟩

theorem msb_of_pkf {b : Word} {f : Nat → Nat} (hb : b.toNat = pkf f) (hf : ∀ j, j < 8 → f j < 256)
    {j : Nat} (hj : j < 8) : b.getLsbD (8 * j + 7) = decide (128 ≤ f j) := by
  rw [getLsbD_byte b j 7 (by omega), hb, by8_pkf hf hj, testBit7 (hf j hj)]

theorem and_twoPow_ne (b : Word) {m : Nat} (hm : m < 64) :
    (b &&& BitVec.twoPow 64 m ≠ 0#64) ↔ b.getLsbD m = true := by
  rw [BitVec.and_twoPow]
  cases h : b.getLsbD m
  · simp
  · simp only [if_true, iff_true]
    intro h0
    have := congrArg (fun w => w.getLsbD m) h0
    simp [BitVec.getLsbD_twoPow, hm] at this

theorem and_msb_ne {b : Word} {f : Nat → Nat} (hb : b.toNat = pkf f) (hf : ∀ j, j < 8 → f j < 256)
    {j : Nat} (hj : j < 8) {c : Word} (hc : c = BitVec.twoPow 64 (8 * j + 7)) :
    (b &&& c ≠ 0#64) ↔ 128 ≤ f j := by
  rw [hc, and_twoPow_ne b (by omega), msb_of_pkf hb hf hj, decide_eq_true_eq]

theorem by8_sums (x : Word) {j : Nat} (hj : j < 8) :
    by8 (0x0101010101010101#64 * sidewaysCounts x).toNat j = P x (j + 1) := by
  rw [sums_toNat]
  exact by8_pkf (fun j _ => Nat.lt_of_le_of_lt (P_le x _) (by omega)) hj

/-- The arithmetic of a branch of `broadword_sdsl`. -/
theorem sdsl_index {A I S : Word} {a k p : Nat} (hA : A.toNat = a) (hI : I.toNat = 256 * k)
    (hS : S.toNat = 256 * p) (ha : a < 256) (hp : p ≤ k) (hk : k < 64) (hq : k - p < 8) :
    ((A + I - S) &&& 0x7FF#64).toNat = (k - p) * 256 + a := by
  rw [BitVec.toNat_and, BitVec.toNat_sub, BitVec.toNat_add, hA, hI, hS]
  show _ &&& (2 ^ 11 - 1) = _
  rw [Nat.and_two_pow_sub_one_eq_mod]
  omega

theorem plusLtSel_ok {x : Word} {k r base i : Nat} (hr : r < 8) (h1 : P x r ≤ k)
    (h2 : k < P x (r + 1)) (hb : base = 8 * r) (hi : i = (k - P x r) * 256 + by8 x.toNat r) :
    ∃ p, plusLtSel base i = ok p ∧ WSel x k p := by
  rw [P_succ] at h2
  obtain ⟨t, e, ht, hbit, hc⟩ := ltSel_ok (by8_lt x.toNat r) (show k - P x r < _ by omega)
  refine ⟨8 * r + t, ?_, WSel.of_byte hr ht h1 hbit hc⟩
  unfold plusLtSel
  rw [hi, e, hb]
  rfl

theorem byte_rank_lt {x : Word} {k r : Nat} (h1 : P x r ≤ k) (h2 : k < P x (r + 1)) :
    k - P x r < 8 := by
  rw [P_succ] at h2
  have := bo_le (by8 x.toNat r)
  omega

theorem sdsl_branch {x A I S : Word} {k r base : Nat} (hr : r < 8) (h1 : P x r ≤ k)
    (h2 : k < P x (r + 1)) (hb : base = 8 * r) (hA : A.toNat = by8 x.toNat r)
    (hI : I.toNat = 256 * k) (hS : S.toNat = 256 * P x r) (hk : k < 64) :
    ∃ p, plusLtSel base ((A + I - S) &&& 0x7FF#64).toNat = ok p ∧ WSel x k p :=
  plusLtSel_ok hr h1 h2 hb
    (sdsl_index hA hI hS (by8_lt _ _) h1 hk (byte_rank_lt h1 h2))

theorem sdsl_i {k : Nat} (hk : k < 64) :
    (BitVec.ofNat 64 k + 1#64).toNat = k + 1 ∧
      ((BitVec.ofNat 64 k + 1#64 - 1#64) <<< 8).toNat = 256 * k := by
  have h1 : (BitVec.ofNat 64 k).toNat = k := by rw [BitVec.toNat_ofNat]; omega
  constructor
  · rw [BitVec.toNat_add, h1]; show (k + 1) % 2 ^ 64 = _; omega
  · rw [BitVec.add_sub_cancel, BitVec.toNat_shiftLeft, h1, Nat.shiftLeft_eq]; omega

theorem psOverflow_ok {i : Nat} (h : i < 65) :
    psOverflowAt i = ok (0x0101010101010101 * (128 - i)) := psOverflow_table ⟨i, h⟩

/-- A byte of `x`, as the code extracts it. -/
theorem byte_ext' (x : Word) (r c : Nat) (h : c = 8 * r) :
    ((x >>> c) &&& 0xFF#64).toNat = by8 x.toNat r := by rw [h]; exact byte_ext x r

theorem byte_ext_hi' (x : Word) (r c : Nat) (h : c = 8 * r) (hr : r + 1 < 8) :
    (((0x0101010101010101#64 * sidewaysCounts x) >>> c) &&& 0xFF00#64).toNat = 256 * P x (r + 2) := by
  rw [h, byte_ext_hi, by8_sums x hr]

theorem selectBroadwordSdsl_ok {x : Word} {k : Nat} (h : k < wcnt x 64) :
    ∃ p, selectBroadwordSdsl x k = ok p ∧ WSel x k p := by
  obtain ⟨r, hr, h1, h2⟩ := byte_exists h
  have hk : k < 64 := Nat.lt_of_lt_of_le h (ncnt_le _ _)
  obtain ⟨hi, hI⟩ := sdsl_i hk
  have hov := overflow_toNat x hk
  have hf : ∀ j, j < 8 → P x (j + 1) + (127 - k) < 256 := by
    intro j hj
    have := P_le x (j + 1)
    omega
  have key : ∀ j (c : Word), j < 8 → c = BitVec.twoPow 64 (8 * j + 7) →
      (((0x0101010101010101#64 * sidewaysCounts x) +
        BitVec.ofNat 64 (0x0101010101010101 * (128 - (k + 1)))) &&& c ≠ 0#64 ↔ k < P x (j + 1)) := by
    intro j c hj hc
    rw [and_msb_ne hov hf hj hc]
    constructor <;> intro <;> omega
  have le : ∀ {a b : Nat}, a ≤ b → P x a ≤ P x b := fun h => P_mono x h
  unfold selectBroadwordSdsl
  simp only [hi, psOverflow_ok (show k + 1 < 65 by omega), ok_bind]
  have hS0 : (((0x0101010101010101#64 * sidewaysCounts x) &&& 0xFF#64) <<< 8).toNat = 256 * P x 1 := by
    have := byte_ext (0x0101010101010101#64 * sidewaysCounts x) 0
    rw [Nat.mul_zero, BitVec.ushiftRight_zero, by8_sums x (by omega)] at this
    have hp := P_le x 1
    rw [BitVec.toNat_shiftLeft, this, Nat.shiftLeft_eq]
    show P x 1 * 2 ^ 8 % 2 ^ 64 = _
    omega
  have hS1 : ((0x0101010101010101#64 * sidewaysCounts x) &&& 0xFF00#64).toNat = 256 * P x 2 := by
    have := byte_ext_hi (0x0101010101010101#64 * sidewaysCounts x) 0
    rwa [Nat.mul_zero, BitVec.ushiftRight_zero, by8_sums x (by omega)] at this
  have d : r ≤ 3 ∧ k < P x 4 ∨ 4 ≤ r ∧ ¬ k < P x 4 := by
    rcases Nat.lt_or_ge 3 r with hh | hh
    · have := le (show 4 ≤ r by omega); right; omega
    · have := le (show r + 1 ≤ 4 by omega); left; omega
  have c3 := key 3 0x0000000080000000#64 (by omega) (by decide)
  have c1 := key 1 0x0000000000008000#64 (by omega) (by decide)
  have c0 := key 0 0x0000000000000080#64 (by omega) (by decide)
  have c2 := key 2 0x0000000000800000#64 (by omega) (by decide)
  have c5 := key 5 0x0000800000000000#64 (by omega) (by decide)
  have c4 := key 4 0x0000008000000000#64 (by omega) (by decide)
  have c6 := key 6 0x0080000000000000#64 (by omega) (by decide)
  simp only [Nat.reduceAdd] at c0 c1 c2 c3 c4 c5 c6
  have hcase : r = 0 ∨ r = 1 ∨ r = 2 ∨ r = 3 ∨ r = 4 ∨ r = 5 ∨ r = 6 ∨ r = 7 := by omega
  rcases hcase with rfl | rfl | rfl | rfl | rfl | rfl | rfl | rfl <;> simp only [Nat.reduceAdd] at h2
  · have l1 := le (show 1 ≤ 4 by omega)
    have l2 := le (show 1 ≤ 2 by omega)
    rw [if_pos (c3.2 (by omega)), if_pos (c1.2 (by omega)), if_pos (c0.2 (by omega))]
    refine plusLtSel_ok (r := 0) hr h1 h2 rfl ?_
    have := byte_ext x 0
    rw [Nat.mul_zero, BitVec.ushiftRight_zero] at this
    have hlt := by8_lt x.toNat 0
    rw [BitVec.toNat_add, this, hI]
    have : P x 0 = 0 := rfl
    omega
  · have l1 := le (show 2 ≤ 4 by omega)
    rw [if_pos (c3.2 (by omega)), if_pos (c1.2 (by omega)), if_neg (mt c0.1 (by omega))]
    exact sdsl_branch hr h1 h2 rfl (byte_ext' x 1 8 rfl) hI hS0 hk
  · have l1 := le (show 3 ≤ 4 by omega)
    rw [if_pos (c3.2 (by omega)), if_neg (mt c1.1 (by omega)), if_pos (c2.2 (by omega))]
    exact sdsl_branch hr h1 h2 rfl (byte_ext' x 2 16 rfl) hI hS1 hk
  · have l1 := le (show 2 ≤ 3 by omega)
    rw [if_pos (c3.2 (by omega)), if_neg (mt c1.1 (by omega)), if_neg (mt c2.1 (by omega))]
    exact sdsl_branch hr h1 h2 rfl (byte_ext' x 3 24 rfl) hI (byte_ext_hi' x 1 8 rfl (by omega)) hk
  · have l1 := le (show 5 ≤ 6 by omega)
    rw [if_neg (mt c3.1 (by omega)), if_pos (c5.2 (by omega)), if_pos (c4.2 (by omega))]
    exact sdsl_branch hr h1 h2 rfl (byte_ext' x 4 32 rfl) hI (byte_ext_hi' x 2 16 rfl (by omega)) hk
  · have l1 := le (show 4 ≤ 5 by omega)
    rw [if_neg (mt c3.1 (by omega)), if_pos (c5.2 (by omega)), if_neg (mt c4.1 (by omega))]
    exact sdsl_branch hr h1 h2 rfl (byte_ext' x 5 40 rfl) hI (byte_ext_hi' x 3 24 rfl (by omega)) hk
  · have l1 := le (show 4 ≤ 6 by omega)
    rw [if_neg (mt c3.1 (by omega)), if_neg (mt c5.1 (by omega)), if_pos (c6.2 (by omega))]
    exact sdsl_branch hr h1 h2 rfl (byte_ext' x 6 48 rfl) hI (byte_ext_hi' x 4 32 rfl (by omega)) hk
  · have l1 := le (show 4 ≤ 7 by omega)
    have l2 := le (show 6 ≤ 7 by omega)
    rw [if_neg (mt c3.1 (by omega)), if_neg (mt c5.1 (by omega)), if_neg (mt c6.1 (by omega))]
    exact sdsl_branch hr h1 h2 rfl (byte_ext' x 7 56 rfl) hI (byte_ext_hi' x 5 40 rfl (by omega)) hk

end MRS
