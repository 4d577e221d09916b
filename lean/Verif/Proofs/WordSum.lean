import Verif.Proofs.WordBasic

/-! # Byte prefix sums, popcount, and byte extraction -/

set_option autoImplicit false

namespace MRS
open Outcome Spec

theorem by8_step_zero {a y : Nat} (ha : a < 256) : by8 (a + 256 * y) 0 = a := by
  unfold by8; rw [Nat.pow_zero, Nat.div_one]; omega

theorem by8_step_succ {a y : Nat} (ha : a < 256) (j : Nat) :
    by8 (a + 256 * y) (j + 1) = by8 y j := by
  unfold by8
  rw [Nat.pow_succ, Nat.mul_comm (256 ^ j) 256, ← Nat.div_div_eq_div_mul]
  rw [show (a + 256 * y) / 256 = y by omega]

/-- A word given by its bytes `f 0 .. f 7`. -/
def pkf (f : Nat → Nat) : Nat := pk (f 0) (f 1) (f 2) (f 3) (f 4) (f 5) (f 6) (f 7)

theorem by8_pkf {f : Nat → Nat} (h : ∀ j, j < 8 → f j < 256) {j : Nat} (hj : j < 8) :
    by8 (pkf f) j = f j := by
  have b0 := h 0 (by omega)
  have b1 := h 1 (by omega)
  have b2 := h 2 (by omega)
  have b3 := h 3 (by omega)
  have b4 := h 4 (by omega)
  have b5 := h 5 (by omega)
  have b6 := h 6 (by omega)
  have b7 := h 7 (by omega)
  unfold pkf pk
  have : j = 0 ∨ j = 1 ∨ j = 2 ∨ j = 3 ∨ j = 4 ∨ j = 5 ∨ j = 6 ∨ j = 7 := by omega
  rcases this with rfl | rfl | rfl | rfl | rfl | rfl | rfl | rfl
  · rw [by8_step_zero b0]
  · rw [by8_step_succ b0, by8_step_zero b1]
  · rw [by8_step_succ b0, by8_step_succ b1, by8_step_zero b2]
  · rw [by8_step_succ b0, by8_step_succ b1, by8_step_succ b2, by8_step_zero b3]
  · rw [by8_step_succ b0, by8_step_succ b1, by8_step_succ b2, by8_step_succ b3, by8_step_zero b4]
  · rw [by8_step_succ b0, by8_step_succ b1, by8_step_succ b2, by8_step_succ b3, by8_step_succ b4,
      by8_step_zero b5]
  · rw [by8_step_succ b0, by8_step_succ b1, by8_step_succ b2, by8_step_succ b3, by8_step_succ b4,
      by8_step_succ b5, by8_step_zero b6]
  · rw [by8_step_succ b0, by8_step_succ b1, by8_step_succ b2, by8_step_succ b3, by8_step_succ b4,
      by8_step_succ b5, by8_step_succ b6]
    unfold by8
    rw [Nat.pow_zero, Nat.div_one]; omega

theorem pkf_lt {f : Nat → Nat} (h : ∀ j, j < 8 → f j < 256) : pkf f < 2 ^ 64 :=
  pk_lt (h 0 (by omega)) (h 1 (by omega)) (h 2 (by omega)) (h 3 (by omega)) (h 4 (by omega))
    (h 5 (by omega)) (h 6 (by omega)) (h 7 (by omega))

theorem pkf_add (f g : Nat → Nat) : pkf f + pkf g = pkf fun j => f j + g j :=
  pk_add _ _ _ _ _ _ _ _ _ _ _ _ _ _ _ _

theorem pkf_congr {f g : Nat → Nat} (h : ∀ j, j < 8 → f j = g j) : pkf f = pkf g := by
  unfold pkf
  rw [h 0 (by omega), h 1 (by omega), h 2 (by omega), h 3 (by omega), h 4 (by omega),
    h 5 (by omega), h 6 (by omega), h 7 (by omega)]

theorem pkf_by8 {x : Nat} (h : x < 2 ^ 64) : x = pkf (by8 x) := pk_by8 x h

theorem pkf_and {f g : Nat → Nat} (hf : ∀ j, j < 8 → f j < 256) (hg : ∀ j, j < 8 → g j < 256) :
    pkf f &&& pkf g = pkf fun j => f j &&& g j :=
  and_pk (hf 0 (by omega)) (hf 1 (by omega)) (hf 2 (by omega)) (hf 3 (by omega)) (hf 4 (by omega))
    (hf 5 (by omega)) (hf 6 (by omega)) (hg 0 (by omega)) (hg 1 (by omega)) (hg 2 (by omega))
    (hg 3 (by omega)) (hg 4 (by omega)) (hg 5 (by omega)) (hg 6 (by omega))

theorem or_step {a c : Nat} (ha : a < 256) (hc : c < 256) (y z : Nat) :
    (a + 256 * y) ||| (c + 256 * z) = (a ||| c) + 256 * (y ||| z) := by
  have h1 : ((a + 256 * y) ||| (c + 256 * z)) % 2 ^ 8 = a ||| c := by
    rw [Nat.or_mod_two_pow]
    rw [show (a + 256 * y) % 2 ^ 8 = a by omega, show (c + 256 * z) % 2 ^ 8 = c by omega]
  have h2 : ((a + 256 * y) ||| (c + 256 * z)) / 2 ^ 8 = y ||| z := by
    rw [Nat.or_div_two_pow]
    rw [show (a + 256 * y) / 2 ^ 8 = y by omega, show (c + 256 * z) / 2 ^ 8 = z by omega]
  omega

theorem pkf_or {f g : Nat → Nat} (hf : ∀ j, j < 8 → f j < 256) (hg : ∀ j, j < 8 → g j < 256) :
    pkf f ||| pkf g = pkf fun j => f j ||| g j := by
  unfold pkf pk
  rw [or_step (hf 0 (by omega)) (hg 0 (by omega)), or_step (hf 1 (by omega)) (hg 1 (by omega)),
    or_step (hf 2 (by omega)) (hg 2 (by omega)), or_step (hf 3 (by omega)) (hg 3 (by omega)),
    or_step (hf 4 (by omega)) (hg 4 (by omega)), or_step (hf 5 (by omega)) (hg 5 (by omega)),
    or_step (hf 6 (by omega)) (hg 6 (by omega))]

/-- Multiplication by `0x0101010101010101` makes prefix sums of the bytes. -/
theorem mul_ones {f : Nat → Nat} (h : psum f 8 < 256) :
    0x0101010101010101 * pkf f % 2 ^ 64 = pkf fun j => psum f (j + 1) := by
  have hb : ∀ j, j < 8 → psum f (j + 1) < 256 :=
    fun j hj => Nat.lt_of_le_of_lt (psum_mono f (by omega)) h
  have hlt := pkf_lt hb
  have e : 0x0101010101010101 * pkf f = (pkf fun j => psum f (j + 1)) + 2 ^ 64 *
      pk (f 1 + f 2 + f 3 + f 4 + f 5 + f 6 + f 7) (f 2 + f 3 + f 4 + f 5 + f 6 + f 7)
        (f 3 + f 4 + f 5 + f 6 + f 7) (f 4 + f 5 + f 6 + f 7) (f 5 + f 6 + f 7) (f 6 + f 7) (f 7) 0 := by
    simp only [pkf, pk, psum]
    omega
  rw [e, Nat.add_mul_mod_self_left, Nat.mod_eq_of_lt hlt]

/-- Prefix counts at byte boundaries. -/
def P (x : Word) (r : Nat) : Nat := wcnt x (8 * r)

theorem P_zero (x : Word) : P x 0 = 0 := rfl
theorem P_succ (x : Word) (r : Nat) : P x (r + 1) = P x r + bo (by8 x.toNat r) := by
  unfold P wcnt; rw [ncnt_bytes, ncnt_bytes]; rfl
theorem P_mono (x : Word) {a b : Nat} (h : a ≤ b) : P x a ≤ P x b := by
  unfold P wcnt ncnt; exact psum_mono _ (by omega)
theorem P_le (x : Word) (r : Nat) : P x r ≤ 8 * r := ncnt_le _ _
theorem P_eight (x : Word) : P x 8 = wcnt x 64 := rfl

theorem sums_toNat (x : Word) :
    (0x0101010101010101#64 * sidewaysCounts x).toNat = pkf fun j => P x (j + 1) := by
  rw [BitVec.toNat_mul, sideways_toNat]
  have h := mul_ones (f := fun j => bo (by8 x.toNat j)) (by
    rw [← ncnt_bytes]
    exact Nat.lt_of_le_of_lt (ncnt_le _ _) (by decide))
  show 0x0101010101010101 * (pkf fun j => bo (by8 x.toNat j)) % 2 ^ 64 = _
  rw [h]
  apply pkf_congr
  intro j _
  rw [← ncnt_bytes]
  rfl

/-- `popcount_u64<broadword>` counts the ones. -/
theorem popcountBroadword_eq (x : Word) : popcountBroadword x = wcnt x 64 := by
  unfold popcountBroadword
  rw [BitVec.toNat_ushiftRight, sums_toNat, Nat.shiftRight_eq_div_pow]
  have h : by8 (pkf fun j => P x (j + 1)) 7 = P x 8 :=
    by8_pkf (fun j _ => Nat.lt_of_le_of_lt (P_le x _) (by omega)) (by omega)
  have hlt := pkf_lt (f := fun j => P x (j + 1)) (fun j _ => Nat.lt_of_le_of_lt (P_le x _) (by omega))
  rw [P_eight] at h
  rw [← h]
  unfold by8
  rw [show (256 : Nat) ^ 7 = 2 ^ 56 by decide]
  have : (pkf fun j => P x (j + 1)) / 2 ^ 56 < 256 := by
    rw [Nat.div_lt_iff_lt_mul (by decide)]
    calc _ < 2 ^ 64 := hlt
      _ = _ := by decide
  rw [Nat.mod_eq_of_lt this]

/-! ## Extracting bytes -/

theorem byte_ext (x : Word) (r : Nat) : ((x >>> (8 * r)) &&& 0xFF#64).toNat = by8 x.toNat r := by
  rw [BitVec.toNat_and, BitVec.toNat_ushiftRight, Nat.shiftRight_eq_div_pow]
  show _ &&& (2 ^ 8 - 1) = _
  rw [Nat.and_two_pow_sub_one_eq_mod, Nat.pow_mul]
  rfl

theorem byte_ext_hi (x : Word) (r : Nat) :
    ((x >>> (8 * r)) &&& 0xFF00#64).toNat = 256 * by8 x.toNat (r + 1) := by
  rw [BitVec.toNat_and, BitVec.toNat_ushiftRight, Nat.shiftRight_eq_div_pow]
  show _ &&& 0xFF00 = _
  generalize hy : x.toNat / 2 ^ (8 * r) = y
  have e : y &&& 0xFF00 = (y % 256 + 256 * (y / 256)) &&& (0 + 256 * 255) := by
    rw [show y % 256 + 256 * (y / 256) = y by omega]
  rw [e, and_step (by omega) (by omega), Nat.and_zero, Nat.zero_add]
  have : y / 256 &&& 255 = y / 256 % 256 := Nat.and_two_pow_sub_one_eq_mod _ 8
  rw [this, ← hy]
  unfold by8
  rw [Nat.div_div_eq_div_mul, Nat.pow_mul, Nat.pow_succ 256 r]

theorem shl8_toNat {s : Word} {f : Nat → Nat} (hs : s.toNat = pkf f) (hf : ∀ j, j < 8 → f j < 256) :
    (s <<< 8).toNat = pkf fun j => if j = 0 then 0 else f (j - 1) := by
  rw [BitVec.toNat_shiftLeft, hs, Nat.shiftLeft_eq]
  have e : pkf f * 2 ^ 8 = (pkf fun j => if j = 0 then 0 else f (j - 1)) + 2 ^ 64 * f 7 := by
    simp only [pkf, pk]
    show _ = 0 + 256 * (f 0 + 256 * (f 1 + 256 * (f 2 + 256 * (f 3 + 256 * (f 4 + 256 * (f 5 + 256 *
      f 6)))))) + 2 ^ 64 * f 7
    omega
  rw [e, Nat.add_mul_mod_self_left]
  apply Nat.mod_eq_of_lt
  apply pkf_lt
  intro j hj
  show (if j = 0 then 0 else f (j - 1)) < 256
  by_cases h : j = 0
  · rw [if_pos h]; omega
  · rw [if_neg h]; exact hf _ (by omega)

theorem getLsbD_byte (x : Word) (r t : Nat) (ht : t < 8) :
    x.getLsbD (8 * r + t) = (by8 x.toNat r).testBit t := by
  have h := nbit_by8 x.toNat r t ht
  unfold nbit at h
  rw [BitVec.testBit_toNat] at h
  revert h
  cases (by8 x.toNat r).testBit t <;> cases x.getLsbD (8 * r + t) <;> simp

/-! ## What select in a word must return -/

/-- `p` is the position of the `k`-th one of `w`. -/
structure WSel (w : Word) (k p : Nat) : Prop where
  lt : p < 64
  bit : w.getLsbD p = true
  cnt : wcnt w p = k

/-- The byte that holds the `k`-th one. -/
theorem byte_exists {x : Word} {k : Nat} (h : k < wcnt x 64) :
    ∃ r, r < 8 ∧ P x r ≤ k ∧ k < P x (r + 1) := by
  have : ∀ n, k < P x n → ∃ r, r < n ∧ P x r ≤ k ∧ k < P x (r + 1) := by
    intro n
    induction n with
    | zero => intro h; rw [P_zero] at h; omega
    | succ n ih =>
      intro h
      rcases Nat.lt_or_ge k (P x n) with h1 | h1
      · obtain ⟨r, a, b, c⟩ := ih h1
        exact ⟨r, by omega, b, c⟩
      · exact ⟨n, by omega, h1, h⟩
  exact this 8 h

/-- Reassembling the answer from the byte index and the position in the byte. -/
theorem WSel.of_byte {x : Word} {k r t : Nat} (hr : r < 8) (ht : t < 8) (hP : P x r ≤ k)
    (hb : (by8 x.toNat r).testBit t = true) (hc : ncnt (by8 x.toNat r) t = k - P x r) :
    WSel x k (8 * r + t) := by
  refine ⟨by omega, ?_, ?_⟩
  · rw [getLsbD_byte x r t ht]; exact hb
  · unfold wcnt
    rw [ncnt_byte x.toNat r t (by omega), hc]
    show P x r + _ = k
    omega

/-- Entry `q * 256 + a` of a byte-select table is the position of the `q`-th one of `a`. -/
def SelEntry (o : Outcome Nat) (q a : Nat) : Bool :=
  match o with
  | ok t => decide (t < 8) && a.testBit t && decide (ncnt a t = q)
  | _ => false

theorem ltSel_table : ∀ q : Fin 8, ∀ a : Fin 256, q.1 < bo a.1 →
    SelEntry (ltSelAt (q.1 * 256 + a.1)) q.1 a.1 = true := by
  decide +kernel

theorem selectInByte_table : ∀ q : Fin 8, ∀ a : Fin 256, q.1 < bo a.1 →
    SelEntry (selectInByteAt (q.1 * 256 + a.1)) q.1 a.1 = true := by
  decide +kernel

theorem SelEntry.elim {o : Outcome Nat} {q a : Nat} (h : SelEntry o q a = true) :
    ∃ t, o = ok t ∧ t < 8 ∧ a.testBit t = true ∧ ncnt a t = q := by
  cases o with
  | ok t =>
    simp only [SelEntry, Bool.and_eq_true, decide_eq_true_eq] at h
    exact ⟨t, rfl, h.1.1, h.1.2, h.2⟩
  | ub f => simp [SelEntry] at h
  | abort => simp [SelEntry] at h

theorem ltSel_ok {q a : Nat} (ha : a < 256) (hq : q < bo a) :
    ∃ t, ltSelAt (q * 256 + a) = ok t ∧ t < 8 ∧ a.testBit t = true ∧ ncnt a t = q :=
  SelEntry.elim (ltSel_table ⟨q, Nat.lt_of_lt_of_le hq (bo_le a)⟩ ⟨a, ha⟩ hq)

theorem selectInByte_ok {q a : Nat} (ha : a < 256) (hq : q < bo a) :
    ∃ t, selectInByteAt (q * 256 + a) = ok t ∧ t < 8 ∧ a.testBit t = true ∧ ncnt a t = q :=
  SelEntry.elim (selectInByte_table ⟨q, Nat.lt_of_lt_of_le hq (bo_le a)⟩ ⟨a, ha⟩ hq)

/-- `ps_overflow[i]` has `128 - i` in every byte. -/
theorem psOverflow_table : ∀ i : Fin 65,
    psOverflowAt i.1 = ok (0x0101010101010101 * (128 - i.1)) := by
  decide +kernel

theorem ltCnt_table : ∀ i : Fin 256, ltCntAt i.1 = ok (bo i.1) := by
  decide +kernel

end MRS
