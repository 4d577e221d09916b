import Verif.Model.Poppy
import Verif.Proofs.WordSelect2

/-! # Poppy: counting and selecting inside a word -/

set_option autoImplicit false

namespace MRS.Poppy
open Outcome Spec

theorem suxpopcount_eq (x : Word) : suxpopcount x = wcnt x 64 := by
  rw [← popcountBroadword_eq]
  unfold suxpopcount popcountBroadword sidewaysCounts
  simp only []
  have e : (x &&& G2) >>> 1 = (x >>> 1) &&& 0x5555555555555555#64 := by
    rw [BitVec.ushiftRight_and_distrib]
    rw [show G2 >>> 1 = 0x5555555555555555#64 by decide]
  rw [e, BitVec.mul_comm]
  rfl

/-! ## Counting from the most significant bit -/

/-- Number of ones among the `j` most significant bits. -/
def mcnt (w : Word) (j : Nat) : Nat := psum (fun t => (w.getLsbD (63 - t)).toNat) j

theorem mcnt_succ (w : Word) (j : Nat) :
    mcnt w (j + 1) = mcnt w j + (w.getLsbD (63 - j)).toNat := rfl

theorem mcnt_mono (w : Word) {a b : Nat} (h : a ≤ b) : mcnt w a ≤ mcnt w b := psum_mono _ h

theorem wcnt_succ' (x : Word) (m : Nat) : wcnt x (m + 1) = wcnt x m + (x.getLsbD m).toNat := by
  rw [wcnt_succ]; cases x.getLsbD m <;> rfl

theorem mcnt_eq (w : Word) {j : Nat} (hj : j ≤ 64) : mcnt w j + wcnt w (64 - j) = wcnt w 64 := by
  induction j with
  | zero => show 0 + _ = _; rw [Nat.zero_add]
  | succ j ih =>
    have h1 := ih (by omega)
    rw [mcnt_succ]
    have h2 := wcnt_succ' w (63 - j)
    rw [show 63 - j + 1 = 64 - j by omega] at h2
    rw [show 64 - (j + 1) = 63 - j by omega]
    omega

theorem mcnt_all (w : Word) : mcnt w 64 = wcnt w 64 := by
  have := mcnt_eq w (Nat.le_refl 64)
  have h0 : wcnt w 0 = 0 := rfl
  rw [Nat.sub_self, h0] at this
  omega

theorem mcnt_le (w : Word) {j : Nat} (hj : j ≤ 64) : mcnt w j ≤ 64 := by
  have := mcnt_eq w hj
  have := ncnt_le w.toNat 64
  have : wcnt w 64 ≤ 64 := this
  omega

/-- Ones of a window of a word. -/
theorem window_cnt {x y : Word} {a t : Nat} (ht : t ≤ 64)
    (h : ∀ j, j < 64 → y.getLsbD j = (decide (j < t) && x.getLsbD (a + j))) :
    popcnt y + wcnt x a = wcnt x (a + t) := by
  rw [popcnt_eq]
  have e : ∀ n, n ≤ 64 → wcnt y n + wcnt x a = wcnt x (a + min n t) := by
    intro n
    induction n with
    | zero => intro _; rw [Nat.zero_min]; show 0 + _ = _; rw [Nat.zero_add, Nat.add_zero]
    | succ n ih =>
      intro hn
      have h1 := ih (by omega)
      rw [wcnt_succ', h n (by omega)]
      by_cases hc : n < t
      · rw [show min (n + 1) t = n + 1 by omega, show a + (n + 1) = a + n + 1 by omega, wcnt_succ']
        rw [show min n t = n by omega] at h1
        rw [decide_eq_true hc, Bool.true_and]
        omega
      · rw [show min (n + 1) t = t by omega]
        rw [show min n t = t by omega] at h1
        rw [decide_eq_false hc, Bool.false_and]
        show wcnt y n + 0 + _ = _
        omega
  have := e 64 (Nat.le_refl _)
  rw [show min 64 t = t by omega] at this
  exact this

theorem wcnt_beyond (x : Word) {n : Nat} (h : 64 ≤ n) : wcnt x n = wcnt x 64 := by
  induction n with
  | zero => omega
  | succ n ih =>
    by_cases hn : n + 1 = 64
    · rw [hn]
    · rw [wcnt_succ', ih (by omega), BitVec.getLsbD_of_ge _ _ (by omega)]; rfl

theorem popcnt_shr (w : Word) {s : Nat} (hs : s ≤ 64) : popcnt (w >>> s) = mcnt w (64 - s) := by
  have h := window_cnt (x := w) (y := w >>> s) (a := s) (t := 64) (Nat.le_refl _) (by
    intro j hj
    rw [BitVec.getLsbD_ushiftRight, decide_eq_true hj, Bool.true_and])
  rw [wcnt_beyond w (show 64 ≤ s + 64 by omega)] at h
  have h2 := mcnt_eq w (show 64 - s ≤ 64 by omega)
  rw [show 64 - (64 - s) = s by omega] at h2
  omega

/-- `q` is the position, counted from the most significant bit, of the `k`-th one. -/
structure MSel (w : Word) (k q : Nat) : Prop where
  lt : q < 64
  bit : w.getLsbD (63 - q) = true
  cnt : mcnt w q = k

theorem naiveLoop_ok (x : Word) : ∀ i k : Nat, i ≤ 64 → 1 ≤ k →
    mcnt x (64 - i) + k ≤ wcnt x 64 →
    ∃ q : Nat, naiveLoop x i (63 - (i : Int)) k = (q : Int) ∧ MSel x (mcnt x (64 - i) + k - 1) q
  | 0, k, _, hk, h => by
    rw [Nat.sub_zero, mcnt_all] at h; omega
  | i + 1, k, hi, hk, h => by
    have hs := mcnt_succ x (64 - (i + 1))
    rw [show 64 - (i + 1) + 1 = 64 - i by omega, show 63 - (64 - (i + 1)) = i by omega] at hs
    rw [naiveLoop]
    simp only []
    rw [show (63 - ((i + 1 : Nat) : Int) + 1) = 63 - (i : Int) by omega]
    by_cases hb : x.getLsbD i = true
    · rw [if_pos hb]
      rw [hb] at hs
      have hs : mcnt x (64 - i) = mcnt x (64 - (i + 1)) + 1 := hs
      by_cases h1 : k = 1
      · subst h1
        refine ⟨63 - i, ?_, by omega, ?_, ?_⟩
        · rw [if_pos (by omega)]; omega
        · rw [show 63 - (63 - i) = i by omega]; exact hb
        · rw [show 63 - i = 64 - (i + 1) by omega]; omega
      · rw [if_neg (by omega), show ((k : Int) - 1) = ((k - 1 : Nat) : Int) by omega]
        obtain ⟨q, e, hq⟩ := naiveLoop_ok x i (k - 1) (by omega) (by omega) (by omega)
        refine ⟨q, e, ?_⟩
        rw [show mcnt x (64 - (i + 1)) + k - 1 = mcnt x (64 - i) + (k - 1) - 1 by omega]
        exact hq
    · rw [if_neg hb]
      have hf : x.getLsbD i = false := by simpa using hb
      rw [hf] at hs
      have hs : mcnt x (64 - i) = mcnt x (64 - (i + 1)) := hs
      obtain ⟨q, e, hq⟩ := naiveLoop_ok x i k (by omega) hk (by omega)
      refine ⟨q, e, ?_⟩
      rw [← hs]; exact hq

theorem select64Naive_ok {x : Word} {k : Nat} (h1 : 1 ≤ k) (h2 : k ≤ wcnt x 64) :
    ∃ q : Nat, select64Naive x k = (q : Int) ∧ MSel x (k - 1) q := by
  have hz : mcnt x 0 = 0 := rfl
  obtain ⟨q, e, hq⟩ := naiveLoop_ok x 64 k (Nat.le_refl _) h1 (by rw [Nat.sub_self, hz]; omega)
  refine ⟨q, e, ?_⟩
  rw [Nat.sub_self, hz, Nat.zero_add] at hq
  exact hq

/-- After the rounds down to window size `T`: `x` is the window of `X` that starts at bit `s`. -/
structure SearchInv (X : Word) (K T : Nat) (st : Word × Int × Int) : Prop where
  ex : ∃ s k : Nat, s + T ≤ 64 ∧ 1 ≤ k ∧ st.2.1 = (k : Int) ∧
    st.2.2 + 1 = ((64 - s - T : Nat) : Int) ∧
    (∀ j, j < 64 → st.1.getLsbD j = (decide (j < T) && X.getLsbD (s + j))) ∧
    mcnt X (64 - s - T) + k = K ∧ K ≤ mcnt X (64 - s)

theorem low_mask (t : Nat) (ht : t ≤ 32) (j : Nat) (hj : j < 64) :
    ((1#64 <<< t) - 1#64).getLsbD j = decide (j < t) := by
  have : ∀ t : Fin 33, ∀ j : Fin 64, ((1#64 <<< t.1) - 1#64).getLsbD j.1 = decide (j.1 < t.1) := by
    decide +kernel
  exact this ⟨t, by omega⟩ ⟨j, hj⟩

theorem searchStep_inv {X : Word} {K t : Nat} {st : Word × Int × Int} (ht : t ≤ 32)
    (h : SearchInv X K (2 * t) st) : SearchInv X K t (searchStep st t) := by
  obtain ⟨s, k, hs, hk, e1, e2, hx, hc, hK⟩ := h.ex
  obtain ⟨x, k', loc⟩ := st
  simp only at e1 e2 hx
  subst e1
  unfold searchStep
  simp only []
  have hw := window_cnt (x := X) (y := x >>> t) (a := s + t) (t := t) (by omega) (by
    intro j hj
    rw [BitVec.getLsbD_ushiftRight]
    by_cases hjt : j < t
    · rw [hx (t + j) (by omega), decide_eq_true (show t + j < 2 * t by omega), decide_eq_true hjt,
        show s + (t + j) = s + t + j by omega]
    · rw [decide_eq_false hjt, Bool.false_and]
      by_cases h64 : t + j < 64
      · rw [hx (t + j) h64, decide_eq_false (show ¬ t + j < 2 * t by omega), Bool.false_and]
      · exact BitVec.getLsbD_of_ge _ _ (by omega))
  have m1 := mcnt_eq X (show 64 - s - 2 * t ≤ 64 by omega)
  have m2 := mcnt_eq X (show 64 - s - t ≤ 64 by omega)
  rw [show 64 - (64 - s - 2 * t) = s + t + t by omega] at m1
  rw [show 64 - (64 - s - t) = s + t by omega] at m2
  have hl : popcnt (x >>> t) + mcnt X (64 - s - 2 * t) = mcnt X (64 - s - t) := by omega
  by_cases hgt : (k : Int) > (popcnt (x >>> t) : Int)
  · rw [if_pos hgt]
    refine ⟨s, k - popcnt (x >>> t), by omega, by omega, ?_, ?_, ?_, by omega, hK⟩
    · show (k : Int) - _ = _; omega
    · show loc + t + 1 = _; omega
    · intro j hj
      show (x &&& _).getLsbD j = _
      rw [BitVec.getLsbD_and, low_mask t ht j hj, hx j hj]
      by_cases hjt : j < t
      · rw [decide_eq_true hjt, decide_eq_true (show j < 2 * t by omega), Bool.and_true]
      · rw [decide_eq_false hjt, Bool.and_false, Bool.false_and]
  · rw [if_neg hgt]
    refine ⟨s + t, k, by omega, hk, rfl, ?_, ?_, ?_, ?_⟩
    · show loc + 1 = _; omega
    · intro j hj
      show (x >>> t).getLsbD j = _
      rw [BitVec.getLsbD_ushiftRight]
      by_cases hjt : j < t
      · rw [hx (t + j) (by omega), decide_eq_true (show t + j < 2 * t by omega), decide_eq_true hjt,
          show s + (t + j) = s + t + j by omega]
      · rw [decide_eq_false hjt, Bool.false_and]
        by_cases h64 : t + j < 64
        · rw [hx (t + j) h64, decide_eq_false (show ¬ t + j < 2 * t by omega), Bool.false_and]
        · exact BitVec.getLsbD_of_ge _ _ (by omega)
    · rw [show 64 - (s + t) - t = 64 - s - 2 * t by omega]; exact hc
    · rw [show 64 - (s + t) = 64 - s - t by omega]; omega

theorem select64PopcountSearch_ok {x : Word} {k : Nat} (h1 : 1 ≤ k) (h2 : k ≤ wcnt x 64) :
    ∃ q : Nat, select64PopcountSearch x k = (q : Int) ∧ MSel x (k - 1) q := by
  have h0 : SearchInv x k (2 * 32) (x, (k : Int), -1) := by
    refine ⟨0, k, by omega, h1, rfl, by simp, ?_, ?_, ?_⟩
    · intro j hj
      show x.getLsbD j = _
      rw [decide_eq_true (show j < 2 * 32 by omega), Bool.true_and, Nat.zero_add]
    · have : mcnt x 0 = 0 := rfl
      rw [show 64 - 0 - 2 * 32 = 0 by omega, this]; omega
    · rw [Nat.sub_zero, mcnt_all]; exact h2
  have a1 := searchStep_inv (by omega) h0
  have a2 := searchStep_inv (t := 16) (by omega) a1
  have a3 := searchStep_inv (t := 8) (by omega) a2
  have a4 := searchStep_inv (t := 4) (by omega) a3
  have a5 := searchStep_inv (t := 2) (by omega) a4
  have a6 := searchStep_inv (t := 1) (by omega) a5
  obtain ⟨s, k', hs, hk, e1, e2, -, hc, hK⟩ := a6.ex
  unfold select64PopcountSearch
  simp only [List.foldl]
  generalize searchStep _ 1 = st at e1 e2
  have hm := mcnt_succ x (64 - s - 1)
  rw [show 64 - s - 1 + 1 = 64 - s by omega] at hm
  have hb : x.getLsbD (63 - (64 - s - 1)) = true := by
    cases hb : x.getLsbD (63 - (64 - s - 1))
    · rw [hb] at hm
      have hm : mcnt x (64 - s) = mcnt x (64 - s - 1) := hm
      omega
    · rfl
  rw [hb] at hm
  have hm : mcnt x (64 - s) = mcnt x (64 - s - 1) + 1 := hm
  exact ⟨64 - s - 1, by omega, by omega, hb, by omega⟩

/-! ## pdep -/

theorem pdep_bits (x : Word) {k : Nat} (hk : k < 64) (j : Nat) :
    (pdep (1#64 <<< k) x).getLsbD j = (decide (j < 64) && x.getLsbD j && decide (wcnt x j = k)) := by
  have := pdepFrom_bits x hk 64 0 0#64 j (by omega)
  unfold pdep
  refine this.trans ?_
  simp

theorem select64_in {x : Word} {k : Nat} (h : k < wcnt x 64) :
    ∃ p, select64 x k = ok p ∧ WSel x k p := by
  obtain ⟨p, e, hp⟩ := selectPdep_ok h
  refine ⟨p, ?_, hp⟩
  unfold select64 select64PdepTzcnt
  rw [if_neg (by omega)]
  exact e

theorem select64_past {x : Word} {k : Nat} (h : wcnt x 64 ≤ k) (hk : k < 64) :
    select64 x k = ok 64 := by
  unfold select64 select64PdepTzcnt
  rw [if_neg (by omega), show ((k : Int)).toNat = k by omega, shl64_ok hk, ok_bind]
  congr 1
  apply tzcnt_none
  intro t ht
  rw [pdep_bits x hk]
  cases hb : x.getLsbD t
  · simp
  · have h1 := wcnt_succ' x t
    rw [hb] at h1
    have h1 : wcnt x (t + 1) = wcnt x t + 1 := h1
    have h2 := wcnt_mono x (show t + 1 ≤ 64 by omega)
    rw [decide_eq_false (show ¬ wcnt x t = k by omega), Bool.and_false]

theorem select64_shift {x : Word} {k : Nat} (hk : 64 ≤ k) : select64 x k = ub .shift := by
  unfold select64 select64PdepTzcnt
  rw [if_neg (by omega), show ((k : Int)).toNat = k by omega]
  unfold shl64
  rw [if_neg (by omega)]
  rfl

/-! ## broadword -/

theorem and_clear {M x : Word} (h : x &&& M = 0#64) (j : Nat) : (x.getLsbD j && M.getLsbD j) = false := by
  rw [← BitVec.getLsbD_and, h]; simp

theorem xor_mask {M x y z : Word} (hx : x &&& M = 0#64) (hy : y &&& M = 0#64) :
    ((z ^^^ x) ^^^ y) &&& M = z &&& M := by
  apply BitVec.eq_of_getLsbD_eq
  intro j _
  have h1 := and_clear hx j
  have h2 := and_clear hy j
  rw [BitVec.getLsbD_and, BitVec.getLsbD_and, BitVec.getLsbD_xor, BitVec.getLsbD_xor]
  revert h1 h2
  cases x.getLsbD j <;> cases y.getLsbD j <;> cases z.getLsbD j <;> cases M.getLsbD j <;> decide

theorem small_mask {x : Word} {f : Nat → Nat} (hx : x.toNat = pkf f) (hf : ∀ j, j < 8 → f j < 128) :
    x &&& MSBS8 = 0#64 ∧ x &&& ~~~MSBS8 = x := by
  have e : MSBS8.toNat = pkf fun _ => 128 := by decide
  have e2 : (~~~MSBS8).toNat = pkf fun _ => 127 := by decide
  have f2 : ∀ j, j < 8 → f j < 256 := fun j hj => by have := hf j hj; omega
  constructor
  · apply BitVec.eq_of_toNat_eq
    rw [BitVec.toNat_and, hx, e, pkf_and f2 (fun _ _ => by omega)]
    have : pkf (fun j => f j &&& 128) = pkf fun _ => 0 := pkf_congr fun j hj => by
      have := hf j hj
      show f j &&& 128 = 0
      rw [and128 (by omega), if_neg (by omega)]
    rw [this]; rfl
  · apply BitVec.eq_of_toNat_eq
    rw [BitVec.toNat_and, e2, hx, pkf_and f2 (fun _ _ => by omega)]
    exact pkf_congr fun j hj => by
      show f j &&& 127 = f j
      have h := Nat.and_two_pow_sub_one_eq_mod (f j) 7
      rw [show 2 ^ 7 - 1 = 127 by decide] at h
      rw [h]
      exact Nat.mod_eq_of_lt (hf j hj)

theorem leq_eq_geq (x : Word) {k : Nat} (hk : k < 64) :
    leqStep8 (onesStep8 * sidewaysCounts x) (BitVec.ofNat 64 k * onesStep8) = geqStep8 x k >>> 7 := by
  have hs : (onesStep8 * sidewaysCounts x).toNat = pkf fun j => P x (j + 1) := sums_toNat x
  have e1 : (BitVec.ofNat 64 k * onesStep8).toNat = pkf fun _ => k := by
    rw [BitVec.toNat_mul, BitVec.toNat_ofNat]
    show k % 2 ^ 64 * 0x0101010101010101 % 2 ^ 64 = _
    rw [Nat.mod_eq_of_lt (show k < 2 ^ 64 by omega),
      Nat.mod_eq_of_lt (show k * 0x0101010101010101 < 2 ^ 64 by omega)]
    simp only [pkf, pk]
    omega
  obtain ⟨a1, a2⟩ := small_mask hs (fun j _ => by have := P_le x (j + 1); omega)
  obtain ⟨b1, -⟩ := small_mask e1 (fun j _ => by omega)
  unfold leqStep8 geqStep8
  simp only []
  rw [a2, xor_mask a1 b1, byteCounts_eq, BitVec.mul_comm (sidewaysCounts x) onesStep8]
  rfl

/-- The last phase of `select64_broadword` as a function of the byte and the rank in it. -/
def bytePart (a q : Nat) : Nat :=
  ((leqStep8 (zcompareStep8 ((BitVec.ofNat 64 a * ONES8) &&& INCR8) * ONES8)
    (BitVec.ofNat 64 q * ONES8) * ONES8) >>> 56).toNat

theorem bytePart_table : ∀ q : Fin 8, ∀ a : Fin 256, q.1 < bo a.1 →
    SelEntry (ok (bytePart a.1 q.1)) q.1 a.1 = true := by
  decide +kernel

theorem select64Broadword_ok {x : Word} {k : Nat} (h : k < wcnt x 64) :
    ∃ p : Nat, select64Broadword x k = ok (p : Int) ∧ WSel x k p := by
  obtain ⟨r, hr, h1, h2⟩ := byte_exists h
  have hk : k < 64 := Nat.lt_of_lt_of_le h (ncnt_le _ _)
  have hq := byte_rank_lt h1 h2
  have hq8 : k - P x r < bo (by8 x.toNat r) := by rw [P_succ] at h2; omega
  have ha := by8_lt x.toNat r
  unfold select64Broadword
  simp only []
  have hbc : (((x - ((x &&& (0xa#64 * ONES4)) >>> 1)) &&& (3#64 * ONES4)) +
      (((x - ((x &&& (0xa#64 * ONES4)) >>> 1)) >>> 2) &&& (3#64 * ONES4)) +
      ((((x - ((x &&& (0xa#64 * ONES4)) >>> 1)) &&& (3#64 * ONES4)) +
      (((x - ((x &&& (0xa#64 * ONES4)) >>> 1)) >>> 2) &&& (3#64 * ONES4))) >>> 4)) &&&
        (0x0f#64 * ONES8) = byteCounts x := rfl
  rw [hbc]
  rw [byteCounts_eq, show ONES8 = onesStep8 from rfl, BitVec.mul_comm (sidewaysCounts x) onesStep8,
    show intToU64 (k : Int) = BitVec.ofNat 64 k from BitVec.ofInt_natCast 64 k, leq_eq_geq x hk,
    succinct_place hr h1 h2, shr64_ok (by omega), shr64_ok (by omega)]
  simp only [ok_bind]
  rw [show ((onesStep8 * sidewaysCounts x) <<< 8 >>> (8 * r) &&& 0xFF#64).toNat = P x r from
    before_byte x hr]
  rw [show ((k : Int) - ((P x r : Nat) : Int)) = ((k - P x r : Nat) : Int) by omega,
    show intToU64 ((k - P x r : Nat) : Int) = BitVec.ofNat 64 (k - P x r) from
      BitVec.ofInt_natCast 64 _]
  have hb : (x >>> (8 * r)) &&& 0xFF#64 = BitVec.ofNat 64 (by8 x.toNat r) := by
    apply BitVec.eq_of_toNat_eq
    rw [byte_ext, BitVec.toNat_ofNat]
    omega
  rw [hb]
  obtain ⟨t, et, ht, hbit, hc⟩ := SelEntry.elim
    (bytePart_table ⟨k - P x r, Nat.lt_of_lt_of_le hq8 (bo_le _)⟩ ⟨by8 x.toNat r, ha⟩ hq8)
  refine ⟨8 * r + t, ?_, WSel.of_byte hr ht h1 hbit hc⟩
  have et : bytePart (by8 x.toNat r) (k - P x r) = t := by injection et
  show ok (((8 * r : Nat) : Int) + ((bytePart (by8 x.toNat r) (k - P x r) : Nat) : Int)) = _
  rw [et]
  congr 1

end MRS.Poppy
