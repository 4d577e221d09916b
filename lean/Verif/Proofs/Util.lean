import Verif.Model.Util
import Verif.Proofs.BitmapSpec

/-!
# `splitmix64` and `create_random_bits`
-/

set_option autoImplicit false

namespace MRS
open Outcome Spec

/-! ## The generator -/

theorem smState_eq (seed : Word) (n : Nat) :
    smState seed n = seed + BitVec.ofNat 64 n * 0x9E3779B97F4A7C15#64 := by
  induction n with
  | zero => simp [smState]
  | succ n ih =>
    show smState seed n + _ = _
    rw [ih, BitVec.ofNat_add, BitVec.add_mul, BitVec.add_assoc]
    congr 2

theorem xorshift_inv {s : Nat} (hs : 0 < s) (y : Word) {w : Word}
    (hw : w ^^^ (w >>> s) = y) {z : Word} (hz : z ^^^ (z >>> s) = y) : z = w := by
  have hd : (z ^^^ w) = (z ^^^ w) >>> s := by
    rw [BitVec.ushiftRight_xor_distrib]
    have : z ^^^ (z >>> s) = w ^^^ (w >>> s) := hz.trans hw.symm
    calc z ^^^ w = (z ^^^ (z >>> s)) ^^^ (z >>> s) ^^^ w := by
          rw [BitVec.xor_assoc z, BitVec.xor_self, BitVec.xor_zero]
      _ = (w ^^^ (w >>> s)) ^^^ (z >>> s) ^^^ w := by rw [this]
      _ = _ := by
          apply BitVec.eq_of_getLsbD_eq
          intro i _
          simp only [BitVec.getLsbD_xor]
          cases w.getLsbD i <;> cases (w >>> s).getLsbD i <;> cases (z >>> s).getLsbD i <;> rfl
  have hn : (z ^^^ w).toNat = (z ^^^ w).toNat / 2 ^ s := by
    conv => lhs; rw [hd]
    rw [BitVec.toNat_ushiftRight, Nat.shiftRight_eq_div_pow]
  have h0 : (z ^^^ w).toNat = 0 := by
    rcases Nat.eq_zero_or_pos (z ^^^ w).toNat with h | h
    · exact h
    · have := Nat.div_lt_self h (show 1 < 2 ^ s from Nat.one_lt_two_pow (by omega))
      omega
  have hx : z ^^^ w = 0#64 := BitVec.eq_of_toNat_eq (by rw [h0]; rfl)
  have : (z ^^^ w) ^^^ w = 0#64 ^^^ w := by rw [hx]
  rwa [BitVec.xor_assoc, BitVec.xor_self, BitVec.xor_zero, BitVec.zero_xor] at this

theorem xorshift_inj {s : Nat} (hs : 0 < s) {z w : Word} (h : z ^^^ (z >>> s) = w ^^^ (w >>> s)) :
    z = w := xorshift_inv hs _ rfl h

theorem xorshift_surj {s : Nat} (hs : 64 ≤ 3 * s) (y : Word) : ∃ z : Word, z ^^^ (z >>> s) = y := by
  refine ⟨y ^^^ (y >>> s) ^^^ (y >>> (s + s)), ?_⟩
  rw [BitVec.ushiftRight_xor_distrib, BitVec.ushiftRight_xor_distrib, ← BitVec.shiftRight_add,
    ← BitVec.shiftRight_add]
  have h0 : y >>> (s + s + s) = 0#64 := by
    apply BitVec.eq_of_toNat_eq
    rw [BitVec.toNat_ushiftRight, Nat.shiftRight_eq_div_pow]
    have := y.isLt
    have h2 : 2 ^ 64 ≤ 2 ^ (s + s + s) := Nat.pow_le_pow_right (by omega) (by omega)
    exact Nat.div_eq_of_lt (by omega)
  rw [h0]
  apply BitVec.eq_of_getLsbD_eq
  intro i _
  simp only [BitVec.getLsbD_xor, BitVec.getLsbD_zero]
  cases y.getLsbD i <;> cases (y >>> s).getLsbD i <;> cases (y >>> (s + s)).getLsbD i <;> rfl

theorem mul_inj {a b : Word} (hab : a * b = 1#64) {z w : Word} (h : z * a = w * a) : z = w := by
  have := congrArg (· * b) h
  simp only [BitVec.mul_assoc, hab, BitVec.mul_one] at this
  exact this

theorem mul_surj {a b : Word} (hab : a * b = 1#64) (y : Word) : ∃ z : Word, z * a = y :=
  ⟨y * b, by rw [BitVec.mul_assoc, BitVec.mul_comm b, hab, BitVec.mul_one]⟩

theorem mixMul1 : 0xBF58476D1CE4E5B9#64 * 0x96DE1B173F119089#64 = 1#64 := by decide
theorem mixMul2 : 0x94D049BB133111EB#64 * 0x319642B2D24D8EC3#64 = 1#64 := by decide
theorem mixMul3 : 0x9E3779B97F4A7C15#64 * 0xF1DE83E19937733D#64 = 1#64 := by decide

theorem smMix_inj {z w : Word} (h : smMix z = smMix w) : z = w := by
  unfold smMix at h
  exact xorshift_inj (by omega) (mul_inj mixMul1 (xorshift_inj (by omega) (mul_inj mixMul2
    (xorshift_inj (by omega) h))))

theorem smMix_surj (v : Word) : ∃ z, smMix z = v := by
  obtain ⟨z1, e1⟩ := xorshift_surj (s := 31) (by omega) v
  obtain ⟨z2, e2⟩ := mul_surj mixMul2 z1
  obtain ⟨z3, e3⟩ := xorshift_surj (s := 27) (by omega) z2
  obtain ⟨z4, e4⟩ := mul_surj mixMul1 z3
  obtain ⟨z5, e5⟩ := xorshift_surj (s := 30) (by omega) z4
  refine ⟨z5, ?_⟩
  unfold smMix
  dsimp only
  rw [e5, e4, e3, e2, e1]

theorem smNth_eq (seed : Word) (n : Nat) :
    smNth seed n = smMix (seed + BitVec.ofNat 64 (n + 1) * 0x9E3779B97F4A7C15#64) := by
  show smMix (smState seed (n + 1)) = _
  rw [smState_eq]

theorem ofNat_inj {i j : Nat} (h : BitVec.ofNat 64 i = BitVec.ofNat 64 j) : i % 2 ^ 64 = j % 2 ^ 64 := by
  have := congrArg BitVec.toNat h
  rwa [BitVec.toNat_ofNat, BitVec.toNat_ofNat] at this

theorem smNth_eq_iff (seed : Word) (i j : Nat) :
    smNth seed i = smNth seed j ↔ i % 2 ^ 64 = j % 2 ^ 64 := by
  rw [smNth_eq, smNth_eq]
  constructor
  · intro h
    have h1 := (BitVec.add_right_inj seed).1 (smMix_inj h)
    have h2 := ofNat_inj (mul_inj mixMul3 h1)
    omega
  · intro h
    have : BitVec.ofNat 64 (i + 1) = BitVec.ofNat 64 (j + 1) := by
      apply BitVec.eq_of_toNat_eq
      rw [BitVec.toNat_ofNat, BitVec.toNat_ofNat]
      omega
    rw [this]

theorem smNth_surj (seed v : Word) : ∃ i, i < 2 ^ 64 ∧ smNth seed i = v := by
  obtain ⟨z, e⟩ := smMix_surj v
  obtain ⟨k, hk⟩ := mul_surj mixMul3 (z - seed)
  refine ⟨(k.toNat + (2 ^ 64 - 1)) % 2 ^ 64, Nat.mod_lt _ (by decide), ?_⟩
  rw [smNth_eq]
  have : BitVec.ofNat 64 ((k.toNat + (2 ^ 64 - 1)) % 2 ^ 64 + 1) = k := by
    apply BitVec.eq_of_toNat_eq
    rw [BitVec.toNat_ofNat]
    have := k.isLt
    omega
  rw [this, hk, BitVec.add_comm, BitVec.sub_add_cancel, e]

/-! ## `create_random_bits` -/

/-- Draw number `i` is below the threshold. -/
def drawn (seed threshold : Word) (i : Nat) : Bool := decide (smNth seed i < threshold)

/-- The words after setting bit `i`. -/
theorem fbit_or {f g : Nat → Word} {i : Nat}
    (hg : ∀ j, g j = if j = i / 64 then f (i / 64) ||| (1#64 <<< (i % 64)) else f j) (t : Nat) :
    fbit g t = if t = i then true else fbit f t := by
  unfold fbit
  rw [hg]
  by_cases h1 : t / 64 = i / 64
  · rw [if_pos h1, BitVec.getLsbD_or]
    have hs : (1#64 <<< (i % 64)).getLsbD (t % 64) = decide (t % 64 = i % 64) := by
      rw [BitVec.getLsbD_shiftLeft, BitVec.getLsbD_one]
      have : t % 64 < 64 := Nat.mod_lt _ (by decide)
      by_cases e : t % 64 = i % 64
      · simp [e, Nat.mod_lt]
      · by_cases l : t % 64 < i % 64
        · simp [l, e]
        · have : t % 64 - i % 64 ≠ 0 := by omega
          simp [e, this]
    rw [hs]
    by_cases h2 : t = i
    · subst h2; simp
    · have : ¬ t % 64 = i % 64 := by omega
      rw [if_neg h2, h1]; simp [this]
  · rw [if_neg h1, if_neg (by rintro rfl; exact h1 rfl)]

theorem psum_ind_le (p : Nat → Bool) (n : Nat) : psum (ind p) n ≤ n := by
  induction n with
  | zero => exact Nat.le_refl _
  | succ n ih =>
    show psum (ind p) n + (if p n then 1 else 0) ≤ _
    split <;> omega

/-- State of the first loop after `i` iterations. -/
structure CrbInv (old : Vec Word) (seed threshold : Word) (i : Nat) (s : CrbState) : Prop where
  x : s.x = smState seed i
  num : s.numOnes = psum (ind (drawn seed threshold)) i
  len : s.bits.len = old.len
  bit : ∀ t, fbit s.bits.f t = (fbit old.f t || (decide (t < i) && drawn seed threshold t))

theorem crbStep_inv {old : Vec Word} {seed threshold : Word} {i : Nat} {s : CrbState}
    (hl : old.len * 64 < W64) (hi : i < old.len * 64) (h : CrbInv old seed threshold i s) :
    ∃ s', crbStep threshold i s = ok s' ∧ CrbInv old seed threshold (i + 1) s' := by
  have hx : smNext s.x = (smNth seed i, smState seed (i + 1)) := by rw [h.x]; rfl
  unfold crbStep
  rw [hx]
  dsimp only
  by_cases hd : smNth seed i < threshold
  · have hd' : drawn seed threshold i = true := decide_eq_true hd
    have hj : i / 64 < s.bits.len := by rw [h.len]; omega
    rw [if_pos hd, Vec.get_ok hj, ok_bind, Vec.set_ok _ hj, ok_bind]
    refine ⟨_, rfl, rfl, ?_, h.len, fun t => ?_⟩
    · show add64 s.numOnes 1 = psum _ i + (if drawn seed threshold i then 1 else 0)
      have := psum_ind_le (drawn seed threshold) i
      rw [h.num, hd', add64_eq (by simp only [W64] at *; omega)]
      rfl
    · rw [fbit_or (i := i) (f := s.bits.f) (fun _ => rfl) t, h.bit t]
      by_cases ht : t = i
      · rw [if_pos ht, ht, hd']; simp
      · rw [if_neg ht]
        have : decide (t < i + 1) = decide (t < i) := by
          by_cases h : t < i
          · rw [decide_eq_true h, decide_eq_true (by omega)]
          · rw [decide_eq_false h, decide_eq_false (by omega)]
        rw [this]
  · have hd' : drawn seed threshold i = false := decide_eq_false hd
    rw [if_neg hd]
    refine ⟨_, rfl, rfl, ?_, h.len, fun t => ?_⟩
    · show s.numOnes = psum _ i + (if drawn seed threshold i then 1 else 0)
      rw [h.num, hd']; rfl
    · show fbit s.bits.f t = _
      rw [h.bit t]
      by_cases ht : t = i
      · rw [ht, hd']; simp
      · have : decide (t < i + 1) = decide (t < i) := by
          by_cases h : t < i
          · rw [decide_eq_true h, decide_eq_true (by omega)]
          · rw [decide_eq_false h, decide_eq_false (by omega)]
        rw [this]

theorem crbLoop {old : Vec Word} (seed threshold : Word) (hl : old.len * 64 < W64) :
    ∃ s, forN (mul64 old.len 64) (crbStep threshold) ⟨seed, 0, old⟩ = ok s ∧
      CrbInv old seed threshold (old.len * 64) s := by
  rw [mul64_eq hl]
  refine forN_inv (CrbInv old seed threshold) _ _ ⟨rfl, rfl, rfl, fun t => ?_⟩
    fun i s hi h => crbStep_inv hl hi h
  simp

/-- What the second loop finds. -/
theorem crbAllZero_eq (v : Vec Word) : ∀ (n i : Nat),
    (∃ j, i ≤ j ∧ j < i + n ∧ j < v.len ∧ v.f j ≠ 0#64 ∧ crbAllZero v i n = ok false) ∨
    ((∀ j, i ≤ j → j < i + n → j < v.len → v.f j = 0#64) ∧
      crbAllZero v i n = if n = 0 ∨ i + n ≤ v.len then ok true else ub .oob) := by
  intro n
  induction n with
  | zero => intro i; exact Or.inr ⟨fun j _ _ _ => by omega, rfl⟩
  | succ n ih =>
    intro i
    unfold crbAllZero
    by_cases hi : i < v.len
    · rw [Vec.get_ok hi, ok_bind]
      by_cases h0 : v.f i = 0#64
      · rw [if_neg (by simp [h0])]
        rcases ih (i + 1) with ⟨j, h1, h2, h3, h4, h5⟩ | ⟨h1, h2⟩
        · exact Or.inl ⟨j, by omega, by omega, h3, h4, h5⟩
        · refine Or.inr ⟨fun j a b c => ?_, ?_⟩
          · by_cases hj : j = i
            · rw [hj]; exact h0
            · exact h1 j (by omega) (by omega) c
          · rw [h2]
            by_cases hn : n = 0 ∨ i + 1 + n ≤ v.len
            · rw [if_pos hn, if_pos (by omega)]
            · rw [if_neg hn, if_neg (by omega)]
      · rw [if_pos h0]
        exact Or.inl ⟨i, Nat.le_refl _, by omega, hi, h0, rfl⟩
    · refine Or.inr ⟨fun j a b c => by omega, ?_⟩
      rw [if_neg (by omega)]
      unfold Vec.get
      rw [if_neg hi]; rfl

theorem word_ne_zero {w : Word} (h : w ≠ 0#64) : ∃ j, j < 64 ∧ w.getLsbD j = true := by
  refine Classical.byContradiction fun hn => h (BitVec.eq_of_getLsbD_eq fun i hi => ?_)
  rw [BitVec.getLsbD_zero]
  cases hb : w.getLsbD i
  · rfl
  · exact absurd ⟨i, hi, hb⟩ hn

theorem psum_ind_zero {p : Nat → Bool} {n : Nat} (h : ∀ t, t < n → p t = false) : psum (ind p) n = 0 := by
  induction n with
  | zero => rfl
  | succ n ih =>
    show psum (ind p) n + (if p n then 1 else 0) = 0
    rw [ih fun t ht => h t (by omega), h n (by omega)]; rfl

/-- The bits after the first loop. -/
def crbBit (old : Vec Word) (seed threshold : Word) (t : Nat) : Bool :=
  fbit old.f t || (decide (t < old.len * 64) && drawn seed threshold t)

/-- `create_random_bits`, all cases. -/
theorem createRandomBits_cases {old : Vec Word} (seed threshold : Word) (hl : old.len * 64 < W64) :
    (∃ v, createRandomBits old threshold seed =
        ok (psum (ind (drawn seed threshold)) (old.len * 64), v) ∧ v.len = old.len ∧
      (∀ t, fbit v.f t = crbBit old seed threshold t) ∧
      ∃ t, t < 256 ∧ t < old.len * 64 ∧ crbBit old seed threshold t = true) ∨
    ((∀ t, t < 256 → t < old.len * 64 → crbBit old seed threshold t = false) ∧
      (old.len < 4 → createRandomBits old threshold seed = ub .oob) ∧
      (4 ≤ old.len → ∃ v, createRandomBits old threshold seed =
        ok (add64 (psum (ind (drawn seed threshold)) (old.len * 64)) 1, v) ∧ v.len = old.len ∧
        ∀ t, fbit v.f t = if t = 0 then true else crbBit old seed threshold t)) := by
  obtain ⟨s, e, h⟩ := crbLoop seed threshold hl
  unfold createRandomBits
  rw [e, ok_bind]
  have hb : ∀ t, fbit s.bits.f t = crbBit old seed threshold t := h.bit
  rcases crbAllZero_eq s.bits 4 0 with ⟨j, h1, h2, h3, h4, h5⟩ | ⟨h1, h2⟩
  · refine Or.inl ⟨s.bits, ?_, h.len, hb, ?_⟩
    · rw [h5, ok_bind, if_neg (by decide), h.num]
    · obtain ⟨o, ho, hw⟩ := word_ne_zero h4
      rw [h.len] at h3
      refine ⟨64 * j + o, by omega, by omega, ?_⟩
      rw [← hb]
      unfold fbit
      rw [show (64 * j + o) / 64 = j by omega, show (64 * j + o) % 64 = o by omega, hw]
  · refine Or.inr ⟨fun t ht1 ht2 => ?_, fun hlt => ?_, fun hge => ?_⟩
    · rw [← hb]
      unfold fbit
      rw [h1 (t / 64) (by omega) (by omega) (by rw [h.len]; omega), BitVec.getLsbD_zero]
    · rw [h2, if_neg (by rw [h.len]; omega)]; rfl
    · rw [h2, if_pos (by rw [h.len]; omega), ok_bind, if_pos rfl,
        Vec.set_ok _ (by rw [h.len]; omega), ok_bind, h.num]
      refine ⟨_, rfl, h.len, fun t => ?_⟩
      have h0 : s.bits.f 0 = 0#64 := h1 0 (by omega) (by omega) (by rw [h.len]; omega)
      rw [← hb t]
      exact fbit_or (f := s.bits.f) (i := 0) (fun j => by
        show (if j = 0 then 1#64 else s.bits.f j) = if j = 0 / 64 then _ else _
        rw [Nat.zero_div, h0]; rfl) t

end MRS
