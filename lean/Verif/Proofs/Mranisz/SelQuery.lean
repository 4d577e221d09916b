import Verif.Proofs.Mranisz.SelTop

/-! # Compressed select: reading a block -/

set_option autoImplicit false

namespace MRS.Mran
open Outcome Spec Poppy

variable {t : Vec Byte} {L TH : Nat}

/-! ## Words of eight bytes -/

theorem shift_byte (c : Byte) {n j : Nat} (hn : n < 8) (hj : j < 64) :
    (c.setWidth 64 <<< (8 * n) : Word).getLsbD j = (decide (8 * n ≤ j ∧ j < 8 * n + 8) && c.getLsbD (j - 8 * n)) := by
  rw [BitVec.getLsbD_shiftLeft, BitVec.getLsbD_setWidth]
  by_cases h1 : j < 8 * n
  · rw [decide_eq_true h1, decide_eq_false (show ¬ (8 * n ≤ j ∧ j < 8 * n + 8) by omega)]
    simp
  · rw [decide_eq_false h1, decide_eq_true hj, decide_eq_true (show j - 8 * n < 64 by omega)]
    by_cases h2 : j < 8 * n + 8
    · rw [decide_eq_true (show 8 * n ≤ j ∧ j < 8 * n + 8 by omega)]; simp
    · rw [decide_eq_false (show ¬ (8 * n ≤ j ∧ j < 8 * n + 8) by omega),
        BitVec.getLsbD_of_ge _ _ (show 8 ≤ j - 8 * n by omega)]
      simp

theorem leWord_bit (b : Nat → Byte) : ∀ {n : Nat}, n ≤ 8 → ∀ {j : Nat}, j < 64 →
    (leWord b n).getLsbD j = (decide (j < 8 * n) && (b (j / 8)).getLsbD (j % 8)) := by
  intro n
  induction n with
  | zero =>
    intro _ j _
    rw [decide_eq_false (by omega), Bool.false_and]
    show (0#64).getLsbD j = false
    rw [BitVec.getLsbD_zero]
  | succ n ih =>
    intro hn j hj
    show (leWord b n + (b n).setWidth 64 <<< (8 * n)).getLsbD j = _
    have hdis : leWord b n &&& (b n).setWidth 64 <<< (8 * n) = 0#64 := by
      apply BitVec.eq_of_getLsbD_eq
      intro l hl
      rw [BitVec.getLsbD_and, ih (by omega) hl, shift_byte _ (by omega) hl, BitVec.getLsbD_zero]
      by_cases h : l < 8 * n
      · rw [decide_eq_false (show ¬ (8 * n ≤ l ∧ l < 8 * n + 8) by omega)]; simp
      · rw [decide_eq_false h]; simp
    rw [BitVec.add_eq_or_of_and_eq_zero _ _ hdis, BitVec.getLsbD_or, ih (by omega) hj, shift_byte _ (by omega) hj]
    by_cases h1 : j < 8 * n
    · rw [decide_eq_true h1, decide_eq_true (show j < 8 * (n + 1) by omega),
        decide_eq_false (show ¬ (8 * n ≤ j ∧ j < 8 * n + 8) by omega)]
      simp
    · rw [decide_eq_false h1]
      by_cases h2 : j < 8 * (n + 1)
      · rw [decide_eq_true h2, decide_eq_true (show 8 * n ≤ j ∧ j < 8 * n + 8 by omega),
          show j / 8 = n by omega, show j % 8 = j - 8 * n by omega]
        simp
      · rw [decide_eq_false h2, decide_eq_false (show ¬ (8 * n ≤ j ∧ j < 8 * n + 8) by omega)]
        simp

theorem leWord_pop (b : Nat → Byte) : popcnt (leWord b 8) = psum (fun k => bcnt (b k) 8) 8 := by
  rw [popcnt_eq]
  have hbit : ∀ j, j < 64 → nbit (leWord b 8).toNat j = ((b (j / 8)).getLsbD (j % 8)).toNat := by
    intro j hj
    have := leWord_bit b (Nat.le_refl 8) hj
    rw [decide_eq_true (show j < 8 * 8 by omega), Bool.true_and] at this
    rw [← this]
    rfl
  have key : ∀ k, k ≤ 8 → wcnt (leWord b 8) (8 * k) = psum (fun k => bcnt (b k) 8) k := by
    intro k
    induction k with
    | zero => intro _; rfl
    | succ k ih =>
      intro hk
      rw [psum_succ, ← ih (by omega)]
      have e : ∀ z, z < 8 → nbit (leWord b 8).toNat (8 * k + z) = ((b k).getLsbD z).toNat := by
        intro z hz
        rw [hbit _ (by omega), show (8 * k + z) / 8 = k by omega, show (8 * k + z) % 8 = z by omega]
      have hb : bcnt (b k) 8 = ((b k).getLsbD 7).toNat + ((b k).getLsbD 6).toNat + ((b k).getLsbD 5).toNat +
          ((b k).getLsbD 4).toNat + ((b k).getLsbD 3).toNat + ((b k).getLsbD 2).toNat + ((b k).getLsbD 1).toNat +
          ((b k).getLsbD 0).toNat := by
        show 0 + _ + _ + _ + _ + _ + _ + _ + _ = _
        rw [Nat.zero_add]
      rw [hb, ← e 0 (by omega), ← e 1 (by omega), ← e 2 (by omega), ← e 3 (by omega), ← e 4 (by omega),
        ← e 5 (by omega), ← e 6 (by omega), ← e 7 (by omega)]
      have hs : ∀ n, wcnt (leWord b 8) (n + 1) = wcnt (leWord b 8) n + nbit (leWord b 8).toNat n := fun _ => rfl
      have h0 := hs (8 * k)
      have h1 := hs (8 * k + 1)
      have h2 := hs (8 * k + 2)
      have h3 := hs (8 * k + 3)
      have h4 := hs (8 * k + 4)
      have h5 := hs (8 * k + 5)
      have h6 := hs (8 * k + 6)
      have h7 := hs (8 * k + 7)
      simp only [Nat.add_assoc, Nat.reduceAdd] at h0 h1 h2 h3 h4 h5 h6 h7
      rw [show 8 * (k + 1) = 8 * k + 8 by omega, show 8 * k + 0 = 8 * k from rfl]
      omega
  exact key 8 (Nat.le_refl _)

theorem leWord_pos {p : Nat} (hp : p < 2 ^ 64) :
    (leWord (fun k => BitVec.ofNat 8 (p >>> (8 * k))) 8).toNat = p := by
  have : leWord (fun k => BitVec.ofNat 8 (p >>> (8 * k))) 8 = BitVec.ofNat 64 p := by
    apply BitVec.eq_of_getLsbD_eq
    intro j hj
    rw [leWord_bit _ (Nat.le_refl 8) hj, decide_eq_true (show j < 8 * 8 by omega), Bool.true_and,
      BitVec.getLsbD_ofNat, BitVec.getLsbD_ofNat, decide_eq_true (show j % 8 < 8 by omega), decide_eq_true hj,
      Bool.true_and, Bool.true_and, Nat.testBit_shiftRight, show 8 * (j / 8) + j % 8 = j by omega]
  rw [this, BitVec.toNat_ofNat, Nat.mod_eq_of_lt hp]

theorem load8_ok {strict : Bool} {bits : Vec (Option Byte)} {o : Nat} {b : Nat → Byte}
    (hs : strict = false ∨ o % 8 = 0) (hlen : o + 8 ≤ bits.len)
    (h : ∀ k, k < 8 → bits.f (o + k) = some (b k)) : load8 strict bits o = ok (leWord b 8) := by
  unfold load8
  have hc : (strict && o % 8 != 0) = false := by
    rcases hs with h | h
    · rw [h, Bool.false_and]
    · rw [h]; simp
  rw [hc, if_neg (by simp)]
  obtain ⟨w, e, hw⟩ := forN_inv
    (body := fun k (w : Word) => do
      let b ← uget bits (o + k)
      ok (w + b.setWidth 64 <<< (8 * k)))
    (fun k w => w = leWord b k) 8 0#64 rfl
    (by
      intro k w hk hw
      rw [uget_ok (by omega) (h k hk), ok_bind, hw]
      exact ⟨_, rfl, rfl⟩)
  rw [e, hw]

theorem load8_mis {strict : Bool} {bits : Vec (Option Byte)} {o : Nat}
    (hs : ¬ (strict = false ∨ o % 8 = 0)) : load8 strict bits o = ub .misaligned := by
  unfold load8
  have hc : (strict && o % 8 != 0) = true := by
    cases strict
    · exact absurd (Or.inl rfl) hs
    · have : o % 8 ≠ 0 := fun hh => hs (Or.inr hh)
      simp [this]
  rw [hc, if_pos rfl]

/-! ## A bit of a byte -/

theorem mask_table : ∀ (c : BitVec 8) (j : Fin 8), (c &&& byteMasks.getD j.1 0#8 ≠ 0#8) ↔ c.getLsbD (7 - j.1) = true := by
  decide +kernel

theorem bitLoop_ok (b : Byte) (select : Nat) : ∀ (n j i z : Nat), n + j = 8 → j ≤ z → z < 8 → 1 ≤ i →
    b.getLsbD (7 - z) = true → bcnt b z + 1 = bcnt b j + i → bitLoop b select n j i = select + z := by
  intro n
  induction n with
  | zero => intro j i z h1 h2 h3; omega
  | succ n ih =>
    intro j i z h1 h2 h3 hi hb hc
    unfold bitLoop
    have hm := mask_table b ⟨j, by omega⟩
    have hcj := bcnt_succ b j
    by_cases hj : j = z
    · subst hj
      rw [if_pos (hm.2 hb), if_pos (by omega)]
    · have hmono : bcnt b (j + 1) ≤ bcnt b z := psum_mono _ (by omega)
      by_cases hbj : b.getLsbD (7 - j) = true
      · rw [if_pos (hm.2 hbj)]
        rw [hbj] at hcj
        have hcj' : bcnt b (j + 1) = bcnt b j + 1 := hcj
        rw [if_neg (by omega)]
        exact ih (j + 1) (i - 1) z (by omega) (by omega) h3 (by omega) hb (by omega)
      · rw [if_neg (fun hh => hbj (hm.1 hh))]
        rw [eq_false_of_ne_true hbj] at hcj
        have hcj' : bcnt b (j + 1) = bcnt b j := hcj
        exact ih (j + 1) i z (by omega) (by omega) h3 hi hb (by omega)

/-! ## Target -/

theorem lt_of_T {p k X : Nat} (hp : T t p + 1 = k) (hb : tbit t p = true) (hX : k ≤ T t X) : p < X := by
  by_cases h : p < X
  · exact h
  · have := T_mono t (show X ≤ p by omega)
    omega

theorem ge_of_T {p k X : Nat} (hp : T t p + 1 = k) (hb : tbit t p = true) (hX : T t X < k) : X ≤ p := by
  by_cases h : X ≤ p
  · exact h
  · have := T_mono t (show p + 1 ≤ X by omega)
    rw [T_succ, hb] at this
    have h1 : (true : Bool).toNat = 1 := rfl
    omega

structure Target (t : Vec Byte) (L m i q : Nat) : Prop where
  bit : tbit t q = true
  rank : T t q + 1 = m * L + i
  lo : en t L m ≤ q
  hi : q - en t L m < sb t L m
  lt : q < 8 * t.len

theorem target {m i : Nat} (hL : 1 ≤ L) (h : m < nbk t L) (hi : 1 ≤ i) (hiL : i < L) (hit : m * L + i ≤ tot t) :
    Target t L m i (sel t (m * L + i)) := by
  obtain ⟨s1, s2, s3⟩ := sel_spec (t := t) (k := m * L + i) (by omega) hit
  have hTm := T_en (t := t) (L := L) (m := m) hL (by omega)
  have hTn := T_en (t := t) (L := L) (m := m + 1) hL (by omega)
  rw [ob_lt hL h] at hTm
  have hlo : en t L m ≤ sel t (m * L + i) := ge_of_T (by omega) s2 (by omega)
  have hl := en_last hL h
  have hes := en_succ hL h
  have hob := ob_sq hL h
  refine ⟨s2, by omega, hlo, ?_, s1⟩
  unfold sb
  by_cases hm : m < tot t / L
  · rw [if_pos hm]
    have h1 := hob.1 hm
    have hsq : sq t L m = L - 1 := by unfold sq; rw [if_pos hm]
    have := lt_of_T (t := t) (p := sel t (m * L + i)) (k := m * L + i) (X := en t L (m + 1) - 1) (by omega) s2 (by omega)
    omega
  · rw [if_neg hm]
    have h1 := hob.2 hm
    rw [h1.2.1, ob_all hL] at hTn
    have := lt_of_T (t := t) (p := sel t (m * L + i)) (k := m * L + i) (X := en t L (m + 1)) (by omega) s2
      (by rw [h1.2.1]; omega)
    omega

/-! ## Dense blocks -/

/-- The bytes of a dense block. -/
def DenseAt (t : Vec Byte) (L m o : Nat) (bits : Vec (Option Byte)) : Prop :=
  o + (sb t L m + 7) / 8 ≤ bits.len ∧ ∀ y, y < (sb t L m + 7) / 8 →
    bits.f (o + y) = some (bacc t (en t L m + 8 * y) (min 8 (sb t L m - 8 * y)))

theorem bacc_sum (base : Nat) (k : Nat) :
    T t base + psum (fun k => bcnt (bacc t (base + 8 * k) 8) 8) k = T t (base + 8 * k) := by
  induction k with
  | zero => rfl
  | succ k ih =>
    rw [psum_succ, ← Nat.add_assoc, ih, bacc_cnt _ (Nat.le_refl 8) (Nat.le_refl 8)]
    rfl

theorem wordLoop_ok {strict : Bool} {bits : Vec (Option Byte)} {m i q o e : Nat} (hs : strict = false ∨ o % 8 = 0)
    (hd : o + e ≤ bits.len ∧ ∀ y, y < e →
      bits.f (o + y) = some (bacc t (en t L m + 8 * y) (min 8 (sb t L m - 8 * y))))
    (hq : Target t L m i q) : ∀ n c, c % 8 = 0 → 64 * n + 8 * c ≤ sb t L m → 8 * n + c ≤ e →
    en t L m + 8 * c ≤ q →
    ∃ c', wordLoop strict bits n (m * L + i - T t (en t L m + 8 * c)) (en t L m + 8 * c) (o + c) =
      ok (m * L + i - T t (en t L m + 8 * c'), en t L m + 8 * c', o + c') ∧ en t L m + 8 * c' ≤ q := by
  intro n
  induction n with
  | zero => intro c _ _ _ hc; exact ⟨c, rfl, hc⟩
  | succ n ih =>
    intro c h8 hn hne hc
    unfold wordLoop
    have hle := T_mono t hc
    have hrk := hq.rank
    rw [load8_ok (b := fun k => bacc t (en t L m + 8 * c + 8 * k) 8) (by rcases hs with h | h; exact Or.inl h; exact Or.inr (by omega))
      (by have := hd.1; omega)
      (by
        intro k hk
        rw [Nat.add_assoc, hd.2 (c + k) (by omega), show min 8 (sb t L m - 8 * (c + k)) = 8 by omega,
          show en t L m + 8 * (c + k) = en t L m + 8 * c + 8 * k by omega]), ok_bind, leWord_pop]
    have hsum := bacc_sum (t := t) (en t L m + 8 * c) 8
    simp only []
    by_cases hge : psum (fun k => bcnt (bacc t (en t L m + 8 * c + 8 * k) 8) 8) 8 ≥ m * L + i - T t (en t L m + 8 * c)
    · rw [if_pos hge]
      exact ⟨c, rfl, hc⟩
    · rw [if_neg hge]
      obtain ⟨c', e, hc'⟩ := ih (c + 8) (by omega) (by omega) (by omega)
        (by
          have := ge_of_T (X := en t L m + 8 * c + 8 * 8) hrk hq.bit (by omega)
          omega)
      refine ⟨c', ?_, hc'⟩
      rw [← e]
      congr 1
      rw [show en t L m + 8 * (c + 8) = en t L m + 8 * c + 8 * 8 by omega]
      omega

theorem byteLoop_ok {bits : Vec (Option Byte)} {m i q o : Nat}
    (hd : DenseAt t L m o bits) (hq : Target t L m i q) : ∀ fuel c, en t L m + 8 * c ≤ q →
    (q - en t L m) / 8 < fuel + c →
    byteLoop bits fuel (m * L + i - T t (en t L m + 8 * c)) (en t L m + 8 * c) (o + c) =
      ok (m * L + i - T t (en t L m + 8 * ((q - en t L m) / 8)), en t L m + 8 * ((q - en t L m) / 8),
        o + (q - en t L m) / 8) := by
  intro fuel
  induction fuel with
  | zero => intro c h1 h2; omega
  | succ fuel ih =>
    intro c h1 h2
    unfold byteLoop
    have hle := T_mono t h1
    have hrk := hq.rank
    have hhi := hq.hi
    have hlo := hq.lo
    rw [uget_ok (by have := hd.1; omega) (hd.2 c (by omega)), ok_bind]
    simp only []
    rw [byte_table]
    have hcnt := bacc_cnt (t := t) (en t L m + 8 * c) (x := min 8 (sb t L m - 8 * c)) (by omega) (Nat.le_refl 8)
    rw [show min 8 (min 8 (sb t L m - 8 * c)) = min 8 (sb t L m - 8 * c) by omega] at hcnt
    by_cases hin : q < en t L m + 8 * c + 8
    · have hT := T_mono t (show q + 1 ≤ en t L m + 8 * c + min 8 (sb t L m - 8 * c) by omega)
      rw [T_succ, hq.bit] at hT
      have h1' : (true : Bool).toNat = 1 := rfl
      rw [if_pos (by omega), show (q - en t L m) / 8 = c by omega]
    · have hT := T_mono t (show en t L m + 8 * c + min 8 (sb t L m - 8 * c) ≤ q by omega)
      rw [if_neg (by omega)]
      have hx : min 8 (sb t L m - 8 * c) = 8 := by omega
      rw [hx] at hcnt hT ⊢
      have := ih (c + 1) (by omega) (by omega)
      rw [← this]
      congr 1
      rw [show en t L m + 8 * (c + 1) = en t L m + 8 * c + 8 by omega]
      omega

theorem scanBlock_ok {strict : Bool} {bits : Vec (Option Byte)} {m i q o : Nat} (hL : 1 ≤ L) (h : m < nbk t L)
    (hs : strict = false ∨ o % 8 = 0 ∨ bl t L m ≤ 64)
    (hd : DenseAt t L m o bits) (hq : Target t L m i q) :
    scanBlock strict bits o (bl t L m) i (en t L m) = ok q := by
  have hTm := T_en (t := t) (L := L) (m := m) hL (by omega)
  rw [ob_lt hL h] at hTm
  have hbp := bl_pos hL h
  have hsb : bl t L m - 1 ≤ sb t L m := by unfold sb; split <;> omega
  have hhi := hq.hi
  have hlo := hq.lo
  have hrk := hq.rank
  unfold scanBlock
  have hw : ∃ c, wordLoop strict bits ((bl t L m - 1) / 64) i (en t L m) o =
      ok (m * L + i - T t (en t L m + 8 * c), en t L m + 8 * c, o + c) ∧ en t L m + 8 * c ≤ q := by
    by_cases h64 : bl t L m ≤ 64
    · rw [show (bl t L m - 1) / 64 = 0 by omega]
      refine ⟨0, ?_, hq.lo⟩
      unfold wordLoop
      rw [Nat.mul_zero, Nat.add_zero, Nat.add_zero, hTm, Nat.add_sub_cancel_left]
    · obtain ⟨c, e, hc⟩ := wordLoop_ok (strict := strict) (by rcases hs with h | h | h; exact Or.inl h; exact Or.inr h; omega) hd hq
        ((bl t L m - 1) / 64) 0 rfl (by omega) (by omega) hq.lo
      rw [Nat.mul_zero, Nat.add_zero, Nat.add_zero, hTm, Nat.add_sub_cancel_left] at e
      exact ⟨c, e, hc⟩
  obtain ⟨c, e, hc⟩ := hw
  rw [e, ok_bind]
  simp only []
  rw [byteLoop_ok hd hq (bits.len + 1) c hc (by have := hd.1; omega), ok_bind]
  simp only []
  rw [uget_ok (by have := hd.1; omega) (hd.2 ((q - en t L m) / 8) (by omega)), ok_bind]
  congr 1
  generalize hc' : (q - en t L m) / 8 = c'
  have hxx : min 8 (sb t L m - 8 * c') ≤ 8 := by omega
  have hle := T_mono t (show en t L m + 8 * c' ≤ q by omega)
  have hcnt := bacc_cnt (t := t) (en t L m + 8 * c') hxx (j := q - (en t L m + 8 * c')) (by omega)
  rw [show min (q - (en t L m + 8 * c')) (min 8 (sb t L m - 8 * c')) = q - (en t L m + 8 * c') by omega,
    show en t L m + 8 * c' + (q - (en t L m + 8 * c')) = q by omega] at hcnt
  rw [bitLoop_ok _ _ 8 0 _ (q - (en t L m + 8 * c')) rfl (Nat.zero_le _) (by omega) (by omega) ?_ ?_]
  · omega
  · rw [bacc_bit _ hxx (by omega), show en t L m + 8 * c' + (q - (en t L m + 8 * c')) = q by omega, hq.bit,
      decide_eq_true (by omega)]
    rfl
  · show _ = 0 + _
    omega

theorem scanBlock_mis {bits : Vec (Option Byte)} {m i o : Nat} (ho : o % 8 ≠ 0) (hb : 64 < bl t L m) (e : Nat) :
    scanBlock true bits o (bl t L m) i e = ub .misaligned := by
  unfold scanBlock
  rw [show (bl t L m - 1) / 64 = (bl t L m - 1) / 64 - 1 + 1 by omega]
  unfold wordLoop
  rw [load8_mis (by intro h; rcases h with h | h; cases h; exact ho h)]
  rfl

end MRS.Mran
