import Verif.Proofs.Mranisz.MpeSuper

/-! # Compressed rank with pairs left out: reading a superblock -/

set_option autoImplicit false

namespace MRS.Mran
open Outcome Spec Poppy

variable {ty : MpeType} {t : Vec Byte} {f : Nat → Byte}

theorem and1' (w : Nat) : w &&& 1 = w % 2 := Nat.and_one_is_mod w
theorem and3' (w : Nat) : w &&& 3 = w % 4 := by
  rw [show (3 : Nat) = 2 ^ 2 - 1 by rfl, Nat.and_two_pow_sub_one_eq_mod]
theorem and12 (w : Nat) : w &&& 0x0FFF = w % 4096 := by
  rw [show (0x0FFF : Nat) = 2 ^ 12 - 1 by rfl, Nat.and_two_pow_sub_one_eq_mod]
theorem and14 (w : Nat) : w &&& 0x3FFF = w % 16384 := by
  rw [show (0x3FFF : Nat) = 2 ^ 14 - 1 by rfl, Nat.and_two_pow_sub_one_eq_mod]

theorem if_two (p : Prop) [Decidable p] (a b : Nat) : (if p then a else b) = b ∨ (if p then a else b) = a := by
  by_cases h : p
  · right; rw [if_pos h]
  · left; rw [if_neg h]

/-! ## Ranks -/

theorem dvM_eq {i j : Nat} (hlen : t.len < 2 ^ 60) (h : i + j + 1 ≤ nblkM t) :
    dvM t i j = T t (1024 * (i + j + 1)) - T t (1024 * i) := by
  unfold dvM tvM
  rw [if_pos (by omega), if_pos (by omega)]
  have h1 := T_le t (1024 * (i + j + 1))
  have h2 := nblkM_le t
  exact sub64_eq (T_mono t (by omega)) (by simp only [W64]; omega)

theorem dvM_lt {i j : Nat} (hlen : t.len < 2 ^ 60) (h : i + j + 1 ≤ nblkM t) (hj : j < 15) :
    dvM t i j < 65536 := by
  rw [dvM_eq hlen h]
  have := T_diff t (1024 * i) (1024 * (j + 1))
  rw [show 1024 * i + 1024 * (j + 1) = 1024 * (i + j + 1) by omega] at this
  omega

theorem fieldM {i : Nat} {b : Vec Nat} (hb : BucketM ty t f i b)
    (hlen : t.len < 2 ^ 60) {j : Nat} (hj : j < 15) (h : i + j ≤ nblkM t) :
    b.f (j / 4 + 1) < 2 ^ 64 ∧ b.f (j / 4 + 1) / 2 ^ (16 * (j % 4)) % 65536 = dvM t i j % 65536 := by
  rw [hb.mid _ (by omega)]
  refine ⟨acc_lt _ _, ?_⟩
  rw [acc_slot (fun s => dvM t i (4 * (j / 4) + s)) (by omega) (by omega)
    (fun k hk => dvM_lt hlen (by omega) (by omega))]
  show dvM t i (4 * (j / 4) + j % 4) % _ = _
  rw [show 4 * (j / 4) + j % 4 = j by omega]

/-! ## Offsets -/

/-- The bits that hold the kind of a block. -/
def mkM (ty : MpeType) (b : Byte) : Nat := if ty = .mpe1 then (if b ≠ 0#8 then 2 else 0) else b.toNat

theorem markOf_eq (ty : MpeType) (b : Byte) : markOf ty b = 16384 * mkM ty b := by
  unfold markOf mkM
  (repeat' split) <;> omega

theorem mkM_lt (ty : MpeType) (b : Byte) : mkM ty b < 256 := by
  have := b.isLt
  unfold mkM
  (repeat' split) <;> omega

theorem oM_mono (ty : MpeType) (t : Vec Byte) {a b : Nat} (h : a ≤ b) : oM ty t a ≤ oM ty t b :=
  eo_mono ty t (by omega)

theorem oM_diff (ty : MpeType) (t : Vec Byte) (a d : Nat) : oM ty t (a + d) ≤ oM ty t a + 128 * d := by
  unfold oM
  have h := eo_diff ty t (min a (nblkM t - 1)) (min (a + d) (nblkM t - 1) - min a (nblkM t - 1))
  rw [show min a (nblkM t - 1) + (min (a + d) (nblkM t - 1) - min a (nblkM t - 1)) = min (a + d) (nblkM t - 1) by omega] at h
  omega

theorem oM_lt (ty : MpeType) (hlen : t.len < 2 ^ 60) (k : Nat) : oM ty t k < 2 ^ 62 := by
  have h1 := eo_le ty t (min k (nblkM t - 1))
  have h2 := nblkM_le t
  unfold oM
  omega

theorem ovM_eq (hlen : t.len < 2 ^ 60) {i j : Nat} (hj : j < 15) :
    ∃ d, d ≤ 1920 ∧ oM ty t (i + j + 1) = oM ty t i + d ∧
      ovM ty t f i j = d + 16384 * mkM ty (fv ty t f (i + j + 1)) := by
  have h1 := oM_mono ty t (show i ≤ i + j + 1 by omega)
  have h2 := oM_diff ty t i (j + 1)
  have h3 := oM_lt ty hlen (i + j + 1)
  have h4 := mkM_lt ty (fv ty t f (i + j + 1))
  rw [← Nat.add_assoc] at h2
  refine ⟨oM ty t (i + j + 1) - oM ty t i, by omega, by omega, ?_⟩
  unfold ovM
  rw [markOf_eq, sub64_eq h1 (by simp only [W64]; omega)]
  unfold add64
  simp only [W64]
  omega

theorem mkM_small {k : Nat} (h : k < nblkM t) : mkM ty (fv ty t f k) < 4 := by
  have := kd_lt ty t k
  unfold fv
  rw [if_pos h]
  unfold mkM
  by_cases hty : ty = .mpe1
  · rw [if_pos hty]
    rcases if_two ((if HomM t k then 0#8 else BitVec.ofNat 8 (kd ty t k)) ≠ 0#8) 2 0 with h | h <;> omega
  · rw [if_neg hty]
    split
    · decide
    · rw [BitVec.toNat_ofNat]; omega

/-- Bits of the word of the superblock that hold the entry of the first block. -/
def mfM (ty : MpeType) (b : Byte) : Nat := if ty = .mpe1 then (if b ≠ 0#8 then 4 else 0) else b.toNat % 16

theorem markFirst_eq (ty : MpeType) (b : Byte) : markFirst ty b = 2 ^ 60 * mfM ty b := by
  unfold markFirst mfM shl64
  simp only [W64]
  (repeat' split) <;> omega

theorem mfM_small {k : Nat} (h : k < nblkM t) : (ty = .mpe1 ∧ (mfM ty (fv ty t f k) = 0 ∨ mfM ty (fv ty t f k) = 4)) ∨
    (ty ≠ .mpe1 ∧ mfM ty (fv ty t f k) < 4) := by
  have := kd_lt ty t k
  unfold fv
  rw [if_pos h]
  unfold mfM
  by_cases hty : ty = .mpe1
  · left
    refine ⟨hty, ?_⟩
    rw [if_pos hty]
    exact if_two _ 4 0
  · right
    refine ⟨hty, ?_⟩
    rw [if_neg hty]
    split
    · decide
    · rw [BitVec.toNat_ofNat]; omega

theorem mkM_mpe1 (b : Byte) : mkM .mpe1 b = 0 ∨ mkM .mpe1 b = 2 := by
  unfold mkM
  rw [if_pos rfl]
  split <;> omega

/-- The entry of block `16 * S + n`, `n > 0`. -/
theorem entryM {i : Nat} {b : Vec Nat} (hb : BucketM ty t f i b) (hlen : t.len < 2 ^ 60) {n : Nat} (hn0 : 0 < n)
    (hn : n < 16) (h : i + n ≤ nblkM t) :
    ∃ y, b.f (5 + (n + 3) / 4) < 2 ^ 64 ∧ b.f (5 + (n + 3) / 4) / 2 ^ (16 * ((n + 3) % 4)) % 65536 = y ∧
      oM ty t (i + n) = oM ty t i + y % 4096 ∧ (ty = .mpe1 → y % 16384 < 4096) ∧
      (ty = .mpe1 → y / 32768 = mkM ty (fv ty t f (i + n)) % 4 / 2) ∧
      (ty ≠ .mpe1 → y / 16384 = mkM ty (fv ty t f (i + n)) % 4) := by
  refine ⟨_, ?_, rfl, ?_⟩
  · by_cases hm : n ≤ 4
    · rw [show 5 + (n + 3) / 4 = 6 by omega, hb.o1]
      exact Nat.mod_lt _ (by decide)
    · have := hb.offs ((n + 3) / 4 - 1) (by omega) (by omega)
      rw [show (n + 3) / 4 - 1 + 6 = 5 + (n + 3) / 4 by omega] at this
      rw [this]
      exact acc_lt _ _
  · obtain ⟨d, hd1, hd2, hd3⟩ := ovM_eq (ty := ty) (f := f) hlen (i := i) (j := n - 1) (by omega)
    rw [show i + (n - 1) + 1 = i + n by omega] at hd2 hd3
    have hmk := mkM_lt ty (fv ty t f (i + n))
    have hlow : ∀ k, k < n - 1 → ovM ty t f i k < 65536 := by
      intro k hk
      obtain ⟨d', q1, q2, q3⟩ := ovM_eq (ty := ty) (f := f) hlen (i := i) (j := k) (by omega)
      have := mkM_small (ty := ty) (f := f) (t := t) (k := i + k + 1) (by omega)
      omega
    have e1 : ty = .mpe1 → mkM ty (fv ty t f (i + n)) = 0 ∨ mkM ty (fv ty t f (i + n)) = 2 := by
      intro h; rw [h]; exact mkM_mpe1 _
    generalize hmkv : mkM ty (fv ty t f (i + n)) = mk at *
    by_cases hm : n ≤ 4
    · rw [show 5 + (n + 3) / 4 = 6 by omega, hb.o1, markFirst_eq]
      have hsm := mfM_small (ty := ty) (f := f) (t := t) (k := i) (by omega)
      generalize mfM ty (fv ty t f i) = a at *
      have hac := acc_slot (fun s => ovM ty t f i s) (n := 4) (s := n - 1) (by omega) (by omega) hlow
      have hA := acc_lt (fun s => ovM ty t f i s) 4
      generalize acc (fun s => ovM ty t f i s) 4 = A at *
      simp only [hd3] at hac
      have hn4 : n = 1 ∨ n = 2 ∨ n = 3 ∨ n = 4 := by omega
      unfold add64
      simp only [W64]
      rcases hn4 with rfl | rfl | rfl | rfl
      · simp only [Nat.reduceMul, Nat.reduceAdd, Nat.reduceSub, Nat.reduceMod, Nat.reducePow] at hac ⊢
        refine ⟨by omega, fun h => ?_, fun h => ?_, fun h => ?_⟩
        · have := e1 h; omega
        · have := e1 h; omega
        · omega
      · simp only [Nat.reduceMul, Nat.reduceAdd, Nat.reduceSub, Nat.reduceMod, Nat.reducePow] at hac ⊢
        refine ⟨by omega, fun h => ?_, fun h => ?_, fun h => ?_⟩
        · have := e1 h; omega
        · have := e1 h; omega
        · omega
      · simp only [Nat.reduceMul, Nat.reduceAdd, Nat.reduceSub, Nat.reduceMod, Nat.reducePow] at hac ⊢
        refine ⟨by omega, fun h => ?_, fun h => ?_, fun h => ?_⟩
        · have := e1 h; omega
        · have := e1 h; omega
        · omega
      · simp only [Nat.reduceMul, Nat.reduceAdd, Nat.reduceSub, Nat.reduceMod, Nat.reducePow] at hac hA ⊢
        have hsm' : a ≤ 4 := by omega
        have hw : (A + 1152921504606846976 * a) % 18446744073709551616 / 281474976710656 % 65536 =
            (d + 16384 * mk + 4096 * a) % 65536 := by omega
        rw [hw]
        rcases hsm with ⟨hty, ha⟩ | ⟨hty, ha⟩
        · have := e1 hty
          refine ⟨by omega, fun _ => by omega, fun _ => by omega, fun h => absurd hty h⟩
        · exact ⟨by omega, fun h => absurd h hty, fun h => absurd h hty, fun _ => by omega⟩
    · have hmid := hb.offs ((n + 3) / 4 - 1) (by omega) (by omega)
      rw [show (n + 3) / 4 - 1 + 6 = 5 + (n + 3) / 4 by omega] at hmid
      rw [hmid]
      have hac := acc_slot (fun s => ovM ty t f i (4 * ((n + 3) / 4 - 1) + s)) (n := min 4 (15 - 4 * ((n + 3) / 4 - 1)))
        (s := (n + 3) % 4) (by omega) (by omega) (fun k hk => hlow _ (by omega))
      rw [hac]
      rw [show 4 * ((n + 3) / 4 - 1) + (n + 3) % 4 = n - 1 by omega, hd3]
      refine ⟨by omega, fun h => ?_, fun h => ?_, fun h => ?_⟩
      · have := e1 h; omega
      · have := e1 h; omega
      · omega

theorem pack4 {d0 d1 d2 d3 k0 k1 k2 : Nat} (p0 : d0 ≤ 1920) (p1 : d1 ≤ 1920) (p2 : d2 ≤ 1920) (p3 : d3 ≤ 1920)
    (m0 : k0 < 256) (m1 : k1 < 256) (m2 : k2 < 256) (k3 : Nat) :
    ∃ B, B < 1152921504606846976 ∧ d0 + 16384 * k0 + (d1 + 16384 * k1) * 65536 + (d2 + 16384 * k2) * 4294967296 +
      (d3 + 16384 * k3) * 281474976710656 = B + 4611686018427387904 * k3 := by
  refine ⟨d0 + 16384 * k0 + (d1 + 16384 * k1) * 65536 + (d2 + 16384 * k2) * 4294967296 + d3 * 281474976710656,
    by omega, ?_⟩
  rw [Nat.add_mul d3, ← Nat.add_assoc, Nat.mul_right_comm]

/-- The entry of the first block of a superblock. -/
theorem entryM0 {i : Nat} {b : Vec Nat} (hb : BucketM ty t f i b) (hlen : t.len < 2 ^ 60) :
    (ty = .mpe1 → b.f 6 / 2 ^ 62 % 2 = mfM ty (fv ty t f i) / 4 % 2) ∧
    (ty ≠ .mpe1 → b.f 6 / 2 ^ 60 % 4 = mfM ty (fv ty t f i) % 4) := by
  rw [hb.o1, markFirst_eq]
  have hA : acc (fun s => ovM ty t f i s) 4 = (ovM ty t f i 0 + ovM ty t f i 1 * 65536 +
      ovM ty t f i 2 * 4294967296 + ovM ty t f i 3 * 281474976710656) % 18446744073709551616 := by
    have a1 : acc (fun s => ovM ty t f i s) 1 = ovM ty t f i 0 % W64 := by simp [acc, add64, shl64]
    have a2 : acc (fun s => ovM ty t f i s) 2 = (acc (fun s => ovM ty t f i s) 1 + ovM ty t f i 1 * 65536 % W64) % W64 := rfl
    have a3 : acc (fun s => ovM ty t f i s) 3 =
      (acc (fun s => ovM ty t f i s) 2 + ovM ty t f i 2 * 4294967296 % W64) % W64 := rfl
    have a4 : acc (fun s => ovM ty t f i s) 4 =
      (acc (fun s => ovM ty t f i s) 3 + ovM ty t f i 3 * 281474976710656 % W64) % W64 := rfl
    simp only [W64] at a1 a2 a3 a4
    omega
  rw [hA]
  obtain ⟨d0, p0, -, r0⟩ := ovM_eq (ty := ty) (f := f) hlen (i := i) (j := 0) (by omega)
  obtain ⟨d1, p1, -, r1⟩ := ovM_eq (ty := ty) (f := f) hlen (i := i) (j := 1) (by omega)
  obtain ⟨d2, p2, -, r2⟩ := ovM_eq (ty := ty) (f := f) hlen (i := i) (j := 2) (by omega)
  obtain ⟨d3, p3, -, r3⟩ := ovM_eq (ty := ty) (f := f) hlen (i := i) (j := 3) (by omega)
  rw [r0, r1, r2, r3]
  have m0 := mkM_lt ty (fv ty t f (i + 0 + 1))
  have m1 := mkM_lt ty (fv ty t f (i + 1 + 1))
  have m2 := mkM_lt ty (fv ty t f (i + 2 + 1))
  have m3 := mkM_lt ty (fv ty t f (i + 3 + 1))
  have h3 : ty = .mpe1 → mkM ty (fv ty t f (i + 3 + 1)) = 0 ∨ mkM ty (fv ty t f (i + 3 + 1)) = 2 := by
    intro h; rw [h]; exact mkM_mpe1 _
  have hmf : ty = .mpe1 → mfM ty (fv ty t f i) = 0 ∨ mfM ty (fv ty t f i) = 4 := by
    intro h; unfold mfM; rw [if_pos h]; split <;> omega
  unfold add64
  simp only [W64]
  generalize mkM ty (fv ty t f (i + 0 + 1)) = k0 at *
  generalize mkM ty (fv ty t f (i + 1 + 1)) = k1 at *
  generalize mkM ty (fv ty t f (i + 2 + 1)) = k2 at *
  generalize mkM ty (fv ty t f (i + 3 + 1)) = k3 at *
  generalize mfM ty (fv ty t f i) = a at *
  obtain ⟨B, hBlt, hB⟩ := pack4 p0 p1 p2 p3 m0 m1 m2 k3
  rw [hB]
  simp only [Nat.reducePow]
  clear hB
  constructor
  · intro h
    have h3' := h3 h
    have hmf' := hmf h
    omega
  · intro h
    omega

/-- Where block `st` is stored, and how. -/
theorem placeM {ranks : Vec (Option Nat)} {st : Nat} {b : Vec Nat} (hb : BucketM ty t f (16 * (st / 16)) b)
    (hr : ∀ j, j < 10 → ranks.f (10 * (st / 16) + j) = some (b.f j)) (hrl : 10 * (st / 16) + 10 ≤ ranks.len)
    (hlen : t.len < 2 ^ 60) (hst : st ≤ nblkM t) :
    ∃ k, k < 4 ∧ (st < nblkM t → ¬ HomM t st → k = kd ty t st) ∧
      (if ty = .mpe1 then place1 ranks (10 * (st / 16)) (st % 16) else place2 ranks (10 * (st / 16)) (st % 16)) =
        ok (oM ty t st, k) := by
  have hfv : st < nblkM t → ¬ HomM t st → fv ty t f st = BitVec.ofNat 8 (kd ty t st) := by
    intro h1 h2; unfold fv; rw [if_pos h1, if_neg h2]
  have hkl := kd_lt ty t st
  have hz : BitVec.ofNat 8 (kd ty t st) = 0#8 ↔ kd ty t st = 0 := by
    constructor
    · intro h
      have := congrArg BitVec.toNat h
      rw [BitVec.toNat_ofNat] at this
      simp at this
      omega
    · intro h; rw [h]
  have hm1 : ty = .mpe1 → kd ty t st = 0 ∨ kd ty t st = 3 := by intro h; rw [h]; exact kd_mpe1 t st
  have hmod : 16 * (st / 16) + st % 16 = st := by omega
  have hn16 : st % 16 < 16 := Nat.mod_lt _ (by decide)
  generalize hS : st / 16 = S at *
  generalize hN : st % 16 = n at *
  have g5 := hr 5 (by omega)
  have hoff := hb.off
  by_cases h0 : n > 0
  · obtain ⟨y, hw, hy, ho, hd', hf1, hf2⟩ := entryM hb hlen h0 hn16 (by omega)
    have gw := hr (5 + (n + 3) / 4) (by omega)
    rw [hmod] at ho hf1 hf2
    generalize b.f (5 + (n + 3) / 4) = w at *
    have hyl : y < 65536 := by rw [← hy]; exact Nat.mod_lt _ (by decide)
    have h4 : n % 4 = 0 ∨ n % 4 = 1 ∨ n % 4 = 2 ∨ n % 4 = 3 := by omega
    by_cases hty : ty = .mpe1
    · rw [if_pos hty]
      have hd'' := hd' hty
      have hf1' := hf1 hty
      unfold place1
      rw [uget_ok (by omega) g5, ok_bind, hoff, if_pos h0, uget_ok (by omega) gw, ok_bind, ok_bind]
      have hval : entry1 w n = (y % 16384, y / 32768) := by
        unfold entry1
        rcases h4 with h4 | h4 | h4 | h4
        · rw [h4]
          simp only [and14, and1', Nat.shiftRight_eq_div_pow]
          rw [show (n + 3) % 4 = 3 by omega] at hy
          simp only [Nat.reduceMul, Nat.reducePow] at hy hw ⊢
          congr 1 <;> omega
        · rw [h4]
          simp only [and14, and1', Nat.shiftRight_eq_div_pow]
          rw [show (n + 3) % 4 = 0 by omega] at hy
          simp only [Nat.reduceMul, Nat.reducePow] at hy hw ⊢
          congr 1 <;> omega
        · rw [h4]
          simp only [and14, and1', Nat.shiftRight_eq_div_pow]
          rw [show (n + 3) % 4 = 1 by omega] at hy
          simp only [Nat.reduceMul, Nat.reducePow] at hy hw ⊢
          congr 1 <;> omega
        · rw [h4]
          simp only [and14, and1', Nat.shiftRight_eq_div_pow]
          rw [show (n + 3) % 4 = 2 by omega] at hy
          simp only [Nat.reduceMul, Nat.reducePow] at hy hw ⊢
          congr 1 <;> omega
      rw [hval]
      simp only []
      refine ⟨if y / 32768 ≠ 0 then 3 else 0, by split <;> omega, ?_, ?_⟩
      · intro h1 h2
        rw [hf1', hfv h1 h2]
        have hk := hm1 hty
        unfold mkM
        rw [if_pos hty]
        rcases hk with hk | hk
        · rw [if_neg (show ¬ (BitVec.ofNat 8 (kd ty t st) ≠ 0#8) by exact fun h => h (hz.2 hk)), hk]; rfl
        · rw [if_pos (show BitVec.ofNat 8 (kd ty t st) ≠ 0#8 by rw [Ne, hz]; omega), hk]; rfl
      · congr 2; omega
    · rw [if_neg hty]
      have hf2' := hf2 hty
      unfold place2
      rw [uget_ok (by omega) g5, ok_bind, hoff, if_pos h0, uget_ok (by omega) gw, ok_bind, ok_bind]
      have hval : entry2 w n = (y % 4096, y / 16384) := by
        unfold entry2
        rcases h4 with h4 | h4 | h4 | h4
        · rw [h4]
          simp only [and12, and3', Nat.shiftRight_eq_div_pow]
          rw [show (n + 3) % 4 = 3 by omega] at hy
          simp only [Nat.reduceMul, Nat.reducePow] at hy hw ⊢
          congr 1 <;> omega
        · rw [h4]
          simp only [and12, and3', Nat.shiftRight_eq_div_pow]
          rw [show (n + 3) % 4 = 0 by omega] at hy
          simp only [Nat.reduceMul, Nat.reducePow] at hy hw ⊢
          congr 1 <;> omega
        · rw [h4]
          simp only [and12, and3', Nat.shiftRight_eq_div_pow]
          rw [show (n + 3) % 4 = 1 by omega] at hy
          simp only [Nat.reduceMul, Nat.reducePow] at hy hw ⊢
          congr 1 <;> omega
        · rw [h4]
          simp only [and12, and3', Nat.shiftRight_eq_div_pow]
          rw [show (n + 3) % 4 = 2 by omega] at hy
          simp only [Nat.reduceMul, Nat.reducePow] at hy hw ⊢
          congr 1 <;> omega
      rw [hval]
      simp only []
      refine ⟨y / 16384, by omega, ?_, ?_⟩
      · intro h1 h2
        rw [hf2', hfv h1 h2]
        unfold mkM
        rw [if_neg hty, BitVec.toNat_ofNat]
        omega
      · rw [ho]
  · obtain ⟨q1, q2⟩ := entryM0 hb hlen
    have gw := hr 6 (by omega)
    have hS' : 16 * S = st := by omega
    rw [hS'] at q1 q2 hoff
    by_cases hty : ty = .mpe1
    · rw [if_pos hty]
      unfold place1
      rw [uget_ok (by omega) g5, ok_bind, hoff, if_neg h0, uget_ok (by omega) gw, ok_bind, ok_bind]
      simp only [and1', Nat.shiftRight_eq_div_pow]
      have := q1 hty
      rw [this]
      refine ⟨if mfM ty (fv ty t f st) / 4 % 2 ≠ 0 then 3 else 0, by split <;> omega, ?_, by rw [Nat.add_zero]⟩
      intro h1 h2
      rw [hfv h1 h2]
      have hk := hm1 hty
      unfold mfM
      rw [if_pos hty]
      rcases hk with hk | hk
      · rw [if_neg (show ¬ (BitVec.ofNat 8 (kd ty t st) ≠ 0#8) by exact fun h => h (hz.2 hk)), hk]; rfl
      · rw [if_pos (show BitVec.ofNat 8 (kd ty t st) ≠ 0#8 by rw [Ne, hz]; omega), hk]; rfl
    · rw [if_neg hty]
      unfold place2
      rw [uget_ok (by omega) g5, ok_bind, hoff, if_neg h0, uget_ok (by omega) gw, ok_bind, ok_bind]
      simp only [and3', Nat.shiftRight_eq_div_pow]
      have := q2 hty
      rw [this]
      refine ⟨mfM ty (fv ty t f st) % 4, by omega, ?_, by rw [Nat.add_zero]⟩
      intro h1 h2
      rw [hfv h1 h2]
      unfold mfM
      rw [if_neg hty, BitVec.toNat_ofNat]
      omega

end MRS.Mran
