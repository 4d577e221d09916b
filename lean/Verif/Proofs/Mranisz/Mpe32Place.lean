import Verif.Proofs.Mranisz.Mpe32Super

/-! # 32-bit compressed rank with pairs left out: reading a superblock -/

set_option autoImplicit false

namespace MRS.Mran
open Outcome Spec Poppy

variable {ty : MpeType} {t : Vec Byte} {f : Nat → Byte}

/-! ## Ranks -/

theorem dvM32_eq {i j : Nat} (h : i + j + 1 ≤ nblkM t) (hj : j < 15) :
    dvM32 t i j = T t (1024 * (i + j + 1)) - T t (1024 * i) := by
  unfold dvM32 tvM32 tvM
  rw [if_pos (by omega), if_pos (by omega)]
  have h1 := T_mono t (show 1024 * i ≤ 1024 * (i + j + 1) by omega)
  have h2 := T_diff t (1024 * i) (1024 * (j + 1))
  rw [show 1024 * i + 1024 * (j + 1) = 1024 * (i + j + 1) by omega] at h2
  unfold sub32
  simp only [W32]
  omega

theorem dvM32_lt {i j : Nat} (h : i + j + 1 ≤ nblkM t) (hj : j < 15) :
    dvM32 t i j < 65536 := by
  rw [dvM32_eq h hj]
  have := T_diff t (1024 * i) (1024 * (j + 1))
  rw [show 1024 * i + 1024 * (j + 1) = 1024 * (i + j + 1) by omega] at this
  omega

theorem fieldM32 {i : Nat} {b : Vec Nat} (hb : BucketM32 ty t f i b)
    {j : Nat} (hj : j < 15) (h : i + j ≤ nblkM t) :
    b.f (j / 2 + 1) < 2 ^ 32 ∧ b.f (j / 2 + 1) / 2 ^ (16 * (j % 2)) % 65536 = dvM32 t i j % 65536 := by
  rw [hb.mid _ (by omega)]
  refine ⟨acc_lt32 _ _, ?_⟩
  rw [acc_slot32 (fun s => dvM32 t i (2 * (j / 2) + s)) (by omega) (by omega)
    (fun k hk => dvM32_lt (by omega) (by omega))]
  show dvM32 t i (2 * (j / 2) + j % 2) % _ = _
  rw [show 2 * (j / 2) + j % 2 = j by omega]

/-! ## Offsets -/

theorem oM_lt32 (ty : MpeType) (hlen : t.len ≤ 2 ^ 32 - 128) (k : Nat) : oM ty t k < 2 ^ 32 := by
  have h1 := eo_le ty t (min k (nblkM t - 1))
  have h2 := nblkM_lt32 hlen
  unfold oM
  omega

theorem ovM32_eq (hlen : t.len ≤ 2 ^ 32 - 128) {i j : Nat} (hj : j < 15) :
    ∃ d, d ≤ 1920 ∧ oM ty t (i + j + 1) = oM ty t i + d ∧
      ovM32 ty t f i j = d + 16384 * mkM ty (fv ty t f (i + j + 1)) := by
  have h1 := oM_mono ty t (show i ≤ i + j + 1 by omega)
  have h2 := oM_diff ty t i (j + 1)
  have h3 := oM_lt32 ty hlen (i + j + 1)
  have h4 := mkM_lt ty (fv ty t f (i + j + 1))
  rw [← Nat.add_assoc] at h2
  refine ⟨oM ty t (i + j + 1) - oM ty t i, by omega, by omega, ?_⟩
  unfold ovM32
  rw [markOf_eq]
  unfold add32 sub32
  simp only [W32]
  omega

theorem markFirst32_eq (ty : MpeType) (b : Byte) : markFirst32 ty b = 2 ^ 28 * mfM ty b := by
  unfold markFirst32 mfM shl32
  simp only [W32]
  (repeat' split) <;> omega

/-- The entry of block `16 * S + n`, `n > 0`. -/
theorem entryM32 {i : Nat} {b : Vec Nat} (hb : BucketM32 ty t f i b) (hlen : t.len ≤ 2 ^ 32 - 128) {n : Nat} (hn0 : 0 < n)
    (hn : n < 16) (h : i + n ≤ nblkM t) :
    ∃ y, b.f (9 + (n + 1) / 2) < 2 ^ 32 ∧ b.f (9 + (n + 1) / 2) / 2 ^ (16 * ((n + 1) % 2)) % 65536 = y ∧
      oM ty t (i + n) = oM ty t i + y % 4096 ∧ (ty = .mpe1 → y % 16384 < 4096) ∧
      (ty = .mpe1 → y / 32768 = mkM ty (fv ty t f (i + n)) % 4 / 2) ∧
      (ty ≠ .mpe1 → y / 16384 = mkM ty (fv ty t f (i + n)) % 4) := by
  refine ⟨_, ?_, rfl, ?_⟩
  · by_cases hm : n ≤ 2
    · rw [show 9 + (n + 1) / 2 = 10 by omega, hb.o1]
      exact Nat.mod_lt _ (by decide)
    · have := hb.offs ((n + 1) / 2 - 1) (by omega) (by omega)
      rw [show (n + 1) / 2 - 1 + 10 = 9 + (n + 1) / 2 by omega] at this
      rw [this]
      exact acc_lt32 _ _
  · obtain ⟨d, hd1, hd2, hd3⟩ := ovM32_eq (ty := ty) (f := f) hlen (i := i) (j := n - 1) (by omega)
    rw [show i + (n - 1) + 1 = i + n by omega] at hd2 hd3
    have hmk := mkM_lt ty (fv ty t f (i + n))
    have hlow : ∀ k, k < n - 1 → ovM32 ty t f i k < 65536 := by
      intro k hk
      obtain ⟨d', q1, q2, q3⟩ := ovM32_eq (ty := ty) (f := f) hlen (i := i) (j := k) (by omega)
      have := mkM_small (ty := ty) (f := f) (t := t) (k := i + k + 1) (by omega)
      omega
    have e1 : ty = .mpe1 → mkM ty (fv ty t f (i + n)) = 0 ∨ mkM ty (fv ty t f (i + n)) = 2 := by
      intro h; rw [h]; exact mkM_mpe1 _
    generalize hmkv : mkM ty (fv ty t f (i + n)) = mk at *
    by_cases hm : n ≤ 2
    · rw [show 9 + (n + 1) / 2 = 10 by omega, hb.o1, markFirst32_eq]
      have hsm := mfM_small (ty := ty) (f := f) (t := t) (k := i) (by omega)
      generalize mfM ty (fv ty t f i) = a at *
      have hac := acc_slot32 (fun s => ovM32 ty t f i s) (n := 2) (s := n - 1) (by omega) (by omega) hlow
      have hA := acc_lt32 (fun s => ovM32 ty t f i s) 2
      generalize acc32 (fun s => ovM32 ty t f i s) 2 = A at *
      simp only [hd3] at hac
      have hn2 : n = 1 ∨ n = 2 := by omega
      unfold add32
      simp only [W32]
      rcases hn2 with rfl | rfl
      · simp only [Nat.reduceMul, Nat.reduceAdd, Nat.reduceSub, Nat.reduceMod, Nat.reducePow] at hac ⊢
        refine ⟨by omega, fun h => ?_, fun h => ?_, fun h => ?_⟩
        · have := e1 h; omega
        · have := e1 h; omega
        · omega
      · simp only [Nat.reduceMul, Nat.reduceAdd, Nat.reduceSub, Nat.reduceMod, Nat.reducePow] at hac hA ⊢
        have hsm' : a ≤ 4 := by omega
        have hw : (A + 268435456 * a) % 4294967296 / 65536 % 65536 =
            (d + 16384 * mk + 4096 * a) % 65536 := by omega
        rw [hw]
        rcases hsm with ⟨hty, ha⟩ | ⟨hty, ha⟩
        · have := e1 hty
          refine ⟨by omega, fun _ => by omega, fun _ => by omega, fun h => absurd hty h⟩
        · exact ⟨by omega, fun h => absurd h hty, fun h => absurd h hty, fun _ => by omega⟩
    · have hmid := hb.offs ((n + 1) / 2 - 1) (by omega) (by omega)
      rw [show (n + 1) / 2 - 1 + 10 = 9 + (n + 1) / 2 by omega] at hmid
      rw [hmid]
      have hac := acc_slot32 (fun s => ovM32 ty t f i (2 * ((n + 1) / 2 - 1) + s)) (n := min 2 (15 - 2 * ((n + 1) / 2 - 1)))
        (s := (n + 1) % 2) (by omega) (by omega) (fun k hk => hlow _ (by omega))
      rw [hac]
      rw [show 2 * ((n + 1) / 2 - 1) + (n + 1) % 2 = n - 1 by omega, hd3]
      refine ⟨by omega, fun h => ?_, fun h => ?_, fun h => ?_⟩
      · have := e1 h; omega
      · have := e1 h; omega
      · omega

/-- The entry of the first block of a superblock. -/
theorem entryM0_32 {i : Nat} {b : Vec Nat} (hb : BucketM32 ty t f i b) (hlen : t.len ≤ 2 ^ 32 - 128) :
    (ty = .mpe1 → b.f 10 / 2 ^ 30 % 2 = mfM ty (fv ty t f i) / 4 % 2) ∧
    (ty ≠ .mpe1 → b.f 10 / 2 ^ 28 % 4 = mfM ty (fv ty t f i) % 4) := by
  rw [hb.o1, markFirst32_eq]
  have hA : acc32 (fun s => ovM32 ty t f i s) 2 = (ovM32 ty t f i 0 + ovM32 ty t f i 1 * 65536) % 4294967296 := by
    have a1 : acc32 (fun s => ovM32 ty t f i s) 1 = ovM32 ty t f i 0 % W32 := by simp [acc32, add32, shl32]
    have a2 : acc32 (fun s => ovM32 ty t f i s) 2 =
      (acc32 (fun s => ovM32 ty t f i s) 1 + ovM32 ty t f i 1 * 65536 % W32) % W32 := rfl
    simp only [W32] at a1 a2
    omega
  rw [hA]
  obtain ⟨d0, p0, -, r0⟩ := ovM32_eq (ty := ty) (f := f) hlen (i := i) (j := 0) (by omega)
  obtain ⟨d1, p1, -, r1⟩ := ovM32_eq (ty := ty) (f := f) hlen (i := i) (j := 1) (by omega)
  rw [r0, r1]
  have m0 := mkM_lt ty (fv ty t f (i + 0 + 1))
  have m1 := mkM_lt ty (fv ty t f (i + 1 + 1))
  have h1 : ty = .mpe1 → mkM ty (fv ty t f (i + 1 + 1)) = 0 ∨ mkM ty (fv ty t f (i + 1 + 1)) = 2 := by
    intro h; rw [h]; exact mkM_mpe1 _
  have hmf : ty = .mpe1 → mfM ty (fv ty t f i) = 0 ∨ mfM ty (fv ty t f i) = 4 := by
    intro h; unfold mfM; rw [if_pos h]; split <;> omega
  unfold add32
  simp only [W32]
  generalize mkM ty (fv ty t f (i + 0 + 1)) = k0 at *
  generalize mkM ty (fv ty t f (i + 1 + 1)) = k1 at *
  generalize mfM ty (fv ty t f i) = a at *
  obtain ⟨B, hBlt, hB⟩ : ∃ B, B < 268435456 ∧ d0 + 16384 * k0 + (d1 + 16384 * k1) * 65536 = B + 1073741824 * k1 :=
    ⟨d0 + 16384 * k0 + d1 * 65536, by omega, by omega⟩
  rw [hB]
  simp only [Nat.reducePow]
  clear hB
  constructor
  · intro h
    have h1' := h1 h
    have hmf' := hmf h
    omega
  · intro h
    omega

/-- Where block `st` is stored, and how. -/
theorem placeM32 {ranks : Vec (Option Nat)} {st : Nat} {b : Vec Nat} (hb : BucketM32 ty t f (16 * (st / 16)) b)
    (hr : ∀ j, j < 18 → ranks.f (18 * (st / 16) + j) = some (b.f j)) (hrl : 18 * (st / 16) + 18 ≤ ranks.len)
    (hlen : t.len ≤ 2 ^ 32 - 128) (hst : st ≤ nblkM t) :
    ∃ k, k < 4 ∧ (st < nblkM t → ¬ HomM t st → k = kd ty t st) ∧
      (if ty = .mpe1 then place1_32 ranks (18 * (st / 16)) (st % 16) else place2_32 ranks (18 * (st / 16)) (st % 16)) =
        ok (oM ty t st, k) := by
  have hfv : st < nblkM t → ¬ HomM t st → fv ty t f st = BitVec.ofNat 8 (kd ty t st) := by
    intro h1 h2; unfold fv; rw [if_pos h1, if_neg h2]
  have hkl := kd_lt ty t st
  have hz : BitVec.ofNat 8 (kd ty t st) = 0#8 ↔ kd ty t st = 0 := by
    constructor
    · intro h
      have := congrArg BitVec.toNat h
      rw [BitVec.toNat_ofNat] at this
      simp at this
      omega
    · intro h; rw [h]
  have hm1 : ty = .mpe1 → kd ty t st = 0 ∨ kd ty t st = 3 := by intro h; rw [h]; exact kd_mpe1 t st
  have hmod : 16 * (st / 16) + st % 16 = st := by omega
  have hn16 : st % 16 < 16 := Nat.mod_lt _ (by decide)
  generalize hS : st / 16 = S at *
  generalize hN : st % 16 = n at *
  have g9 := hr 9 (by omega)
  have hoff := hb.off
  by_cases h0 : n > 0
  · obtain ⟨y, hw, hy, ho, hd', hf1, hf2⟩ := entryM32 hb hlen h0 hn16 (by omega)
    have gw := hr (9 + (n + 1) / 2) (by omega)
    rw [hmod] at ho hf1 hf2
    generalize b.f (9 + (n + 1) / 2) = w at *
    have hyl : y < 65536 := by rw [← hy]; exact Nat.mod_lt _ (by decide)
    have h2 : n % 2 = 1 ∨ n % 2 = 0 := by omega
    by_cases hty : ty = .mpe1
    · rw [if_pos hty]
      have hd'' := hd' hty
      have hf1' := hf1 hty
      unfold place1_32
      rw [uget_ok (by omega) g9, ok_bind, hoff, if_pos h0, uget_ok (by omega) gw, ok_bind, ok_bind]
      have hval : entry1_32 w n = (y % 16384, y / 32768) := by
        unfold entry1_32
        rcases h2 with h2 | h2
        · rw [if_pos h2]
          simp only [and14, and1', Nat.shiftRight_eq_div_pow]
          rw [show (n + 1) % 2 = 0 by omega] at hy
          simp only [Nat.reduceMul, Nat.reducePow] at hy hw ⊢
          congr 1 <;> omega
        · rw [if_neg (by omega)]
          simp only [and14, Nat.shiftRight_eq_div_pow]
          rw [show (n + 1) % 2 = 1 by omega] at hy
          simp only [Nat.reduceMul, Nat.reducePow] at hy hw ⊢
          congr 1 <;> omega
      rw [hval]
      simp only []
      refine ⟨if y / 32768 ≠ 0 then 3 else 0, by split <;> omega, ?_, ?_⟩
      · intro h1 h2
        rw [hf1', hfv h1 h2]
        have hk := hm1 hty
        unfold mkM
        rw [if_pos hty]
        rcases hk with hk | hk
        · rw [if_neg (show ¬ (BitVec.ofNat 8 (kd ty t st) ≠ 0#8) by exact fun h => h (hz.2 hk)), hk]; rfl
        · rw [if_pos (show BitVec.ofNat 8 (kd ty t st) ≠ 0#8 by rw [Ne, hz]; omega), hk]; rfl
      · congr 2; omega
    · rw [if_neg hty]
      have hf2' := hf2 hty
      unfold place2_32
      rw [uget_ok (by omega) g9, ok_bind, hoff, if_pos h0, uget_ok (by omega) gw, ok_bind, ok_bind]
      have hval : entry2_32 w n = (y % 4096, y / 16384) := by
        unfold entry2_32
        rcases h2 with h2 | h2
        · rw [if_pos h2]
          simp only [and12, and3', Nat.shiftRight_eq_div_pow]
          rw [show (n + 1) % 2 = 0 by omega] at hy
          simp only [Nat.reduceMul, Nat.reducePow] at hy hw ⊢
          congr 1 <;> omega
        · rw [if_neg (by omega)]
          simp only [and12, Nat.shiftRight_eq_div_pow]
          rw [show (n + 1) % 2 = 1 by omega] at hy
          simp only [Nat.reduceMul, Nat.reducePow] at hy hw ⊢
          congr 1 <;> omega
      rw [hval]
      simp only []
      refine ⟨y / 16384, by omega, ?_, ?_⟩
      · intro h1 h2
        rw [hf2', hfv h1 h2]
        unfold mkM
        rw [if_neg hty, BitVec.toNat_ofNat]
        omega
      · rw [ho]
  · obtain ⟨q1, q2⟩ := entryM0_32 hb hlen
    have gw := hr 10 (by omega)
    have hS' : 16 * S = st := by omega
    rw [hS'] at q1 q2 hoff
    by_cases hty : ty = .mpe1
    · rw [if_pos hty]
      unfold place1_32
      rw [uget_ok (by omega) g9, ok_bind, hoff, if_neg h0, uget_ok (by omega) gw, ok_bind, ok_bind]
      simp only [and1', Nat.shiftRight_eq_div_pow]
      have := q1 hty
      rw [this]
      refine ⟨if mfM ty (fv ty t f st) / 4 % 2 ≠ 0 then 3 else 0, by split <;> omega, ?_, by rw [Nat.add_zero]⟩
      intro h1 h2
      rw [hfv h1 h2]
      have hk := hm1 hty
      unfold mfM
      rw [if_pos hty]
      rcases hk with hk | hk
      · rw [if_neg (show ¬ (BitVec.ofNat 8 (kd ty t st) ≠ 0#8) by exact fun h => h (hz.2 hk)), hk]; rfl
      · rw [if_pos (show BitVec.ofNat 8 (kd ty t st) ≠ 0#8 by rw [Ne, hz]; omega), hk]; rfl
    · rw [if_neg hty]
      unfold place2_32
      rw [uget_ok (by omega) g9, ok_bind, hoff, if_neg h0, uget_ok (by omega) gw, ok_bind, ok_bind]
      simp only [and3', Nat.shiftRight_eq_div_pow]
      have := q2 hty
      rw [this]
      refine ⟨mfM ty (fv ty t f st) % 4, by omega, ?_, by rw [Nat.add_zero]⟩
      intro h1 h2
      rw [hfv h1 h2]
      unfold mfM
      rw [if_neg hty, BitVec.toNat_ofNat]
      omega

end MRS.Mran
