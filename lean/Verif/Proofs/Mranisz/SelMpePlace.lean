import Verif.Proofs.Mranisz.SelMpeSuper

/-! # Compressed select with pairs left out: reading a superblock -/

set_option autoImplicit false

namespace MRS.Mran
open Outcome Spec Poppy

variable {ty : MpeType} {t : Vec Byte} {L TH : Nat} {f : Nat → Byte}

theorem and15 (w : Nat) : w &&& 0x7FFF = w % 32768 := by
  rw [show (0x7FFF : Nat) = 2 ^ 15 - 1 by rfl, Nat.and_two_pow_sub_one_eq_mod]

/-- The most bytes that a complete block may take for its offsets to be read back. -/
def lim (ty : MpeType) : Nat := if ty = .mpe1 then 2184 else 1023

/-- Every complete block but the last has at most that many bytes. -/
def FitsS (ty : MpeType) (t : Vec Byte) (L TH : Nat) : Prop := ∀ k, k + 1 < nbk t L → wdS ty t L TH k ≤ lim ty

theorem oS_mono {a b : Nat} (h : a ≤ b) : oS ty t L TH a ≤ oS ty t L TH b := offS_mono (by omega)

theorem oS_eq {k : Nat} (h : k < nbk t L) : oS ty t L TH k = offS ty t L TH k := by
  unfold oS; rw [Nat.min_eq_left (by omega)]

theorem offS_diff (hf : FitsS ty t L TH) (a : Nat) : ∀ d, a + d < nbk t L →
    offS ty t L TH (a + d) ≤ offS ty t L TH a + lim ty * d := by
  intro d
  induction d with
  | zero => intro _; exact Nat.le_refl _
  | succ d ih =>
    intro h
    have h1 := ih (by omega)
    have h2 := hf (a + d) (by omega)
    rw [← Nat.add_assoc, offS_succ, Nat.mul_add]
    omega

theorem oS_diff (hf : FitsS ty t L TH) (hn : 1 ≤ nbk t L) (a d : Nat) :
    oS ty t L TH (a + d) ≤ oS ty t L TH a + lim ty * (min (a + d) (nbk t L - 1) - min a (nbk t L - 1)) := by
  unfold oS
  have h := offS_diff hf (min a (nbk t L - 1)) (min (a + d) (nbk t L - 1) - min a (nbk t L - 1)) (by omega)
  rw [show min a (nbk t L - 1) + (min (a + d) (nbk t L - 1) - min a (nbk t L - 1)) = min (a + d) (nbk t L - 1) by omega] at h
  exact h

theorem oS_lt (ty : MpeType) (TH : Nat) (hL : 1 ≤ L) (hlen : t.len < 2 ^ 57) (k : Nat) : oS ty t L TH k < W64 := by
  by_cases ho : Odd t L TH
  · have h1 := odd_one hL ho
    unfold oS
    rw [show min k (nbk t L - 1) = 0 by omega]
    exact (show 0 < W64 by decide)
  · have h1 := room_enough hL ho
    have h2 := offS_eq (ty := ty) (t := t) (L := L) (TH := TH) (nbk t L)
    have h3 := bits1_le (t := t) (TH := TH) hL
    have h4 := tabs_le (ty := ty) (t := t) (TH := TH) hL _ (Nat.le_refl _)
    have h5 := en_le (t := t) (L := L) (m := nbk t L) hL (Nat.le_refl _)
    have h6 := offS_mono (ty := ty) (t := t) (L := L) (TH := TH) (show min k (nbk t L - 1) ≤ nbk t L by omega)
    unfold oS
    simp only [W64]
    omega

theorem ovS_eq (hL : 1 ≤ L) (hlen : t.len < 2 ^ 57) (hf : FitsS ty t L TH) (hn : 1 ≤ nbk t L) {i j : Nat} (hj : j < 15) :
    ∃ d, d ≤ lim ty * (min (i + j + 1) (nbk t L - 1) - min i (nbk t L - 1)) ∧
      oS ty t L TH (i + j + 1) = oS ty t L TH i + d ∧
      ovS ty t L TH f i j = d + 16384 * mkM ty (fvS ty t L TH f (i + j + 1)) := by
  have h1 := oS_mono (ty := ty) (t := t) (L := L) (TH := TH) (show i ≤ i + j + 1 by omega)
  have h2 := oS_diff hf hn i (j + 1)
  have h3 := oS_lt ty TH hL hlen (i + j + 1)
  have h4 := mkM_lt ty (fvS ty t L TH f (i + j + 1))
  rw [← Nat.add_assoc] at h2
  refine ⟨oS ty t L TH (i + j + 1) - oS ty t L TH i, by omega, by omega, ?_⟩
  have hb : lim ty * (min (i + j + 1) (nbk t L - 1) - min i (nbk t L - 1)) ≤ 2184 * 15 :=
    Nat.mul_le_mul (by unfold lim; split <;> omega) (by omega)
  unfold ovS
  rw [markOf_eq, sub64_eq h1 h3]
  unfold add64
  simp only [W64]
  omega

theorem mkM_smallS {k : Nat} (h : k + 1 < nbk t L) : mkM ty (fvS ty t L TH f k) < 4 := by
  have := ks_lt (ty := ty) (t := t) (L := L) (TH := TH) k
  unfold fvS
  rw [if_pos h]
  unfold mkM
  by_cases hty : ty = .mpe1
  · rw [if_pos hty]
    rcases if_two (BitVec.ofNat 8 (ks ty t L TH k) ≠ 0#8) 2 0 with h | h <;> omega
  · rw [if_neg hty, BitVec.toNat_ofNat]; omega

theorem mfM_smallS {k : Nat} (h : k + 1 < nbk t L) :
    (ty = .mpe1 ∧ (mfM ty (fvS ty t L TH f k) = 0 ∨ mfM ty (fvS ty t L TH f k) = 4)) ∨
    (ty ≠ .mpe1 ∧ mfM ty (fvS ty t L TH f k) < 4) := by
  have := ks_lt (ty := ty) (t := t) (L := L) (TH := TH) k
  unfold fvS
  rw [if_pos h]
  unfold mfM
  by_cases hty : ty = .mpe1
  · left
    refine ⟨hty, ?_⟩
    rw [if_pos hty]
    exact if_two _ 4 0
  · right
    refine ⟨hty, ?_⟩
    rw [if_neg hty, BitVec.toNat_ofNat]; omega

theorem lim_le (ty : MpeType) {c c' : Nat} (h : c ≤ c') : (ty = .mpe1 → lim ty * c ≤ 2184 * c') ∧
    (ty ≠ .mpe1 → lim ty * c ≤ 1023 * c') := by
  unfold lim
  refine ⟨fun h' => ?_, fun h' => ?_⟩
  · rw [if_pos h']; exact Nat.mul_le_mul_left _ h
  · rw [if_neg h']; exact Nat.mul_le_mul_left _ h

/-- The entry of block `i + n`, `n > 0`. -/
theorem entryS {i : Nat} {b : Vec Nat} (hb : BucketS ty t L TH f i b) (hL : 1 ≤ L) (hlen : t.len < 2 ^ 57)
    (hf : FitsS ty t L TH) {n : Nat} (hn0 : 0 < n) (hn : n < 16) (h : i + n < nbk t L) :
    ∃ y d, b.f (16 + (n + 3) / 4) < 2 ^ 64 ∧ b.f (16 + (n + 3) / 4) / 2 ^ (16 * ((n + 3) % 4)) % 65536 = y ∧
      oS ty t L TH (i + n) = oS ty t L TH i + d ∧
      (ty = .mpe1 → n ≤ 4 → y % 16384 = d) ∧ (ty = .mpe1 → 4 < n → y % 32768 = d) ∧
      (ty ≠ .mpe1 → n ≤ 4 → y % 4096 = d) ∧ (ty ≠ .mpe1 → 4 < n → y % 16384 = d) ∧
      (ty = .mpe1 → y / 32768 = mkM ty (fvS ty t L TH f (i + n)) % 4 / 2) ∧
      (ty ≠ .mpe1 → y / 16384 = mkM ty (fvS ty t L TH f (i + n)) % 4) := by
  obtain ⟨d, hd1, hd2, hd3⟩ := ovS_eq (ty := ty) (TH := TH) (f := f) hL hlen hf (by omega) (i := i) (j := n - 1) (by omega)
  rw [show i + (n - 1) + 1 = i + n by omega] at hd2 hd3
  refine ⟨_, d, ?_, rfl, hd2, ?_⟩
  · by_cases hm : n ≤ 4
    · rw [show 16 + (n + 3) / 4 = 17 by omega, hb.o1]
      exact Nat.mod_lt _ (by decide)
    · have := hb.offs ((n + 3) / 4 - 1) (by omega) (by omega)
      rw [show 17 + ((n + 3) / 4 - 1) = 16 + (n + 3) / 4 by omega] at this
      rw [this]
      exact acc_lt _ _
  · have hmk := mkM_lt ty (fvS ty t L TH f (i + n))
    have hlow : ∀ k, k < n - 1 → ovS ty t L TH f i k < 65536 := by
      intro k hk
      obtain ⟨d', q1, q2, q3⟩ := ovS_eq (ty := ty) (TH := TH) (f := f) hL hlen hf (by omega) (i := i) (j := k) (by omega)
      have hs := mkM_smallS (ty := ty) (f := f) (t := t) (L := L) (TH := TH) (k := i + k + 1) (by omega)
      have hl := lim_le ty (show min (i + k + 1) (nbk t L - 1) - min i (nbk t L - 1) ≤ 14 by omega)
      by_cases hty : ty = .mpe1
      · have h1 := hl.1 hty
        have h2 : mkM ty (fvS ty t L TH f (i + k + 1)) = 0 ∨ mkM ty (fvS ty t L TH f (i + k + 1)) = 2 := by
          rw [hty]; exact mkM_mpe1 _
        omega
      · have h1 := hl.2 hty
        omega
    have e1 : ty = .mpe1 → mkM ty (fvS ty t L TH f (i + n)) = 0 ∨ mkM ty (fvS ty t L TH f (i + n)) = 2 := by
      intro h; rw [h]; exact mkM_mpe1 _
    have hdl := lim_le ty (show min (i + (n - 1) + 1) (nbk t L - 1) - min i (nbk t L - 1) ≤ n by omega)
    have hA1 : ty = .mpe1 → d ≤ 2184 * n := fun h => Nat.le_trans hd1 (hdl.1 h)
    have hA2 : ty ≠ .mpe1 → d ≤ 1023 * n := fun h => Nat.le_trans hd1 (hdl.2 h)
    clear hdl hd1 hd2
    generalize hmkv : mkM ty (fvS ty t L TH f (i + n)) = mk at *
    by_cases hm : n ≤ 4
    · rw [show 16 + (n + 3) / 4 = 17 by omega, hb.o1, markFirst_eq]
      have hsm := mfM_smallS (ty := ty) (f := f) (t := t) (L := L) (TH := TH) (k := i) (by omega)
      generalize mfM ty (fvS ty t L TH f i) = a at *
      have hac := acc_slot (fun s => ovS ty t L TH f i s) (n := 4) (s := n - 1) (by omega) (by omega) hlow
      have hA := acc_lt (fun s => ovS ty t L TH f i s) 4
      generalize acc (fun s => ovS ty t L TH f i s) 4 = A at *
      simp only [hd3] at hac
      have hn4 : n = 1 ∨ n = 2 ∨ n = 3 ∨ n = 4 := by omega
      have hy : (add64 A (2 ^ 60 * a)) / 2 ^ (16 * ((n + 3) % 4)) % 65536 =
          (d + 16384 * mk + (if n = 4 then 4096 * a else 0)) % 65536 := by
        unfold add64
        simp only [W64]
        have ha : a ≤ 4 := by omega
        rcases hn4 with rfl | rfl | rfl | rfl
        · simp only [Nat.reduceMul, Nat.reduceAdd, Nat.reduceSub, Nat.reduceMod, Nat.reducePow] at hac hA ⊢
          rw [if_neg (by decide)]
          omega
        · simp only [Nat.reduceMul, Nat.reduceAdd, Nat.reduceSub, Nat.reduceMod, Nat.reducePow] at hac hA ⊢
          rw [if_neg (by decide)]
          omega
        · simp only [Nat.reduceMul, Nat.reduceAdd, Nat.reduceSub, Nat.reduceMod, Nat.reducePow] at hac hA ⊢
          rw [if_neg (by decide)]
          omega
        · simp only [Nat.reduceMul, Nat.reduceAdd, Nat.reduceSub, Nat.reduceMod, Nat.reducePow] at hac hA ⊢
          rw [if_pos trivial]
          omega
      rw [hy]
      clear hy hac hA hlow
      rcases hsm with ⟨hty, ha⟩ | ⟨hty, ha⟩
      · have h1 := e1 hty
        have h2 := hA1 hty
        refine ⟨fun _ _ => ?_, fun _ _ => by omega, fun h => absurd hty h, fun h => absurd hty h, fun _ => ?_, fun h => absurd hty h⟩
        · split <;> omega
        · split <;> omega
      · have h2 := hA2 hty
        refine ⟨fun h => absurd h hty, fun h => absurd h hty, fun _ _ => ?_, fun _ _ => by omega, fun h => absurd h hty, fun _ => ?_⟩
        · split <;> omega
        · split <;> omega
    · have hmid := hb.offs ((n + 3) / 4 - 1) (by omega) (by omega)
      rw [show 17 + ((n + 3) / 4 - 1) = 16 + (n + 3) / 4 by omega] at hmid
      rw [hmid]
      have hac := acc_slot (fun s => ovS ty t L TH f i (4 * ((n + 3) / 4 - 1) + s)) (n := min 4 (15 - 4 * ((n + 3) / 4 - 1)))
        (s := (n + 3) % 4) (by omega) (by omega) (fun k hk => hlow _ (by omega))
      rw [hac]
      rw [show 4 * ((n + 3) / 4 - 1) + (n + 3) % 4 = n - 1 by omega, hd3]
      by_cases hty : ty = .mpe1
      · have h1 := e1 hty
        have h2 := hA1 hty
        exact ⟨fun _ _ => by omega, fun _ _ => by omega, fun h => absurd hty h, fun h => absurd hty h, fun _ => by omega,
          fun h => absurd hty h⟩
      · have h2 := hA2 hty
        exact ⟨fun h => absurd h hty, fun h => absurd h hty, fun _ _ => by omega, fun _ _ => by omega, fun h => absurd h hty,
          fun _ => by omega⟩

/-- The sum of four fields of which the third may overflow. -/
theorem pack4S {d0 d1 d2 d3 k0 k1 k2 Z : Nat} (p0 : d0 ≤ 65535) (p1 : d1 ≤ 65535) (p2 : d2 ≤ 65535)
    (m0 : k0 < 256) (m1 : k1 < 256) (m2 : k2 < 256) (p3 : d3 + 66 ≤ Z ∨ (d2 + 16384 * k2 < 65536 ∧ d1 + 16384 * k1 < 65536 ∧
      d0 + 16384 * k0 < 65536 ∧ d3 + 1 ≤ Z)) (k3 : Nat) :
    ∃ B, B < Z * 281474976710656 ∧ d0 + 16384 * k0 + (d1 + 16384 * k1) * 65536 + (d2 + 16384 * k2) * 4294967296 +
      (d3 + 16384 * k3) * 281474976710656 = B + 4611686018427387904 * k3 := by
  refine ⟨d0 + 16384 * k0 + (d1 + 16384 * k1) * 65536 + (d2 + 16384 * k2) * 4294967296 + d3 * 281474976710656,
    by omega, ?_⟩
  rw [Nat.add_mul d3, ← Nat.add_assoc, Nat.mul_right_comm]

/-- The entry of the first block of a superblock. -/
theorem entryS0 {i : Nat} {b : Vec Nat} (hb : BucketS ty t L TH f i b) (hL : 1 ≤ L) (hlen : t.len < 2 ^ 57)
    (hf : FitsS ty t L TH) (h : i < nbk t L) :
    b.f 17 < 2 ^ 64 ∧
    (ty = .mpe1 → b.f 17 / 2 ^ 62 % 2 = mfM ty (fvS ty t L TH f i) / 4 % 2) ∧
    (ty ≠ .mpe1 → b.f 17 / 2 ^ 60 % 4 = mfM ty (fvS ty t L TH f i) % 4) := by
  rw [hb.o1, markFirst_eq]
  refine ⟨Nat.mod_lt _ (by decide), ?_⟩
  have hA : acc (fun s => ovS ty t L TH f i s) 4 = (ovS ty t L TH f i 0 + ovS ty t L TH f i 1 * 65536 +
      ovS ty t L TH f i 2 * 4294967296 + ovS ty t L TH f i 3 * 281474976710656) % 18446744073709551616 := by
    have a1 : acc (fun s => ovS ty t L TH f i s) 1 = ovS ty t L TH f i 0 % W64 := by simp [acc, add64, shl64]
    have a2 : acc (fun s => ovS ty t L TH f i s) 2 =
      (acc (fun s => ovS ty t L TH f i s) 1 + ovS ty t L TH f i 1 * 65536 % W64) % W64 := rfl
    have a3 : acc (fun s => ovS ty t L TH f i s) 3 =
      (acc (fun s => ovS ty t L TH f i s) 2 + ovS ty t L TH f i 2 * 4294967296 % W64) % W64 := rfl
    have a4 : acc (fun s => ovS ty t L TH f i s) 4 =
      (acc (fun s => ovS ty t L TH f i s) 3 + ovS ty t L TH f i 3 * 281474976710656 % W64) % W64 := rfl
    simp only [W64] at a1 a2 a3 a4
    omega
  rw [hA]
  have hn : 1 ≤ nbk t L := by omega
  obtain ⟨d0, p0, -, r0⟩ := ovS_eq (ty := ty) (TH := TH) (f := f) hL hlen hf hn (i := i) (j := 0) (by omega)
  obtain ⟨d1, p1, -, r1⟩ := ovS_eq (ty := ty) (TH := TH) (f := f) hL hlen hf hn (i := i) (j := 1) (by omega)
  obtain ⟨d2, p2, -, r2⟩ := ovS_eq (ty := ty) (TH := TH) (f := f) hL hlen hf hn (i := i) (j := 2) (by omega)
  obtain ⟨d3, p3, -, r3⟩ := ovS_eq (ty := ty) (TH := TH) (f := f) hL hlen hf hn (i := i) (j := 3) (by omega)
  rw [r0, r1, r2, r3]
  have m0 := mkM_lt ty (fvS ty t L TH f (i + 0 + 1))
  have m1 := mkM_lt ty (fvS ty t L TH f (i + 1 + 1))
  have m2 := mkM_lt ty (fvS ty t L TH f (i + 2 + 1))
  have s0 := fun hh => mkM_smallS (ty := ty) (f := f) (t := t) (L := L) (TH := TH) (k := i + 0 + 1) hh
  have s1 := fun hh => mkM_smallS (ty := ty) (f := f) (t := t) (L := L) (TH := TH) (k := i + 1 + 1) hh
  have s2 := fun hh => mkM_smallS (ty := ty) (f := f) (t := t) (L := L) (TH := TH) (k := i + 2 + 1) hh
  have t0 : ty = .mpe1 → mkM ty (fvS ty t L TH f (i + 0 + 1)) = 0 ∨ mkM ty (fvS ty t L TH f (i + 0 + 1)) = 2 := by
    intro h; rw [h]; exact mkM_mpe1 _
  have t1 : ty = .mpe1 → mkM ty (fvS ty t L TH f (i + 1 + 1)) = 0 ∨ mkM ty (fvS ty t L TH f (i + 1 + 1)) = 2 := by
    intro h; rw [h]; exact mkM_mpe1 _
  have t2 : ty = .mpe1 → mkM ty (fvS ty t L TH f (i + 2 + 1)) = 0 ∨ mkM ty (fvS ty t L TH f (i + 2 + 1)) = 2 := by
    intro h; rw [h]; exact mkM_mpe1 _
  have t3 : ty = .mpe1 → mkM ty (fvS ty t L TH f (i + 3 + 1)) = 0 ∨ mkM ty (fvS ty t L TH f (i + 3 + 1)) = 2 := by
    intro h; rw [h]; exact mkM_mpe1 _
  have hmf : ty = .mpe1 → mfM ty (fvS ty t L TH f i) = 0 ∨ mfM ty (fvS ty t L TH f i) = 4 := by
    intro h; unfold mfM; rw [if_pos h]; split <;> omega
  unfold add64
  simp only [W64]
  generalize mkM ty (fvS ty t L TH f (i + 0 + 1)) = k0 at *
  generalize mkM ty (fvS ty t L TH f (i + 1 + 1)) = k1 at *
  generalize mkM ty (fvS ty t L TH f (i + 2 + 1)) = k2 at *
  generalize mkM ty (fvS ty t L TH f (i + 3 + 1)) = k3 at *
  generalize mfM ty (fvS ty t L TH f i) = a at *
  constructor
  · intro hty
    have q0 := (lim_le ty (show min (i + 0 + 1) (nbk t L - 1) - min i (nbk t L - 1) ≤ 1 by omega)).1 hty
    have q1 := (lim_le ty (show min (i + 1 + 1) (nbk t L - 1) - min i (nbk t L - 1) ≤ 2 by omega)).1 hty
    have q2 := (lim_le ty (show min (i + 2 + 1) (nbk t L - 1) - min i (nbk t L - 1) ≤ 3 by omega)).1 hty
    have q3 := (lim_le ty (show min (i + 3 + 1) (nbk t L - 1) - min i (nbk t L - 1) ≤ 4 by omega)).1 hty
    have h3' := t3 hty
    have hmf' := hmf hty
    obtain ⟨B, hBlt, hB⟩ := pack4S (d0 := d0) (d1 := d1) (d2 := d2) (d3 := d3) (Z := 16384) (by omega) (by omega) (by omega) m0 m1 m2
      (Or.inl (by omega)) k3
    rw [hB]
    simp only [Nat.reducePow]
    clear hB
    omega
  · intro hty
    have q0 := (lim_le ty (show min (i + 0 + 1) (nbk t L - 1) - min i (nbk t L - 1) ≤ 1 by omega)).2 hty
    have q1 := (lim_le ty (show min (i + 1 + 1) (nbk t L - 1) - min i (nbk t L - 1) ≤ 2 by omega)).2 hty
    have q2 := (lim_le ty (show min (i + 2 + 1) (nbk t L - 1) - min i (nbk t L - 1) ≤ 3 by omega)).2 hty
    obtain ⟨B, hBlt, hB⟩ := pack4S (d0 := d0) (d1 := d1) (d2 := d2) (d3 := d3) (Z := 4096) (by omega) (by omega) (by omega) m0 m1 m2
      (by
        by_cases hj : i + 3 + 1 < nbk t L
        · have q3 := (lim_le ty (show min (i + 3 + 1) (nbk t L - 1) - min i (nbk t L - 1) ≤ 4 by omega)).2 hty
          have := s0 (by omega)
          have := s1 (by omega)
          have := s2 (by omega)
          right
          omega
        · have q3 := (lim_le ty (show min (i + 3 + 1) (nbk t L - 1) - min i (nbk t L - 1) ≤ 3 by omega)).2 hty
          left
          omega) k3
    rw [hB]
    simp only [Nat.reducePow]
    clear hB
    omega

/-- The kind that a query reads from an entry of `blockToCompress`. -/
def kq (ty : MpeType) (b : Byte) : Nat := if ty = .mpe1 then (if b ≠ 0#8 then 3 else 0) else b.toNat % 4

theorem ofNat8_zero {k : Nat} (h : k < 4) : BitVec.ofNat 8 k = 0#8 ↔ k = 0 := by
  constructor
  · intro h'
    have := congrArg BitVec.toNat h'
    rw [BitVec.toNat_ofNat] at this
    simp at this
    omega
  · intro h; rw [h]

theorem ks_mpe1 (m : Nat) : ks .mpe1 t L TH m = 0 ∨ ks .mpe1 t L TH m = 3 := by
  unfold ks
  by_cases h : m + 1 < nbk t L ∧ Dense t L TH m
  · rw [if_pos h]; simp only [kindS]; split <;> omega
  · rw [if_neg h]; exact Or.inl rfl

theorem kq_ks (ty : MpeType) (t : Vec Byte) (L TH m : Nat) : kq ty (BitVec.ofNat 8 (ks ty t L TH m)) = ks ty t L TH m := by
  have hl := ks_lt (ty := ty) (t := t) (L := L) (TH := TH) m
  have hz := ofNat8_zero hl
  unfold kq
  by_cases hty : ty = .mpe1
  · rw [if_pos hty]
    have h1 : ks ty t L TH m = 0 ∨ ks ty t L TH m = 3 := by rw [hty]; exact ks_mpe1 m
    rcases h1 with h | h
    · rw [if_neg (fun hh => hh (hz.2 h)), h]
    · rw [if_pos (fun hh => by have := hz.1 hh; omega), h]
  · rw [if_neg hty, BitVec.toNat_ofNat]; omega

theorem mkM_kq (ty : MpeType) (b : Byte) : mkM ty b % 4 = (if ty = .mpe1 then 2 * (kq ty b / 3) else kq ty b) := by
  unfold mkM kq
  by_cases hty : ty = .mpe1
  · simp only [if_pos hty]
    split <;> omega
  · simp only [if_neg hty]

/-- What a query reads of block `m`. -/
theorem placeS {v : Vec (Option Nat)} {m : Nat} {b : Vec Nat} (hb : BucketS ty t L TH f (16 * (m / 16)) b)
    (hr : ∀ j, j < 21 → v.f (21 * (m / 16) + j) = some (b.f j)) (hrl : 21 * (m / 16) + 21 ≤ v.len)
    (hL : 1 ≤ L) (hlen : t.len < 2 ^ 57) (hf : FitsS ty t L TH) (hm : m < nbk t L) :
    offDense ty v (21 * (m / 16)) (m % 16) = ok (offS ty t L TH m, kq ty (fvS ty t L TH f m)) ∧
    offSparse ty v (21 * (m / 16)) (m % 16) =
      ok (offS ty t L TH m + if 4 < m % 16 then 16384 * (mkM ty (fvS ty t L TH f m) % 4) else 0) := by
  have hmod : 16 * (m / 16) + m % 16 = m := by omega
  have hn16 : m % 16 < 16 := Nat.mod_lt _ (by decide)
  have hmk := mkM_kq ty (fvS ty t L TH f m)
  have hoS := oS_eq (ty := ty) (TH := TH) hm
  generalize hS : m / 16 = S at *
  generalize hN : m % 16 = n at *
  have g16 := hr 16 (by omega)
  rw [hb.off] at g16
  by_cases h0 : n = 0
  · have g17 := hr 17 (by omega)
    obtain ⟨e0, e1, e2⟩ := entryS0 hb hL hlen hf (by omega)
    rw [show 16 * S = m by omega] at e1 e2 g16
    refine ⟨?_, ?_⟩
    · unfold offDense
      rw [uget_ok (by omega) g16, ok_bind, if_pos h0, uget_ok (by omega) g17, ok_bind, hoS]
      generalize b.f 17 = w at *
      by_cases hty : ty = .mpe1
      · rw [if_pos hty, and1', Nat.shiftRight_eq_div_pow, e1 hty]
        unfold mfM kq
        simp only [if_pos hty]
        split <;> rfl
      · rw [if_neg hty, and3', Nat.shiftRight_eq_div_pow, e2 hty]
        unfold mfM kq
        simp only [if_neg hty]
        congr 2; omega
    · unfold offSparse
      rw [uget_ok (by omega) g16, ok_bind, if_pos h0, hoS, if_neg (by omega)]
      rfl
  · obtain ⟨y, d, hw, hy, ho, a1, a2, a3, a4, a5, a6⟩ := entryS hb hL hlen hf (n := n) (by omega) hn16 (by omega)
    have gw := hr (16 + (n + 3) / 4) (by omega)
    rw [hmod, hoS] at ho
    rw [hmod] at a5 a6
    generalize b.f (16 + (n + 3) / 4) = w at *
    have hyl : y < 65536 := by rw [← hy]; exact Nat.mod_lt _ (by decide)
    have hrd : ∀ M, M ∣ 65536 → w >>> (16 * ((n + 3) % 4)) % M = y % M := by
      intro M hM
      rw [← hy, Nat.shiftRight_eq_div_pow, Nat.mod_mod_of_dvd _ hM]
    have hk1 : (w >>> (16 * ((n + 3) % 4))) >>> 15 % 2 = y / 32768 := by
      rw [Nat.shiftRight_eq_div_pow _ 15]
      have := hrd 65536 (Nat.dvd_refl _)
      rw [Nat.mod_eq_of_lt hyl] at this
      show _ / 32768 % 2 = _
      omega
    have hk2 : (w >>> (16 * ((n + 3) % 4))) >>> 14 % 4 = y / 16384 := by
      rw [Nat.shiftRight_eq_div_pow _ 14]
      have := hrd 65536 (Nat.dvd_refl _)
      rw [Nat.mod_eq_of_lt hyl] at this
      show _ / 16384 % 4 = _
      omega
    refine ⟨?_, ?_⟩
    · unfold offDense
      rw [uget_ok (by omega) g16, ok_bind, if_neg h0,
        uget_ok (i := 21 * S + 16 + (n + 3) / 4) (by omega) (by rw [Nat.add_assoc]; exact gw), ok_bind]
      simp only []
      by_cases hty : ty = .mpe1
      · rw [if_pos hty, and1', hk1, a5 hty, hmk, if_pos hty, ho]
        have hkk : 3 * (2 * (kq ty (fvS ty t L TH f m) / 3) / 2) = kq ty (fvS ty t L TH f m) := by
          unfold kq
          simp only [if_pos hty]
          split <;> rfl
        rw [hkk]
        by_cases h4 : n ≤ 4
        · rw [if_pos h4, and14, hrd _ (by decide), a1 hty h4]
        · rw [if_neg h4, and15, hrd _ (by decide), a2 hty (by omega)]
      · rw [if_neg hty, and3', hk2, a6 hty, hmk, if_neg hty, ho]
        by_cases h4 : n ≤ 4
        · rw [if_pos h4, and12, hrd _ (by decide), a3 hty h4]
        · rw [if_neg h4, and14, hrd _ (by decide), a4 hty (by omega)]
    · unfold offSparse
      rw [uget_ok (by omega) g16, ok_bind, if_neg h0, ho]
      by_cases h4 : n ≤ 4
      · rw [if_pos h4, if_neg (show ¬ 4 < n by omega), Nat.add_zero]
        rw [show 16 + (n + 3) / 4 = 17 by omega] at gw
        rw [uget_ok (by omega) gw, ok_bind, show 16 * (n - 1) = 16 * ((n + 3) % 4) by omega]
        by_cases hty : ty = .mpe1
        · rw [if_pos hty, and14, hrd _ (by decide), a1 hty h4]; rfl
        · rw [if_neg hty, and12, hrd _ (by decide), a3 hty h4]; rfl
      · rw [if_neg h4, if_pos (by omega), slot1_eq (w := w) (by omega) (by rw [Nat.add_assoc]; exact gw) hw, ok_bind, hy]
        have : y = d + 16384 * (mkM ty (fvS ty t L TH f m) % 4) := by
          by_cases hty : ty = .mpe1
          · have h1 := a2 hty (by omega)
            have h2 := a5 hty
            have h3 : mkM ty (fvS ty t L TH f m) = 0 ∨ mkM ty (fvS ty t L TH f m) = 2 := by rw [hty]; exact mkM_mpe1 _
            omega
          · have h1 := a4 hty (by omega)
            have h2 := a6 hty
            omega
        rw [this, Nat.add_assoc]

end MRS.Mran
