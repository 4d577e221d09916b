import Verif.Proofs.Mranisz.S32mSuper
import Verif.Proofs.Mranisz.SelMpePlace
import Verif.Proofs.Mranisz.Mpe32Place

/-! # Compressed select with pairs left out, 32 bits: reading a superblock -/

set_option autoImplicit false

namespace MRS.Mran.S32
open Outcome Spec Poppy

variable {ty : MpeType} {t : Vec Byte} {L TH : Nat} {f : Nat → Byte}

/-- The most bytes that a complete block may take for its offsets to be read back. -/
def lim (ty : MpeType) : Nat := if ty = .mpe1 then 2184 else 1092

/-- Every complete block but the last has at most that many bytes. -/
def FitsS (ty : MpeType) (t : Vec Byte) (L TH : Nat) : Prop := ∀ k, k + 1 < nbk t L → wdS ty t L TH k ≤ lim ty

theorem oS_mono {a b : Nat} (h : a ≤ b) : oS ty t L TH a ≤ oS ty t L TH b := offS_mono (by omega)

theorem oS_eq {k : Nat} (h : k < nbk t L) : oS ty t L TH k = offS ty t L TH k := by
  unfold oS; rw [Nat.min_eq_left (by omega)]

theorem offS_diff (hf : FitsS ty t L TH) (a : Nat) : ∀ d, a + d < nbk t L →
    offS ty t L TH (a + d) ≤ offS ty t L TH a + lim ty * d := by
  intro d
  induction d with
  | zero => intro _; exact Nat.le_refl _
  | succ d ih =>
    intro h
    have h1 := ih (by omega)
    have h2 := hf (a + d) (by omega)
    rw [← Nat.add_assoc, offS_succ, Nat.mul_add]
    omega

theorem oS_diff (hf : FitsS ty t L TH) (hn : 1 ≤ nbk t L) (a d : Nat) :
    oS ty t L TH (a + d) ≤ oS ty t L TH a + lim ty * (min (a + d) (nbk t L - 1) - min a (nbk t L - 1)) := by
  unfold oS
  have h := offS_diff hf (min a (nbk t L - 1)) (min (a + d) (nbk t L - 1) - min a (nbk t L - 1)) (by omega)
  rw [show min a (nbk t L - 1) + (min (a + d) (nbk t L - 1) - min a (nbk t L - 1)) = min (a + d) (nbk t L - 1) by omega] at h
  exact h

theorem oS_lt (hbig : offS ty t L TH (nbk t L) < 2 ^ 32) (k : Nat) : oS ty t L TH k < W32 := by
  have h6 := offS_mono (ty := ty) (t := t) (L := L) (TH := TH) (show min k (nbk t L - 1) ≤ nbk t L by omega)
  unfold oS
  simp only [W32]
  omega

theorem ovS_eq (hbig : offS ty t L TH (nbk t L) < 2 ^ 32) (hf : FitsS ty t L TH) (hn : 1 ≤ nbk t L) {i j : Nat} (hj : j < 15) :
    ∃ d, d ≤ lim ty * (min (i + j + 1) (nbk t L - 1) - min i (nbk t L - 1)) ∧
      oS ty t L TH (i + j + 1) = oS ty t L TH i + d ∧
      ovS ty t L TH f i j = d + 16384 * mkM ty (fvS ty t L TH f (i + j + 1)) := by
  have h1 := oS_mono (ty := ty) (t := t) (L := L) (TH := TH) (show i ≤ i + j + 1 by omega)
  have h2 := oS_diff hf hn i (j + 1)
  have h3 := oS_lt hbig (i + j + 1)
  have h4 := mkM_lt ty (fvS ty t L TH f (i + j + 1))
  rw [← Nat.add_assoc] at h2
  refine ⟨oS ty t L TH (i + j + 1) - oS ty t L TH i, by omega, by omega, ?_⟩
  have hb : lim ty * (min (i + j + 1) (nbk t L - 1) - min i (nbk t L - 1)) ≤ 2184 * 15 :=
    Nat.mul_le_mul (by unfold lim; split <;> omega) (by omega)
  unfold ovS
  rw [markOf_eq, sub32_eq h1 h3]
  unfold add32
  simp only [W32]
  omega

theorem lim_le (ty : MpeType) {c c' : Nat} (h : c ≤ c') : (ty = .mpe1 → lim ty * c ≤ 2184 * c') ∧
    (ty ≠ .mpe1 → lim ty * c ≤ 1092 * c') := by
  unfold lim
  refine ⟨fun h' => ?_, fun h' => ?_⟩
  · rw [if_pos h']; exact Nat.mul_le_mul_left _ h
  · rw [if_neg h']; exact Nat.mul_le_mul_left _ h

/-- The entry of block `i + n`, `n > 0`. -/
theorem entryS {i : Nat} {b : Vec Nat} (hb : BucketS ty t L TH f i b) (hbig : offS ty t L TH (nbk t L) < 2 ^ 32)
    (hf : FitsS ty t L TH) {n : Nat} (hn0 : 0 < n) (hn : n < 16) (h : i + n < nbk t L) :
    ∃ y d, b.f (16 + (n + 1) / 2) < 2 ^ 32 ∧ b.f (16 + (n + 1) / 2) / 2 ^ (16 * ((n + 1) % 2)) % 65536 = y ∧
      oS ty t L TH (i + n) = oS ty t L TH i + d ∧
      (ty = .mpe1 → n ≤ 2 → y % 16384 = d) ∧ (ty = .mpe1 → 2 < n → y % 32768 = d) ∧
      (ty ≠ .mpe1 → n ≤ 2 → y % 4096 = d) ∧ (ty ≠ .mpe1 → 2 < n → y % 16384 = d) ∧
      (ty = .mpe1 → y / 32768 = mkM ty (fvS ty t L TH f (i + n)) % 4 / 2) ∧
      (ty ≠ .mpe1 → y / 16384 = mkM ty (fvS ty t L TH f (i + n)) % 4) := by
  obtain ⟨d, hd1, hd2, hd3⟩ := ovS_eq (ty := ty) (TH := TH) (f := f) hbig hf (by omega) (i := i) (j := n - 1) (by omega)
  rw [show i + (n - 1) + 1 = i + n by omega] at hd2 hd3
  refine ⟨_, d, ?_, rfl, hd2, ?_⟩
  · by_cases hm : n ≤ 2
    · rw [show 16 + (n + 1) / 2 = 17 by omega, hb.o1]
      exact Nat.mod_lt _ (by decide)
    · have := hb.offs ((n + 1) / 2 - 1) (by omega) (by omega)
      rw [show 17 + ((n + 1) / 2 - 1) = 16 + (n + 1) / 2 by omega] at this
      rw [this]
      exact acc_lt32 _ _
  · have hmk := mkM_lt ty (fvS ty t L TH f (i + n))
    have hlow : ∀ k, k < n - 1 → ovS ty t L TH f i k < 65536 := by
      intro k hk
      obtain ⟨d', q1, q2, q3⟩ := ovS_eq (ty := ty) (TH := TH) (f := f) hbig hf (by omega) (i := i) (j := k) (by omega)
      have hs := mkM_smallS (ty := ty) (f := f) (t := t) (L := L) (TH := TH) (k := i + k + 1) (by omega)
      have hl := lim_le ty (show min (i + k + 1) (nbk t L - 1) - min i (nbk t L - 1) ≤ 14 by omega)
      by_cases hty : ty = .mpe1
      · have h1 := hl.1 hty
        have h2 : mkM ty (fvS ty t L TH f (i + k + 1)) = 0 ∨ mkM ty (fvS ty t L TH f (i + k + 1)) = 2 := by
          rw [hty]; exact mkM_mpe1 _
        omega
      · have h1 := hl.2 hty
        omega
    have e1 : ty = .mpe1 → mkM ty (fvS ty t L TH f (i + n)) = 0 ∨ mkM ty (fvS ty t L TH f (i + n)) = 2 := by
      intro h; rw [h]; exact mkM_mpe1 _
    have hdl := lim_le ty (show min (i + (n - 1) + 1) (nbk t L - 1) - min i (nbk t L - 1) ≤ n by omega)
    have hA1 : ty = .mpe1 → d ≤ 2184 * n := fun h => Nat.le_trans hd1 (hdl.1 h)
    have hA2 : ty ≠ .mpe1 → d ≤ 1092 * n := fun h => Nat.le_trans hd1 (hdl.2 h)
    clear hdl hd1 hd2
    generalize hmkv : mkM ty (fvS ty t L TH f (i + n)) = mk at *
    by_cases hm : n ≤ 2
    · rw [show 16 + (n + 1) / 2 = 17 by omega, hb.o1, markFirst32_eq]
      have hsm := mfM_smallS (ty := ty) (f := f) (t := t) (L := L) (TH := TH) (k := i) (by omega)
      generalize mfM ty (fvS ty t L TH f i) = a at *
      have hac := acc_slot32 (fun s => ovS ty t L TH f i s) (n := 2) (s := n - 1) (by omega) (by omega) hlow
      have hA := acc_lt32 (fun s => ovS ty t L TH f i s) 2
      generalize acc32 (fun s => ovS ty t L TH f i s) 2 = A at *
      simp only [hd3] at hac
      have hn2 : n = 1 ∨ n = 2 := by omega
      have hy : (add32 A (2 ^ 28 * a)) / 2 ^ (16 * ((n + 1) % 2)) % 65536 =
          (d + 16384 * mk + (if n = 2 then 4096 * a else 0)) % 65536 := by
        unfold add32
        simp only [W32]
        have ha : a ≤ 4 := by omega
        rcases hn2 with rfl | rfl
        · simp only [Nat.reduceMul, Nat.reduceAdd, Nat.reduceSub, Nat.reduceMod, Nat.reducePow] at hac hA ⊢
          rw [if_neg (by decide)]
          omega
        · simp only [Nat.reduceMul, Nat.reduceAdd, Nat.reduceSub, Nat.reduceMod, Nat.reducePow] at hac hA ⊢
          rw [if_pos trivial]
          omega
      rw [hy]
      clear hy hac hA hlow
      rcases hsm with ⟨hty, ha⟩ | ⟨hty, ha⟩
      · have h1 := e1 hty
        have h2 := hA1 hty
        refine ⟨fun _ _ => ?_, fun _ _ => by omega, fun h => absurd hty h, fun h => absurd hty h, fun _ => ?_, fun h => absurd hty h⟩
        · split <;> omega
        · split <;> omega
      · have h2 := hA2 hty
        refine ⟨fun h => absurd h hty, fun h => absurd h hty, fun _ _ => ?_, fun _ _ => by omega, fun h => absurd h hty, fun _ => ?_⟩
        · split <;> omega
        · split <;> omega
    · have hmid := hb.offs ((n + 1) / 2 - 1) (by omega) (by omega)
      rw [show 17 + ((n + 1) / 2 - 1) = 16 + (n + 1) / 2 by omega] at hmid
      rw [hmid]
      have hac := acc_slot32 (fun s => ovS ty t L TH f i (2 * ((n + 1) / 2 - 1) + s)) (n := min 2 (15 - 2 * ((n + 1) / 2 - 1)))
        (s := (n + 1) % 2) (by omega) (by omega) (fun k hk => hlow _ (by omega))
      rw [hac]
      rw [show 2 * ((n + 1) / 2 - 1) + (n + 1) % 2 = n - 1 by omega, hd3]
      by_cases hty : ty = .mpe1
      · have h1 := e1 hty
        have h2 := hA1 hty
        exact ⟨fun _ _ => by omega, fun _ _ => by omega, fun h => absurd hty h, fun h => absurd hty h, fun _ => by omega,
          fun h => absurd hty h⟩
      · have h2 := hA2 hty
        exact ⟨fun h => absurd h hty, fun h => absurd h hty, fun _ _ => by omega, fun _ _ => by omega, fun h => absurd h hty,
          fun _ => by omega⟩

/-- The entry of the first block of a superblock. -/
theorem entryS0 {i : Nat} {b : Vec Nat} (hb : BucketS ty t L TH f i b) (hbig : offS ty t L TH (nbk t L) < 2 ^ 32)
    (hf : FitsS ty t L TH) (h : i < nbk t L) :
    b.f 17 < 2 ^ 32 ∧
    (ty = .mpe1 → b.f 17 / 2 ^ 30 % 2 = mfM ty (fvS ty t L TH f i) / 4 % 2) ∧
    (ty ≠ .mpe1 → b.f 17 / 2 ^ 28 % 4 = mfM ty (fvS ty t L TH f i) % 4) := by
  rw [hb.o1, markFirst32_eq]
  refine ⟨Nat.mod_lt _ (by decide), ?_⟩
  have hA : acc32 (fun s => ovS ty t L TH f i s) 2 = (ovS ty t L TH f i 0 + ovS ty t L TH f i 1 * 65536) % 4294967296 := by
    have a1 : acc32 (fun s => ovS ty t L TH f i s) 1 = ovS ty t L TH f i 0 % W32 := by simp [acc32, add32, shl32]
    have a2 : acc32 (fun s => ovS ty t L TH f i s) 2 =
      (acc32 (fun s => ovS ty t L TH f i s) 1 + ovS ty t L TH f i 1 * 65536 % W32) % W32 := rfl
    simp only [W32] at a1 a2
    omega
  rw [hA]
  have hn : 1 ≤ nbk t L := by omega
  obtain ⟨d0, p0, -, r0⟩ := ovS_eq (ty := ty) (TH := TH) (f := f) hbig hf hn (i := i) (j := 0) (by omega)
  obtain ⟨d1, p1, -, r1⟩ := ovS_eq (ty := ty) (TH := TH) (f := f) hbig hf hn (i := i) (j := 1) (by omega)
  rw [r0, r1]
  have m0 := mkM_lt ty (fvS ty t L TH f (i + 0 + 1))
  have t1 : ty = .mpe1 → mkM ty (fvS ty t L TH f (i + 1 + 1)) = 0 ∨ mkM ty (fvS ty t L TH f (i + 1 + 1)) = 2 := by
    intro h; rw [h]; exact mkM_mpe1 _
  have hmf : ty = .mpe1 → mfM ty (fvS ty t L TH f i) = 0 ∨ mfM ty (fvS ty t L TH f i) = 4 := by
    intro h; unfold mfM; rw [if_pos h]; split <;> omega
  have q0 := lim_le ty (show min (i + 0 + 1) (nbk t L - 1) - min i (nbk t L - 1) ≤ 1 by omega)
  have q1 := lim_le ty (show min (i + 1 + 1) (nbk t L - 1) - min i (nbk t L - 1) ≤ 2 by omega)
  unfold add32
  simp only [W32]
  generalize mkM ty (fvS ty t L TH f (i + 0 + 1)) = k0 at *
  generalize mkM ty (fvS ty t L TH f (i + 1 + 1)) = k1 at *
  generalize mfM ty (fvS ty t L TH f i) = a at *
  have pack : ∀ Z, d0 ≤ 65535 → d1 + 66 ≤ Z →
      ∃ B, B < Z * 65536 ∧ d0 + 16384 * k0 + (d1 + 16384 * k1) * 65536 = B + 1073741824 * k1 :=
    fun Z z0 z1 => ⟨d0 + 16384 * k0 + d1 * 65536, by omega, by omega⟩
  constructor
  · intro hty
    have q0' := q0.1 hty
    have q1' := q1.1 hty
    have t1' := t1 hty
    have hmf' := hmf hty
    obtain ⟨B, hBlt, hB⟩ := pack 16384 (by omega) (by omega)
    rw [hB]
    simp only [Nat.reducePow]
    clear hB
    omega
  · intro hty
    have q0' := q0.2 hty
    have q1' := q1.2 hty
    obtain ⟨B, hBlt, hB⟩ := pack 4096 (by omega) (by omega)
    rw [hB]
    simp only [Nat.reducePow]
    clear hB
    omega

/-- What a query reads of block `m`. -/
theorem placeS {v : Vec (Option Nat)} {m : Nat} {b : Vec Nat} (hb : BucketS ty t L TH f (16 * (m / 16)) b)
    (hr : ∀ j, j < 25 → v.f (25 * (m / 16) + j) = some (b.f j)) (hrl : 25 * (m / 16) + 25 ≤ v.len)
    (hbig : offS ty t L TH (nbk t L) < 2 ^ 32) (hf : FitsS ty t L TH) (hm : m < nbk t L) :
    offDense ty v (25 * (m / 16)) (m % 16) = ok (offS ty t L TH m, kq ty (fvS ty t L TH f m)) ∧
    offSparse ty v (25 * (m / 16)) (m % 16) =
      ok (add32 (offS ty t L TH m) (if 2 < m % 16 then 16384 * (mkM ty (fvS ty t L TH f m) % 4) else 0)) := by
  have hmod : 16 * (m / 16) + m % 16 = m := by omega
  have hn16 : m % 16 < 16 := Nat.mod_lt _ (by decide)
  have hmk := mkM_kq ty (fvS ty t L TH f m)
  have hoS := oS_eq (ty := ty) (TH := TH) hm
  have hmb := offS_mono (ty := ty) (t := t) (L := L) (TH := TH) (show m ≤ nbk t L by omega)
  have hz : add32 (offS ty t L TH m) 0 = offS ty t L TH m := add32_eq (by simp only [W32]; omega)
  generalize hS : m / 16 = S at *
  generalize hN : m % 16 = n at *
  have g16 := hr 16 (by omega)
  rw [hb.off] at g16
  by_cases h0 : n = 0
  · have g17 := hr 17 (by omega)
    obtain ⟨e0, e1, e2⟩ := entryS0 hb hbig hf (by omega)
    rw [show 16 * S = m by omega] at e1 e2 g16
    refine ⟨?_, ?_⟩
    · unfold offDense
      rw [uget_ok (by omega) g16, ok_bind, if_pos h0, uget_ok (by omega) g17, ok_bind, hoS]
      generalize b.f 17 = w at *
      by_cases hty : ty = .mpe1
      · rw [if_pos hty, and1', Nat.shiftRight_eq_div_pow, e1 hty]
        unfold mfM kq
        simp only [if_pos hty]
        split <;> rfl
      · rw [if_neg hty, and3', Nat.shiftRight_eq_div_pow, e2 hty]
        unfold mfM kq
        simp only [if_neg hty]
        congr 2; omega
    · unfold offSparse
      rw [uget_ok (by omega) g16, ok_bind, if_pos h0, hoS, if_neg (by omega), hz]
  · obtain ⟨y, d, hw, hy, ho, a1, a2, a3, a4, a5, a6⟩ := entryS hb hbig hf (n := n) (by omega) hn16 (by omega)
    have hadd : ∀ z, z = d → add32 (oS ty t L TH (16 * S)) z = offS ty t L TH m := by
      intro z hz'
      rw [hmod, hoS] at ho
      rw [hz', ho]
      exact add32_eq (by rw [← ho]; simp only [W32]; omega)
    have gw := hr (16 + (n + 1) / 2) (by omega)
    rw [hmod, hoS] at ho
    rw [hmod] at a5 a6
    generalize b.f (16 + (n + 1) / 2) = w at *
    have hyl : y < 65536 := by rw [← hy]; exact Nat.mod_lt _ (by decide)
    have hrd : ∀ M, M ∣ 65536 → w >>> (16 * ((n + 1) % 2)) % M = y % M := by
      intro M hM
      rw [← hy, Nat.shiftRight_eq_div_pow, Nat.mod_mod_of_dvd _ hM]
    have hk1 : (w >>> (16 * ((n + 1) % 2))) >>> 15 % 2 = y / 32768 := by
      rw [Nat.shiftRight_eq_div_pow _ 15]
      have := hrd 65536 (Nat.dvd_refl _)
      rw [Nat.mod_eq_of_lt hyl] at this
      show _ / 32768 % 2 = _
      omega
    have hk2 : (w >>> (16 * ((n + 1) % 2))) >>> 14 % 4 = y / 16384 := by
      rw [Nat.shiftRight_eq_div_pow _ 14]
      have := hrd 65536 (Nat.dvd_refl _)
      rw [Nat.mod_eq_of_lt hyl] at this
      show _ / 16384 % 4 = _
      omega
    refine ⟨?_, ?_⟩
    · unfold offDense
      rw [uget_ok (by omega) g16, ok_bind, if_neg h0,
        uget_ok (i := 25 * S + 16 + (n + 1) / 2) (by omega) (by rw [Nat.add_assoc]; exact gw), ok_bind]
      simp only []
      by_cases hty : ty = .mpe1
      · rw [if_pos hty, and1', hk1, a5 hty, hmk, if_pos hty]
        have hkk : 3 * (2 * (kq ty (fvS ty t L TH f m) / 3) / 2) = kq ty (fvS ty t L TH f m) := by
          unfold kq
          simp only [if_pos hty]
          split <;> rfl
        rw [hkk]
        by_cases h4 : n ≤ 2
        · rw [if_pos h4, and14, hrd _ (by decide), hadd _ (a1 hty h4)]
        · rw [if_neg h4, and15, hrd _ (by decide), hadd _ (a2 hty (by omega))]
      · rw [if_neg hty, and3', hk2, a6 hty, hmk, if_neg hty]
        by_cases h4 : n ≤ 2
        · rw [if_pos h4, and12, hrd _ (by decide), hadd _ (a3 hty h4)]
        · rw [if_neg h4, and14, hrd _ (by decide), hadd _ (a4 hty (by omega))]
    · unfold offSparse
      rw [uget_ok (by omega) g16, ok_bind, if_neg h0]
      by_cases h4 : n ≤ 2
      · rw [if_pos h4, if_neg (show ¬ 2 < n by omega), hz]
        rw [show 16 + (n + 1) / 2 = 17 by omega] at gw
        rw [uget_ok (by omega) gw, ok_bind, show 16 * (n - 1) = 16 * ((n + 1) % 2) by omega]
        by_cases hty : ty = .mpe1
        · rw [if_pos hty, and14, hrd _ (by decide), hadd _ (a1 hty h4)]
        · rw [if_neg hty, and12, hrd _ (by decide), hadd _ (a3 hty h4)]
      · rw [if_neg h4, if_pos (by omega), slot_eq (w := w) (by omega) (by rw [Nat.add_assoc]; exact gw) hw, ok_bind, hy]
        have : y = d + 16384 * (mkM ty (fvS ty t L TH f m) % 4) := by
          by_cases hty : ty = .mpe1
          · have h1 := a2 hty (by omega)
            have h2 := a5 hty
            have h3 : mkM ty (fvS ty t L TH f m) = 0 ∨ mkM ty (fvS ty t L TH f m) = 2 := by rw [hty]; exact mkM_mpe1 _
            omega
          · have h1 := a4 hty (by omega)
            have h2 := a6 hty
            omega
        rw [this, ho]
        unfold add32
        rw [Nat.add_assoc]

end MRS.Mran.S32
