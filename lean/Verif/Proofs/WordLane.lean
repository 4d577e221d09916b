import Verif.Proofs.WordSelect2

/-! # Vector lanes: popcount and prefix sums -/

set_option autoImplicit false

namespace MRS
open Outcome Spec

theorem byteAt_toNat (x : Word) (j : Nat) : (byteAt x j).toNat = by8 x.toNat j := by
  unfold byteAt by8
  rw [BitVec.extractLsb'_toNat, Nat.shiftRight_eq_div_pow, Nat.pow_mul]

theorem append_toNat {n m : Nat} (a : BitVec n) (c : BitVec m) :
    (a ++ c).toNat = c.toNat + 2 ^ m * a.toNat := by
  rw [BitVec.toNat_append, Nat.shiftLeft_eq]
  have hc : c.toNat < 2 ^ m := c.isLt
  rw [Nat.mul_comm a.toNat, Nat.add_comm, Nat.two_pow_add_eq_or_of_lt hc]

theorem ofBytes_toNat (f : Nat → BitVec 8) : (ofBytes f).toNat = pkf fun j => (f j).toNat := by
  unfold ofBytes
  rw [append_toNat, append_toNat, append_toNat, append_toNat, append_toNat, append_toNat,
    append_toNat]
  rfl

theorem ofHalves_toNat (f : Nat → BitVec 16) : (ofHalves f).toNat =
    (f 0).toNat + 65536 * ((f 1).toNat + 65536 * ((f 2).toNat + 65536 * (f 3).toNat)) := by
  unfold ofHalves
  rw [append_toNat, append_toNat, append_toNat]

theorem halfAt_toNat (x : Word) (j : Nat) :
    (halfAt x j).toNat = by8 x.toNat (2 * j) + 256 * by8 x.toNat (2 * j + 1) := by
  unfold halfAt by8
  rw [BitVec.extractLsb'_toNat, Nat.shiftRight_eq_div_pow]
  rw [show (2 : Nat) ^ (16 * j) = 256 ^ (2 * j) by
    rw [show (256 : Nat) = 2 ^ 8 from rfl, ← Nat.pow_mul, ← Nat.mul_assoc]]
  rw [Nat.pow_succ 256 (2 * j), ← Nat.div_div_eq_div_mul]
  generalize x.toNat / 256 ^ (2 * j) = y
  omega

theorem half_pk (c0 c1 c2 c3 c4 c5 c6 c7 : Nat) :
    (c0 + 256 * c1) + 65536 * ((c2 + 256 * c3) + 65536 * ((c4 + 256 * c5) + 65536 * (c6 + 256 * c7)))
      = pk c0 c1 c2 c3 c4 c5 c6 c7 := by
  unfold pk; omega

theorem psums (x : Nat → Nat) : psum x 1 = x 0 ∧ psum x 2 = x 0 + x 1 ∧
    psum x 3 = x 0 + x 1 + x 2 ∧ psum x 4 = x 0 + x 1 + x 2 + x 3 ∧
    psum x 5 = x 0 + x 1 + x 2 + x 3 + x 4 ∧ psum x 6 = x 0 + x 1 + x 2 + x 3 + x 4 + x 5 ∧
    psum x 7 = x 0 + x 1 + x 2 + x 3 + x 4 + x 5 + x 6 ∧
    psum x 8 = x 0 + x 1 + x 2 + x 3 + x 4 + x 5 + x 6 + x 7 := by
  simp only [psum]
  refine ⟨?_, ?_, ?_, ?_, ?_, ?_, ?_, ?_⟩ <;> omega

/-- A 16-bit shift moves the low bits of an odd byte into the even byte below it. -/
theorem srl16_toNat (x : Word) {k : Nat} (hk : k = 1 ∨ k = 2 ∨ k = 4) :
    (srl16 x k).toNat = pkf fun j => by8 x.toNat j / 2 ^ k +
      2 ^ (8 - k) * ((if j % 2 = 0 then by8 x.toNat (j + 1) else 0) % 2 ^ k) := by
  unfold srl16
  rw [ofHalves_toNat]
  simp only [BitVec.toNat_ushiftRight, Nat.shiftRight_eq_div_pow, halfAt_toNat]
  have key : ∀ a c : Nat, (a + 256 * c) / 2 ^ k =
      (a / 2 ^ k + 2 ^ (8 - k) * (c % 2 ^ k)) + 256 * (c / 2 ^ k + 2 ^ (8 - k) * (0 % 2 ^ k)) := by
    intro a c
    rcases hk with rfl | rfl | rfl <;> omega
  rw [key, key, key, key]
  rw [half_pk]
  rfl

theorem by8_srl16 (x : Word) {k : Nat} (hk : k = 1 ∨ k = 2 ∨ k = 4) {j : Nat} (hj : j < 8) :
    ∃ y, by8 (srl16 x k).toNat j = by8 x.toNat j / 2 ^ k + 2 ^ (8 - k) * (y % 2 ^ k) := by
  refine ⟨if j % 2 = 0 then by8 x.toNat (j + 1) else 0, ?_⟩
  rw [srl16_toNat x hk]
  exact by8_pkf (f := fun j => by8 x.toNat j / 2 ^ k +
    2 ^ (8 - k) * ((if j % 2 = 0 then by8 x.toNat (j + 1) else 0) % 2 ^ k))
    (fun j _ => shr_lt (by omega) (by8_lt _ _)) hj

theorem by8_and (x y : Word) (j : Nat) :
    by8 (x &&& y).toNat j = by8 x.toNat j &&& by8 y.toNat j := by
  unfold by8
  rw [BitVec.toNat_and, show (256 : Nat) ^ j = 2 ^ (8 * j) by rw [Nat.pow_mul], Nat.and_div_two_pow]
  exact Nat.and_mod_two_pow (n := 8)

theorem by8_ofBytes (f : Nat → BitVec 8) {j : Nat} (hj : j < 8) :
    by8 (ofBytes f).toNat j = (f j).toNat := by
  rw [ofBytes_toNat]
  exact by8_pkf (f := fun j => (f j).toNat) (fun j _ => (f j).isLt) hj

theorem by8_sub8 (x y : Word) {j : Nat} (hj : j < 8) (h : by8 y.toNat j ≤ by8 x.toNat j) :
    by8 (sub8 x y).toNat j = by8 x.toNat j - by8 y.toNat j := by
  unfold sub8
  rw [by8_ofBytes _ hj, BitVec.toNat_sub, byteAt_toNat, byteAt_toNat]
  have := by8_lt x.toNat j
  omega

theorem by8_add8 (x y : Word) {j : Nat} (hj : j < 8) :
    by8 (add8 x y).toNat j = (by8 x.toNat j + by8 y.toNat j) % 256 := by
  unfold add8
  rw [by8_ofBytes _ hj, BitVec.toNat_add, byteAt_toNat, byteAt_toNat]

theorem sad_eq (x : Word) : sad x = psum (by8 x.toNat) 8 := by
  unfold sad
  simp only [byteAt_toNat]
  simp [psum]

/-- One lane of `popcount_m256i` / `popcount_m512i` counts the ones of that lane. -/
theorem popcountLane_eq (v : Word) : popcountLane v = wcnt v 64 := by
  unfold popcountLane
  show sad (add8 (add8 ((sub8 v (srl16 v 1 &&& ofBytes fun _ => 0x55#8)) &&& ofBytes fun _ => 0x33#8)
    (srl16 (sub8 v (srl16 v 1 &&& ofBytes fun _ => 0x55#8)) 2 &&& ofBytes fun _ => 0x33#8))
    (srl16 (add8 ((sub8 v (srl16 v 1 &&& ofBytes fun _ => 0x55#8)) &&& ofBytes fun _ => 0x33#8)
    (srl16 (sub8 v (srl16 v 1 &&& ofBytes fun _ => 0x55#8)) 2 &&& ofBytes fun _ => 0x33#8)) 4) &&&
      ofBytes fun _ => 0x0F#8) = _
  generalize h1 : sub8 v (srl16 v 1 &&& ofBytes fun _ => 0x55#8) = t1
  generalize h2 : add8 (t1 &&& ofBytes fun _ => 0x33#8) (srl16 t1 2 &&& ofBytes fun _ => 0x33#8) = t2
  generalize h3 : (add8 t2 (srl16 t2 4) &&& ofBytes fun _ => 0x0F#8) = t3
  have e1 : ∀ j, j < 8 → by8 t1.toNat j = f1 (by8 v.toNat j) := by
    intro j hj
    obtain ⟨y, hy⟩ := by8_srl16 v (k := 1) (by omega) hj
    have hm : by8 (srl16 v 1 &&& ofBytes fun _ => 0x55#8).toNat j = (by8 v.toNat j / 2) &&& 0x55 := by
      rw [by8_and, hy, by8_ofBytes _ hj]
      exact shr_mask 1 (by omega) (by8_lt _ _) (by decide)
    have hf := f_facts (by8_lt v.toNat j)
    rw [← h1, by8_sub8 _ _ hj (by rw [hm]; exact hf.1), hm]
    rfl
  have e2 : ∀ j, j < 8 → by8 t2.toNat j = f2 (by8 v.toNat j) := by
    intro j hj
    obtain ⟨y, hy⟩ := by8_srl16 t1 (k := 2) (by omega) hj
    have hm : by8 (srl16 t1 2 &&& ofBytes fun _ => 0x33#8).toNat j = (by8 t1.toNat j / 4) &&& 0x33 := by
      rw [by8_and, hy, by8_ofBytes _ hj]
      exact shr_mask 2 (by omega) (by8_lt _ _) (by decide)
    have hlt := f2_lt (by8_lt v.toNat j)
    rw [← h2, by8_add8 _ _ hj, hm, by8_and, by8_ofBytes _ hj, e1 j hj]
    exact Nat.mod_eq_of_lt hlt
  have e3 : ∀ j, j < 8 → by8 t3.toNat j = bo (by8 v.toNat j) := by
    intro j hj
    obtain ⟨y, hy⟩ := by8_srl16 t2 (k := 4) (by omega) hj
    have hf := f_facts (by8_lt v.toNat j)
    rw [← h3, by8_and, by8_add8 _ _ hj, hy, by8_ofBytes _ hj, e2 j hj]
    show _ &&& (2 ^ 4 - 1) = _
    rw [Nat.and_two_pow_sub_one_eq_mod]
    omega
  rw [sad_eq, psum_congr (g := fun j => bo (by8 v.toNat j)) (fun j hj => e3 j hj), ← ncnt_bytes]
  rfl

/-! ## Prefix sums of lanes -/

theorem add64_small {a c : Nat} (h : a + c < 2 ^ 64) : add64 a c = a + c := by
  unfold add64; exact Nat.mod_eq_of_lt h

/-- `prefixsum_m256i`: lane `j` receives the sum of lanes `0..j`. -/
theorem prefixsum256_eq {x : Lanes} (h : psum x 4 < 2 ^ 64) {j : Nat} (hj : j < 4) :
    prefixsum256 x j = psum x (j + 1) := by
  obtain ⟨p1, p2, p3, p4, -⟩ := psums x
  have h' : x 0 + x 1 + x 2 + x 3 < 18446744073709551616 := by rw [← p4]; exact h
  have : j = 0 ∨ j = 1 ∨ j = 2 ∨ j = 3 := by omega
  rcases this with rfl | rfl | rfl | rfl <;> simp only [Nat.reduceAdd, p1, p2, p3, p4] <;>
    simp [prefixsum256, permutex, addL, mmShuffle, Nat.testBit_eq_decide_div_mod_eq, add64, W64] <;> omega

/-- `prefixsum_m512i`: lane `j` receives the sum of lanes `0..j`. -/
theorem prefixsum512_eq {x : Lanes} (h : psum x 8 < 2 ^ 64) {j : Nat} (hj : j < 8) :
    prefixsum512 x j = psum x (j + 1) := by
  obtain ⟨p1, p2, p3, p4, p5, p6, p7, p8⟩ := psums x
  have h' : x 0 + x 1 + x 2 + x 3 + x 4 + x 5 + x 6 + x 7 < 18446744073709551616 := by
    rw [← p8]; exact h
  have : j = 0 ∨ j = 1 ∨ j = 2 ∨ j = 3 ∨ j = 4 ∨ j = 5 ∨ j = 6 ∨ j = 7 := by omega
  rcases this with rfl | rfl | rfl | rfl | rfl | rfl | rfl | rfl <;>
    simp only [Nat.reduceAdd, p1, p2, p3, p4, p5, p6, p7, p8] <;>
    simp [prefixsum512, permutexvar, addL, Nat.testBit_eq_decide_div_mod_eq, add64, W64] <;> omega

end MRS
