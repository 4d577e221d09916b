import Verif.Proofs.Avx2Build
import Verif.Proofs.Avx512Build
import Verif.Model.Usage
import Mathlib.Tactic.SplitIfs

/-!
# Both segment trees at every height

The contracts of the two families with the height as a parameter.
-/

set_option autoImplicit false

namespace MRS
open Outcome Spec

namespace TreeFam

/-- Leaf node class. -/
def leaf : TreeFam → NodeCfg
  | .avx2 => avx2Node128 | .avx512 => avx512Node512

/-- Inner node classes, root first. -/
def cs : TreeFam → Nat → List NodeCfg
  | .avx2 => avx2Cs | .avx512 => avx512Cs

/-- Greatest height. -/
def maxH : TreeFam → Nat
  | .avx2 => 4 | .avx512 => 3

/-- `t` represents `A 0 .. A (n-1)`. -/
def Inv (fam : TreeFam) (H M : Nat) (A : Nat → Nat) (n : Nat) (t : Tree) : Prop :=
  TreeInv fam.leaf (fam.cs H) M A n t

/-- The buffer address is aligned as the accesses require. -/
def Aligned (fam : TreeFam) (b : Build) (addr n H : Nat) : Prop :=
  TreeAlign b addr n fam.leaf (fam.cs H)

/-- The vector load of `update` (avx2/node128.hpp line 57) is aligned: the first node starts a
multiple of 32 bytes away from every leaf. -/
def UpAligned (fam : TreeFam) (b : Build) (addr H : Nat) : Prop :=
  fam = .avx2 → b.strictAlign = true → b.simd2 = true → (addr + 4 * H) % 32 = 0

/-- Domain on which the signed comparisons of the SIMD search are adequate: always, except for the
`avx2` tree of height 4 over values above 256 with a total of `2^31` or more. -/
def SearchSafe (fam : TreeFam) (b : Build) (H M total : Nat) : Prop :=
  fam = .avx2 → H = 4 → b.simd2 = true → M ≤ 256 ∨ total < 2 ^ 31

end TreeFam

section
variable {b : Build} {fam : TreeFam} {H M n : Nat} {A : Nat → Nat} {t : Tree}

theorem TreeFam.Aligned.of_lax (h : b.strictAlign = false) (addr : Nat) : fam.Aligned b addr n H :=
  TreeAlign.of_lax h _ _ _ _

theorem tree_sum_ok (hH : 1 ≤ H) (hH' : H ≤ fam.maxH) (h : fam.Inv H M A n t) (hM : M ≤ 512)
    (ha : fam.Aligned b t.mem.addr n H) {i : Nat} (hi : i < n) :
    fam.sum b H t i = ok (psum A (i + 1)) := by
  have hs : i < t.size := by rw [h.size]; exact hi
  cases fam with
  | avx2 =>
    show avx2Sum b H t i = _
    have hH' : H ≤ 4 := hH'
    unfold avx2Sum
    rw [massert_ok (by simpa using hs), ok_bind]
    have : H = 1 ∨ H = 2 ∨ H = 3 ∨ H = 4 := by omega
    rcases this with rfl | rfl | rfl | rfl
    · exact avx2Sum1_ok h hM ha hi
    · exact avx2Sum2_ok h hM ha hi
    · exact avx2Sum3_ok h hM ha hi
    · exact avx2Sum4_ok h hM ha hi
  | avx512 =>
    show avx512Sum b H t i = _
    have hH' : H ≤ 3 := hH'
    unfold avx512Sum
    rw [massert_ok (by simpa using hs), ok_bind]
    have : H = 1 ∨ H = 2 ∨ H = 3 := by omega
    rcases this with rfl | rfl | rfl
    · exact avx512Sum1_ok h hM ha hi
    · exact avx512Sum2_ok h hM ha hi
    · exact avx512Sum3_ok h hM ha hi

theorem tree_update_ok (hH : 1 ≤ H) (hH' : H ≤ fam.maxH) (h : fam.Inv H M A n t) (hM : M ≤ 512)
    (ha : fam.Aligned b t.mem.addr n H) (hu : fam.UpAligned b t.mem.addr H) {i : Nat} {sign : Bool}
    (hi : i < n)
    (hp : sign = true → 1 ≤ A i) (hq : sign = false → A i + 1 ≤ M) :
    ∃ t', fam.update b H t i sign = ok t' ∧ t'.mem.addr = t.mem.addr ∧
      fam.Inv H M (updA A i sign) n t' := by
  have hs : i < t.size := by rw [h.size]; exact hi
  cases fam with
  | avx2 =>
    show ∃ t', avx2Update b H t i sign = _ ∧ _
    have hH' : H ≤ 4 := hH'
    unfold avx2Update
    rw [massert_ok (by simpa using hs), ok_bind]
    have : H = 1 ∨ H = 2 ∨ H = 3 ∨ H = 4 := by omega
    rcases this with rfl | rfl | rfl | rfl
    · exact avx2Update1_ok h hM ha (hu rfl) hi hp hq
    · exact avx2Update2_ok h hM ha (hu rfl) hi hp hq
    · exact avx2Update3_ok h hM ha (hu rfl) hi hp hq
    · exact avx2Update4_ok h hM ha (hu rfl) hi hp hq
  | avx512 =>
    show ∃ t', avx512Update b H t i sign = _ ∧ _
    have hH' : H ≤ 3 := hH'
    unfold avx512Update
    rw [massert_ok (by simpa using hs), ok_bind]
    have : H = 1 ∨ H = 2 ∨ H = 3 := by omega
    rcases this with rfl | rfl | rfl
    · exact avx512Update1_ok h hM ha hi hp hq
    · exact avx512Update2_ok h hM ha hi hp hq
    · exact avx512Update3_ok h hM ha hi hp hq

/-- Outside the bad ranks the signed comparisons at the root of an `avx2` tree of height 4 are
adequate. -/
theorem simd_of_not_bad {P S : Nat → Nat} {x : Nat} (hd : ∀ a d, P (a + d) ≤ P a + d * 512)
    (hm : ∀ a b, a ≤ b → P a ≤ P b) (h0 : P 0 = 0) (hS : ∀ m, S m = P ((m - 1) * 524288))
    (hx : x < 2 ^ 40) (hb : ¬ BadRank P x) : SimdOK avx2Node32 S x := by
  have hnd : x < P (23 * 524288) + 2 ^ 31 := by
    by_cases h : x < P (23 * 524288) + 2 ^ 31
    · exact h
    · exact absurd (Or.inr (by omega)) hb
  have hle : ∀ m, P m ≤ m * 512 := by
    intro m
    have := hd 0 m
    rw [Nat.zero_add] at this; omega
  refine ⟨?_, ?_, ?_, ?_⟩
  · show 2 * x < 256 ^ 8
    omega
  · intro s hs
    have hs : s < 4 := hs
    show 2 * S (s * 8) < 256 ^ 8
    rw [hS]
    have := hle ((s * 8 - 1) * 524288)
    omega
  · intro j hj hi
    have hj : j < 32 := hj
    have hlo : S (j / 8 * 8) ≤ x := hi.lo
    have hhi : j / 8 + 1 < 4 → x < S ((j / 8 + 1) * 8) := hi.hi
    show 2 * (S (j + 1) - S (8 * (j / 8))) < 256 ^ 4 ∨ (false = false ∧ 4 = 4 ∧ j % 8 = 7 ∧ x < S j)
    obtain ⟨s, z, hz, rfl⟩ : ∃ s z, z < 8 ∧ j = 8 * s + z := ⟨j / 8, j % 8, by omega, by omega⟩
    have e1 : (8 * s + z) / 8 = s := by omega
    rw [e1] at hlo hhi ⊢
    rw [hS] at hlo
    rw [hS, hS]
    by_cases hs0 : s = 0
    · subst hs0
      refine Or.inl ?_
      have := hle ((8 * 0 + z + 1 - 1) * 524288)
      omega
    · have h1 := hd ((8 * s - 1) * 524288) ((z + 1) * 524288)
      rw [show (8 * s - 1) * 524288 + (z + 1) * 524288 = (8 * s + z + 1 - 1) * 524288 by omega] at h1
      by_cases hz7 : z < 7
      · exact Or.inl (by omega)
      · have hz7 : z = 7 := by omega
        subst hz7
        rw [show 8 * s + 7 + 1 - 1 = 8 * s + 7 by omega] at h1 ⊢
        by_cases hf : P ((8 * s + 7) * 524288) = P ((8 * s - 1) * 524288) + 2 ^ 31
        · refine Or.inr ⟨rfl, rfl, by omega, ?_⟩
          rw [hS]
          by_cases hc : x < P ((8 * s + 7 - 1) * 524288)
          · exact hc
          · exfalso
            have hc := Nat.le_of_not_lt hc
            rw [show 8 * s + 7 - 1 = 8 * s + 6 by omega] at hc
            apply hb
            by_cases h3 : s = 3
            · subst h3
              by_cases h4 : x < P ((8 * 3 + 7) * 524288)
              · exact Or.inl ⟨3, by omega, by omega, hf, hc, h4⟩
              · refine Or.inr ?_
                rw [show 8 * 3 - 1 = 23 by omega] at hf
                omega
            · refine Or.inl ⟨s, by omega, by omega, hf, hc, ?_⟩
              have := hhi (by omega)
              rw [hS, show (s + 1) * 8 - 1 = 8 * s + 7 by omega] at this
              exact this
        · exact Or.inl (by omega)
  · show 2 * (x - S ((4 - 1) * 8)) < 256 ^ 4
    rw [hS, show (4 - 1) * 8 - 1 = 23 by omega]
    omega

/-- Small values or a small total exclude the bad ranks. -/
theorem not_bad_of_safe {P : Nat → Nat} {M total x : Nat} (hd : ∀ a d, P (a + d) ≤ P a + d * M)
    (ht : ∀ a, P a ≤ total) (hx : x < P (32 * 524288))
    (h : M ≤ 256 ∨ total < 2 ^ 31) : ¬ BadRank P x := by
  have hxt := ht (32 * 524288)
  rintro (⟨s, h1, h3, e, _, _⟩ | hb)
  · have h2 := ht ((8 * s + 7) * 524288)
    have h4 := hd ((8 * s - 1) * 524288) (8 * 524288)
    rw [show (8 * s - 1) * 524288 + 8 * 524288 = (8 * s + 7) * 524288 by omega] at h4
    have h5 : M ≤ 256 → 8 * 524288 * M ≤ 8 * 524288 * 256 := fun h => Nat.mul_le_mul_left _ h
    rcases h with h | h
    · have := h5 h; omega
    · omega
  · have h4 := hd (23 * 524288) (9 * 524288)
    rw [show 23 * 524288 + 9 * 524288 = 32 * 524288 by omega] at h4
    have h5 : M ≤ 256 → 9 * 524288 * M ≤ 9 * 524288 * 256 := fun h => Nat.mul_le_mul_left _ h
    rcases h with h | h
    · have := h5 h; omega
    · omega

/-- `search` outside the bad ranks. -/
theorem tree_search_sharp (hH : 1 ≤ H) (hH' : H ≤ fam.maxH) (h : fam.Inv H M A n t) (hM : M ≤ 512)
    (ha : fam.Aligned b t.mem.addr n H) {x : Nat} (hbad : ¬ fam.SearchBad b H (psum A) x)
    (hx : x < psum A n) :
    ∃ r, fam.search b H t x = ok r ∧ Searched A n x r := by
  cases fam with
  | avx2 =>
    show ∃ r, avx2Search b H t x = _ ∧ _
    have hH' : H ≤ 4 := hH'
    have : H = 1 ∨ H = 2 ∨ H = 3 ∨ H = 4 := by omega
    rcases this with rfl | rfl | rfl | rfl
    · exact avx2Search1_ok h hM ha hx
    · exact avx2Search2_ok h hM ha hx
    · exact avx2Search3_ok h hM ha hx
    · refine avx2Search4_ok h hM ha hx ?_
      intro hb
      have hbr : ¬ BadRank (psum A) x := fun hbr => hbad ⟨rfl, rfl, hb, hbr⟩
      have htot := psum_total_lt h.le hM h.nle n h.zero
      refine simd_of_not_bad (P := psum A) (fun a d => ?_) (fun a b hab => psum_mono A hab)
        (psum_zero A) (fun m => ?_) (by omega) hbr
      · exact psum_diff_le (fun j => Nat.le_trans (h.le j) hM) a d
      · show psum A (0 + (m - 1) * 524288) - psum A 0 = _
        rw [psum_zero, Nat.zero_add, Nat.sub_zero]
  | avx512 =>
    show ∃ r, avx512Search b H t x = _ ∧ _
    have hH' : H ≤ 3 := hH'
    have : H = 1 ∨ H = 2 ∨ H = 3 := by omega
    rcases this with rfl | rfl | rfl
    · exact avx512Search1_ok h hM ha hx
    · exact avx512Search2_ok h hM ha hx
    · exact avx512Search3_ok h hM ha hx

theorem not_searchBad_of_safe (h : fam.Inv H M A n t) (hs : fam.SearchSafe b H M (psum A n)) {x : Nat}
    (hx : x < psum A n) : ¬ fam.SearchBad b H (psum A) x := by
  rintro ⟨rfl, rfl, hb, hbad⟩
  have hn : n ≤ 32 * 524288 := h.nspan
  refine not_bad_of_safe (fun a d => psum_diff_le h.le a d)
    (fun a => ?_) ?_ (hs rfl rfl hb) hbad
  · rcases Nat.le_total a n with h1 | h1
    · exact psum_mono A h1
    · exact Nat.le_of_eq (psum_beyond h.zero h1)
  · rw [psum_beyond h.zero hn]; exact hx

theorem tree_search_ok (hH : 1 ≤ H) (hH' : H ≤ fam.maxH) (h : fam.Inv H M A n t) (hM : M ≤ 512)
    (ha : fam.Aligned b t.mem.addr n H) (hsafe : fam.SearchSafe b H M (psum A n)) {x : Nat}
    (hx : x < psum A n) :
    ∃ r, fam.search b H t x = ok r ∧ Searched A n x r :=
  tree_search_sharp hH hH' h hM ha (not_searchBad_of_safe h hsafe hx) hx

theorem tree_height_range (hn : n ≤ 2 ^ 24) : 1 ≤ fam.height n ∧ fam.height n ≤ fam.maxH := by
  cases fam with
  | avx2 => show 1 ≤ avx2Height n ∧ avx2Height n ≤ 4; unfold avx2Height; split_ifs <;> omega
  | avx512 => show 1 ≤ avx512Height n ∧ avx512Height n ≤ 3; unfold avx512Height; split_ifs <;> omega

theorem tree_build_ok {addr : Nat} {input : Vec Nat} (h0 : 0 < n) (hn : n ≤ 2 ^ 24)
    (hH : H = fam.height n) (hM : M ≤ 512) (hin : InputOK b fam.family M A input n)
    (ha : fam.Aligned b addr n H) :
    ∃ t', treeBuild b fam.family H addr input n t = ok t' ∧ t'.mem.addr = addr ∧
      fam.Inv H M A n t' := by
  cases fam with
  | avx2 =>
    have hH : H = avx2Height n := hH
    unfold avx2Height at hH
    split_ifs at hH with h1 h2 h3
    · subst hH; exact avx2Build1_ok h0 h1 hM hin ha
    · subst hH; exact avx2Build2_ok (by omega) h2 hM hin ha
    · subst hH; exact avx2Build3_ok (by omega) h3 hM hin ha
    · subst hH; exact avx2Build4_ok (by omega) hn hM hin ha
  | avx512 =>
    have hH : H = avx512Height n := hH
    unfold avx512Height at hH
    split_ifs at hH with h1 h2
    · subst hH; exact avx512Build1_ok h0 h1 hM hin ha
    · subst hH; exact avx512Build2_ok (by omega) h2 hM hin ha
    · subst hH; exact avx512Build3_ok (by omega) hn hM hin ha

end

end MRS
