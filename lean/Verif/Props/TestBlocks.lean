import Verif.Proofs.TestBlocks
import Verif.Props.Words

/-!
# C104: the repository's own tests of the block algorithms

test/test_rank_select_algorithms.hpp compares each algorithm with a naive one on random words.  The
naive functions are right, the comparison accepts exactly the right answers, and every implemented
algorithm passes for every seed.
-/

set_option autoImplicit false

namespace MRS.Props
open MRS Outcome Spec

/-- C104: `naive_rank_for_words` is the rank, in every build. -/
theorem C104_naive_rank (b : Build) {x : Ptr} {W : Nat} (hx : x.base + W ≤ x.v.len)
    (hW : 64 * W < 2 ^ 64) {i : Nat} (hi : i < 64 * W) :
    Test.naiveRank b W x i = ok (rank (blockBits x W) i) :=
  Test.naiveRank_eq b hx (rep_block x W) (blockBits_length x W) (by rw [blockBits_length]; exact hW)
    (by rw [blockBits_length]; exact hi)

/-- C104: `naive_select_for_words` is the position of the one asked for. -/
theorem C104_naive_select (b : Build) {x : Ptr} {W : Nat} (hx : x.base + W ≤ x.v.len)
    (hW : 64 * W < 2 ^ 64) {k : Nat} (hk : k < ones (blockBits x W) (64 * W)) :
    ∃ p, Test.naiveSelect b W x k = ok p ∧ IsSelect (blockBits x W) k p :=
  Test.naiveSelect_eq b hx (rep_block x W) (blockBits_length x W) (by rw [blockBits_length]; exact hW)
    (by rw [blockBits_length]; exact hk)

/-- C104: on `W` words the test of a rank algorithm passes exactly if all its answers are right. -/
theorem C104_rank_check (b : Build) {W : Nat} {ws : List Word} (hl : ws.length = W)
    (hW : 64 * W < 2 ^ 64) (alg : Ptr → Nat → Outcome Nat) :
    Test.testRankWords b W ws alg = ok () ↔
      ∀ i, i < 64 * W → alg ⟨Vec.ofList ws, 0⟩ i = ok (rank (blockBits ⟨Vec.ofList ws, 0⟩ W) i) := by
  unfold Test.testRankWords forN
  rw [Test.compare_iff (alg ⟨Vec.ofList ws, 0⟩) (fun i => Test.naiveRank b W ⟨Vec.ofList ws, 0⟩ i)
    (fun i p => p = rank (blockBits ⟨Vec.ofList ws, 0⟩ W) i) _ _ (fun i _ hi =>
      ⟨_, C104_naive_rank b (by show 0 + W ≤ ws.length; omega) hW (by omega), fun p => Iff.rfl⟩)]
  constructor
  · intro h i hi
    obtain ⟨p, e, rfl⟩ := h i (Nat.zero_le i) (by omega)
    exact e
  · intro h i _ hi
    exact ⟨_, h i (by omega), rfl⟩

/-- C104: likewise for select. -/
theorem C104_select_check (b : Build) {W : Nat} {ws : List Word} (hl : ws.length = W) (h0 : 0 < W)
    (hW : 64 * W < 2 ^ 64) (alg : Ptr → Nat → Outcome Nat) :
    Test.testSelectWords b W ws alg = ok () ↔
      ∀ k, k < ones (blockBits ⟨Vec.ofList ws, 0⟩ W) (64 * W) →
        ∃ p, alg ⟨Vec.ofList ws, 0⟩ k = ok p ∧ IsSelect (blockBits ⟨Vec.ofList ws, 0⟩ W) k p := by
  have hx : (⟨Vec.ofList ws, 0⟩ : Ptr).base + W ≤ (⟨Vec.ofList ws, 0⟩ : Ptr).v.len := by
    show 0 + W ≤ ws.length; omega
  unfold Test.testSelectWords forN
  rw [C104_naive_rank b hx hW (by omega), ok_bind]
  unfold rank
  rw [show 64 * W - 1 + 1 = 64 * W by omega]
  rw [Test.compare_iff (alg ⟨Vec.ofList ws, 0⟩) (fun i => Test.naiveSelect b W ⟨Vec.ofList ws, 0⟩ i)
    (IsSelect (blockBits ⟨Vec.ofList ws, 0⟩ W)) _ _ (fun i _ hi => by
      obtain ⟨p, e, hs⟩ := C104_naive_select b hx hW (k := i) (by omega)
      exact ⟨p, e, fun p' => ⟨fun h => isSelect_unique h hs, fun h => h ▸ hs⟩⟩)]
  exact ⟨fun h i hi => h i (Nat.zero_le i) (by omega), fun h i _ hi => h i (by omega)⟩

theorem randomWords_length (W : Nat) (seed : Word) : (Test.randomWords W seed).length = W := by
  simp [Test.randomWords]

/-- C104: the four tests pass for every seed, every implemented mode and every build. -/
theorem C104_tests (b : Build) (seed : Word) {g : Nat → Scratch} (hg : ∀ i, (g i).sums 0 = 0) :
    (∀ mode ∈ rank256Modes, Test.testRank256 b mode g seed = ok ()) ∧
    (∀ mode ∈ rank512Modes, Test.testRank512 b mode g seed = ok ()) ∧
    (∀ mode ∈ select256Modes, Test.testSelect256 b mode g seed = ok ()) ∧
    (∀ mode ∈ select512Modes, Test.testSelect512 b mode g seed = ok ()) := by
  have h4 : (⟨Vec.ofList (Test.randomWords 4 seed), 0⟩ : Ptr).base + 4 ≤
      (⟨Vec.ofList (Test.randomWords 4 seed), 0⟩ : Ptr).v.len := by
    show 0 + 4 ≤ (Test.randomWords 4 seed).length
    rw [randomWords_length]; decide
  have h8 : (⟨Vec.ofList (Test.randomWords 8 seed), 0⟩ : Ptr).base + 8 ≤
      (⟨Vec.ofList (Test.randomWords 8 seed), 0⟩ : Ptr).v.len := by
    show 0 + 8 ≤ (Test.randomWords 8 seed).length
    rw [randomWords_length]; decide
  refine ⟨fun mode hm => ?_, fun mode hm => ?_, fun mode hm => ?_, fun mode hm => ?_⟩
  · exact (C104_rank_check b (randomWords_length 4 seed) (by decide) _).2 fun i hi =>
      C22_rank_u256 hm (hg i) h4 hi
  · exact (C104_rank_check b (randomWords_length 8 seed) (by decide) _).2 fun i hi =>
      C23_rank_u512 hm (hg i) h8 hi
  · exact (C104_select_check b (randomWords_length 4 seed) (by decide) (by decide) _).2 fun k hk =>
      C24_select_u256 hm (hg k) h4 hk
  · exact (C104_select_check b (randomWords_length 8 seed) (by decide) (by decide) _).2 fun k hk =>
      C24_select_u512 hm (hg k) h8 hk

/-- A debug build, scratch memory with arbitrary contents but for `sums[0]`. -/
example : Test.testSelect512 ⟨false, true, true, false⟩ SelectMode.avx512_avx512_pdep
    (fun i => ⟨fun _ => i, fun j => i * j⟩) 13#64 = ok () :=
  (C104_tests _ _ (fun i => Nat.mul_zero i)).2.2.2 _ (by decide)

example : Test.naiveRank ⟨false, true, true, true⟩ 4 exPtr 200 = ok 66 :=
  (C104_naive_rank _ (by decide) (by decide) (by decide)).trans (congrArg ok (by decide +kernel))

/-- An off-by-one rank is found, whatever the words. -/
example (b : Build) {ws : List Word} (hl : ws.length = 4) (h1 : ∃ w ∈ ws, w.getLsbD 0 = true) :
    Test.testRankWords b 4 ws (fun x i => ok (ones (blockBits x 4) i)) ≠ ok () := by
  rw [Ne, C104_rank_check b hl (by decide)]
  intro h
  obtain ⟨w, hw, hb⟩ := h1
  obtain ⟨j, hj, rfl⟩ := List.getElem_of_mem hw
  have h2 := h (64 * j) (by omega)
  have h3 : (64 * j) < (blockBits ⟨Vec.ofList ws, 0⟩ 4).length := by rw [blockBits_length]; omega
  have h4 : (blockBits ⟨Vec.ofList ws, 0⟩ 4)[64 * j] = true := by
    rw [(rep_block ⟨Vec.ofList ws, 0⟩ 4).get h3]
    unfold fbit
    rw [show 64 * j / 64 = j by omega, show 64 * j % 64 = 0 by omega]
    show (ws.getD (0 + j) _).getLsbD 0 = true
    rw [Nat.zero_add, List.getD_eq_getElem?_getD, List.getElem?_eq_getElem hj]
    exact hb
  have h5 := Outcome.ok.inj h2
  unfold rank at h5
  rw [ones_succ h3, h4, if_pos rfl] at h5
  omega

end MRS.Props
