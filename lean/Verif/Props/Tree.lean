import Verif.Proofs.NodeSpec
import Verif.Proofs.Height
import Mathlib.Tactic.SplitIfs

/-!
# C12–C18, C27: segment trees and their nodes

`fam` ranges over `mrs::avx2::segment_tree` and `mrs::avx512::segment_tree`, `b` over build flags,
`vals` over arrays of counters, `us` over sequences of `update` calls.  The current contents
`bumps vals us` and the sums `total` are computed by `Spec` on plain lists.
-/

set_option autoImplicit false

namespace MRS.Props
open MRS Outcome Spec

/-! ## Concrete instances used as non-triviality witnesses -/

/-- 200 counters: two leaves and a root in an `avx2` tree. -/
def exVals : List Nat := (List.range 200).map (· % 257)

def exDebug : Build := ⟨false, true, true, false⟩
def exScalar : Build := ⟨true, false, false, true⟩

theorem exVals_valid : TreeFam.Valid .avx2 exDebug 2 512 16 exVals :=
  ⟨by decide +kernel, by decide +kernel, by decide +kernel, by decide, by decide +kernel, by decide, by decide⟩

theorem exVals_valid_scalar : TreeFam.Valid .avx2 exScalar 2 512 16 exVals :=
  ⟨by decide +kernel, by decide +kernel, by decide +kernel, by decide, by decide +kernel, by decide, by decide⟩

theorem exVals_valid512 : TreeFam.Valid .avx512 exDebug 1 256 16 exVals :=
  ⟨by decide +kernel, by decide +kernel, by decide +kernel, by decide, by decide +kernel, by decide, by decide⟩

/-- Updates in both leaves, the second of them in the last child. -/
def exUps : List (Nat × Bool) := [(0, false), (199, true), (127, false), (128, true)]

theorem exUps_ok : BumpsOK 512 exVals exUps := by
  refine ⟨?_, ?_, ?_, ?_, ?_, ?_, ?_, ?_, ?_, ?_, ?_, ?_, trivial⟩ <;> decide +kernel

theorem exUps_ok256 : BumpsOK 256 exVals exUps := by
  refine ⟨?_, ?_, ?_, ?_, ?_, ?_, ?_, ?_, ?_, ?_, ?_, ?_, trivial⟩ <;> decide +kernel

section
variable {fam : TreeFam} {b : Build} {H M addr : Nat} {vals : List Nat} {us : List (Nat × Bool)}

/-! ## C12 sum -/

/-- After `build` and any valid updates `sum(i)` is the sum of the first `i + 1` counters. -/
theorem C12_sum (hv : fam.Valid b H M addr vals) (hu : BumpsOK M vals us) {i : Nat}
    (hi : i < vals.length) :
    (do let t ← fam.run b H addr vals us; fam.sum b H t i) =
      ok (total (bumps vals us) (i + 1)) := by
  obtain ⟨t, e, ht⟩ := TreeFam.run_ok hv hu
  rw [e, ok_bind]
  exact ht.sum (by rw [bumps_length]; exact hi)

example : (do let t ← TreeFam.run .avx2 exDebug 2 16 exVals exUps; TreeFam.sum .avx2 exDebug 2 t 198) =
    ok 19702 :=
  (C12_sum exVals_valid exUps_ok (by decide +kernel)).trans (congrArg ok (by decide +kernel))

/-! ## C13 update is a point update -/

/-- Update `i` moves `sum(j)` by one exactly for `j ≥ i`. -/
theorem C13_update (hv : fam.Valid b H M addr vals) {i : Nat} {sign : Bool}
    (hu : BumpsOK M vals (us ++ [(i, sign)])) {j : Nat} (hj : j < vals.length) :
    ∃ t t' s, fam.run b H addr vals us = ok t ∧ fam.update b H t i sign = ok t' ∧
      fam.sum b H t j = ok s ∧
      fam.sum b H t' j = ok (if i ≤ j then (if sign then s - 1 else s + 1) else s) ∧
      (sign = true → i ≤ j → 1 ≤ s) := by
  have hsplit : ∀ (us : List (Nat × Bool)) (vals : List Nat), BumpsOK M vals (us ++ [(i, sign)]) →
      BumpsOK M vals us ∧ BumpsOK M (bumps vals us) [(i, sign)] := by
    intro us
    induction us with
    | nil => intro vals h; exact ⟨trivial, h⟩
    | cons u us ih =>
      intro vals h
      obtain ⟨a, b, c, d⟩ := h
      exact ⟨⟨a, b, c, (ih _ d).1⟩, (ih _ d).2⟩
  obtain ⟨h1, hi, hp, hq, _⟩ := hsplit us vals hu
  obtain ⟨t, e, ht⟩ := TreeFam.run_ok hv h1
  obtain ⟨t', e', ht'⟩ := ht.update hi hp hq
  have hj' : j < (bumps vals us).length := by rw [bumps_length]; exact hj
  refine ⟨t, t', _, e, e', ht.sum hj', ?_, ?_⟩
  · rw [ht'.sum (by rw [bump_length]; exact hj'), total_bump hi hp]
    unfold bumpS
    by_cases h : i ≤ j
    · rw [if_pos h, if_pos (by omega)]
    · rw [if_neg h, if_neg (by omega)]
  · intro hs hij
    have h1 := hp hs
    have h2 : total (bumps vals us) (i + 1) = total (bumps vals us) i + (bumps vals us).getD i 0 := by
      rw [← psum_arr, ← psum_arr]; rfl
    have h3 := total_mono (bumps vals us) (show i + 1 ≤ j + 1 by omega)
    exact Nat.le_trans (show 1 ≤ (bumps vals us).getD i 0 from h1) (by omega)

example : ∃ t t' s, TreeFam.run .avx2 exDebug 2 16 exVals exUps = ok t ∧
    TreeFam.update .avx2 exDebug 2 t 198 false = ok t' ∧
    TreeFam.sum .avx2 exDebug 2 t 199 = ok s ∧ TreeFam.sum .avx2 exDebug 2 t' 199 = ok (s + 1) := by
  obtain ⟨t, t', s, h1, h2, h3, h4, _⟩ := C13_update (us := exUps) (i := 198) (sign := false) (j := 199)
    exVals_valid (by
      refine ⟨?_, ?_, ?_, ?_, ?_, ?_, ?_, ?_, ?_, ?_, ?_, ?_, ?_, ?_, ?_, trivial⟩ <;> decide +kernel)
    (by decide +kernel)
  exact ⟨t, t', s, h1, h2, h3, h4⟩

/-! ## C14 search -/

/-- After `build` and any valid updates `search(x)` returns the position `p` of the counter in
which the `x`-th unit lies, and the sum of the counters before it.  (Domain: see C28.) -/
theorem C14_search (hv : fam.Valid b H M addr vals) (hu : BumpsOK M vals us)
    (hs : fam.SearchSafe b H M (total (bumps vals us) vals.length)) {x : Nat}
    (hx : x < total (bumps vals us) vals.length) :
    ∃ p, (do let t ← fam.run b H addr vals us; fam.search b H t x) =
        ok (p, total (bumps vals us) p) ∧ p < vals.length ∧
      total (bumps vals us) p ≤ x ∧ x < total (bumps vals us) (p + 1) := by
  obtain ⟨t, e, ht⟩ := TreeFam.run_ok hv hu
  have hl := bumps_length us vals
  obtain ⟨p, s, es, hp, rfl, h2, h3⟩ := ht.search (by rw [hl]; exact hs) (by rw [hl]; exact hx)
  exact ⟨p, by rw [e, ok_bind]; exact es, by rw [← hl]; exact hp, h2, h3⟩

/-- The position is the smallest one whose sum exceeds `x`, hence unique. -/
theorem C14_search_smallest {vals : List Nat} {x p : Nat} (h1 : total vals p ≤ x)
    (h2 : x < total vals (p + 1)) (q : Nat) : x < total vals (q + 1) ↔ p ≤ q := by
  constructor
  · intro h
    rcases Nat.lt_or_ge q p with hq | hq
    · have := total_mono vals (show q + 1 ≤ p by omega); omega
    · exact hq
  · intro h
    exact Nat.lt_of_lt_of_le h2 (total_mono vals (by omega))

example : ∃ p, (do let t ← TreeFam.run .avx2 exDebug 2 16 exVals exUps; TreeFam.search .avx2 exDebug 2 t 15000) =
        ok (p, total (bumps exVals exUps) p) ∧ p < 200 ∧
      total (bumps exVals exUps) p ≤ 15000 ∧ 15000 < total (bumps exVals exUps) (p + 1) :=
  C14_search exVals_valid exUps_ok (by intro _ h; cases h) (by decide +kernel)

/-! ## C15 height -/

/-- Number of counters a tree of height `h` can hold. -/
def capacity : TreeFam → Nat → Nat
  | .avx2, 1 => 2 ^ 7 | .avx2, 2 => 2 ^ 13 | .avx2, 3 => 2 ^ 19 | .avx2, 4 => 2 ^ 24
  | .avx512, 1 => 2 ^ 9 | .avx512, 2 => 2 ^ 17 | .avx512, 3 => 2 ^ 24
  | _, _ => 0

/-- `height(n)` is 0 exactly for `n > 2^24`. -/
theorem C15_height_zero (fam : TreeFam) (n : Nat) : fam.height n = 0 ↔ 2 ^ 24 < n := by
  cases fam
  · simp only [TreeFam.height, avx2Height]; repeat' split
    all_goals omega
  · simp only [TreeFam.height, avx512Height]; repeat' split
    all_goals omega

/-- Otherwise it is the least height with sufficient capacity. -/
theorem C15_height_least (fam : TreeFam) {n : Nat} (h : n ≤ 2 ^ 24) :
    n ≤ capacity fam (fam.height n) ∧
      ∀ k, 1 ≤ k → k < fam.height n → capacity fam k < n := by
  cases fam
  · simp only [TreeFam.height, avx2Height]
    repeat' split
    all_goals refine ⟨by simp only [capacity]; omega, fun k h1 h2 => ?_⟩
    · omega
    · have : k = 1 := by omega
      subst this; simp only [capacity]; omega
    · have : k = 1 ∨ k = 2 := by omega
      rcases this with rfl | rfl <;> simp only [capacity] <;> omega
    · have : k = 1 ∨ k = 2 ∨ k = 3 := by omega
      rcases this with rfl | rfl | rfl <;> simp only [capacity] <;> omega
  · simp only [TreeFam.height, avx512Height]
    repeat' split
    all_goals refine ⟨by simp only [capacity]; omega, fun k h1 h2 => ?_⟩
    · omega
    · have : k = 1 := by omega
      subst this; simp only [capacity]; omega
    · have : k = 1 ∨ k = 2 := by omega
      rcases this with rfl | rfl <;> simp only [capacity] <;> omega

/-- Number of nodes on level `l` (root = 0) of a tree of height `H` over `n` counters. -/
def levelNodes (fam : TreeFam) (H n l : Nat) : Nat :=
  (n + capacity fam (H - l) - 1) / capacity fam (H - l)

/-- The header written by `build` gives, for each level, the number of nodes needed to cover the
array; the root level has one node. -/
theorem C15_levels (hv : fam.Valid b H M addr vals) :
    ∃ t, fam.build b H addr vals = ok t ∧ t.nn b 0 = ok 1 ∧
      ∀ l, l < H → t.nn b l = ok (levelNodes fam H vals.length l) := by
  obtain ⟨t, e, ht, hadr⟩ := hv.build
  refine ⟨t, e, ?_⟩
  have hl := ht.lo
  have hh := ht.hi
  have hcap := (C15_height_least fam hv.le).1
  rw [← hv.height] at hcap
  have hpos := hv.pos
  have key : ∀ l, l < H → (lvlCounts fam.leaf vals.length (fam.cs H))[l]? =
      some (levelNodes fam H vals.length l) ∧ l < (fam.cs H).length + 1 := by
    intro l hlt
    cases fam
    · have hh : H ≤ 4 := hh
      have : (H = 1 ∧ l = 0) ∨ (H = 2 ∧ (l = 0 ∨ l = 1)) ∨ (H = 3 ∧ (l = 0 ∨ l = 1 ∨ l = 2)) ∨
        (H = 4 ∧ (l = 0 ∨ l = 1 ∨ l = 2 ∨ l = 3)) := by omega
      rcases this with ⟨rfl, rfl⟩ | ⟨rfl, rfl | rfl⟩ | ⟨rfl, rfl | rfl | rfl⟩ |
        ⟨rfl, rfl | rfl | rfl | rfl⟩ <;> exact ⟨rfl, by decide⟩
    · have hh : H ≤ 3 := hh
      have : (H = 1 ∧ l = 0) ∨ (H = 2 ∧ (l = 0 ∨ l = 1)) ∨ (H = 3 ∧ (l = 0 ∨ l = 1 ∨ l = 2)) := by
        omega
      rcases this with ⟨rfl, rfl⟩ | ⟨rfl, rfl | rfl⟩ | ⟨rfl, rfl | rfl | rfl⟩ <;>
        exact ⟨rfl, by decide⟩
  have hnn : ∀ l, l < H → t.nn b l = ok (levelNodes fam H vals.length l) := by
    intro l hlt
    obtain ⟨h1, h2⟩ := key l hlt
    have h3 := ht.inv.hdr l _ h1
    rw [Tree.nn_ok ht.inv.num (by rw [ht.inv.msize]; omega) ht.align.hdr, h3]
  refine ⟨?_, hnn⟩
  rw [hnn 0 (by omega)]
  congr 1
  unfold levelNodes
  rw [Nat.sub_zero]
  have : (vals.length + capacity fam H - 1) / capacity fam H = 1 := by
    rw [Nat.div_eq_iff (by omega)]; omega
  exact this

/-- With a smaller template height `build` writes in front of `num_nodes_per_level`, whatever the
build flags and the previous state of the object. -/
theorem C15_too_low {input : Vec Nat} {n : Nat} {t : Tree} (h0 : 0 < n) (hH : H < fam.height n) :
    treeBuild b fam.family H addr input n t = ub .oob :=
  treeBuild_short h0 hH

/-- With a greater one `build` succeeds but the first query leaves the buffer: height 2 over an
array that needs height 1. -/
theorem C15_too_high (hcap : M ≤ 512) (hvals : ∀ v ∈ vals, v ≤ M)
    (hdbg : b.ndebug = true ∨ M ≤ fam.family.maxVal) (hlax : b.strictAlign = false)
    (h1 : fam.height vals.length = 1) (h0 : 0 < vals.length) :
    ∃ t, fam.build b 2 addr vals = ok t ∧
      ∀ i, i < vals.length → fam.sum b 2 t i = ub .oob := by
  have hin : InputOK b fam.family M (arr vals) ⟨vals.length, fun j => vals.getD j 0⟩ vals.length :=
    InputOK.mk rfl (fun j _ => rfl) (arr_le hvals) (fun j hj => arr_ge hj)
      (hdbg.imp_right (fun hm j => Nat.le_trans (arr_le hvals j) hm))
  cases fam
  · have hn : vals.length ≤ 128 := by
      simp only [TreeFam.height, avx2Height] at h1; revert h1; repeat' split
      all_goals omega
    obtain ⟨t, e, e1, e2, e3⟩ := avx2_tall (addr := addr) (t := Tree.empty) h0 hn hcap hin hlax
    exact ⟨t, e, fun i hi => avx2_tall_sum e2 e3 e1 hlax hi hn⟩
  · have hn : vals.length ≤ 512 := by
      simp only [TreeFam.height, avx512Height] at h1; revert h1; repeat' split
      all_goals omega
    obtain ⟨t, e, e1, e2, e3⟩ := avx512_tall (addr := addr) (t := Tree.empty) h0 hn hcap hin hlax
    exact ⟨t, e, fun i hi => avx512_tall_sum e2 e3 e1 hlax hi hn⟩

example : TreeFam.height .avx2 200 = 2 ∧ levelNodes .avx2 2 200 0 = 1 ∧ levelNodes .avx2 2 200 1 = 2 ∧
    levelNodes .avx2 4 (2 ^ 24) 3 = 131072 := by decide
example : treeBuild exDebug avx2Fam 1 16 ⟨200, fun _ => 3⟩ 200 Tree.empty = ub .oob :=
  C15_too_low (fam := .avx2) (by decide) (by decide)
example : ∃ t, TreeFam.build .avx512 exDebug 2 16 exVals = ok t ∧
    ∀ i, i < 200 → TreeFam.sum .avx512 exDebug 2 t i = ub .oob :=
  C15_too_high (M := 256) (by decide) (by decide +kernel) (by decide) rfl (by decide +kernel) (by decide +kernel)

/-! ## C16 leftovers in the last leaf -/

/-- Whatever the object held before (`t0`: any size, any buffer contents), the tree built in its
place answers every `sum` and `search` from the given array alone, also after updates. -/
theorem C16_previous_state (hv : fam.Valid b H M addr vals) (hu : BumpsOK M vals us) (t0 : Tree) :
    ∃ t, (do let t ← treeBuild b fam.family H addr ⟨vals.length, fun j => vals.getD j 0⟩
                vals.length t0
             fam.updates b H t us) = ok t ∧
      (∀ i, i < vals.length → fam.sum b H t i = ok (total (bumps vals us) (i + 1))) ∧
      (∀ x, x < total (bumps vals us) vals.length →
        fam.SearchSafe b H M (total (bumps vals us) vals.length) →
        ∃ p, fam.search b H t x = ok (p, total (bumps vals us) p) ∧ p < vals.length ∧
          total (bumps vals us) p ≤ x ∧ x < total (bumps vals us) (p + 1)) := by
  obtain ⟨h1, h2⟩ := tree_height_range (fam := fam) hv.le
  rw [← hv.height] at h1 h2
  have ha : fam.Aligned b addr vals.length H := aligned_of_addr h1 h2 hv.align
  obtain ⟨t, e, hadr, hi⟩ := tree_build_ok (b := b) (fam := fam) (t := t0) hv.pos hv.le hv.height
    hv.cap (InputOK.mk (A := arr vals) (input := ⟨vals.length, fun j => vals.getD j 0⟩) rfl
      (fun j _ => rfl) (arr_le hv.vals) (fun j hj => arr_ge hj)
      (hv.debug.imp_right (fun hm j => Nat.le_trans (arr_le hv.vals j) hm))) ha
  have hr : TreeRep fam b H M vals t := ⟨h1, h2, hv.cap, hi, by rw [hadr]; exact ha,
    by rw [hadr]; exact upAligned_of_addr hv.align⟩
  obtain ⟨t', e', hr'⟩ := hr.updates us hu
  have hl := bumps_length us vals
  refine ⟨t', by rw [e, ok_bind]; exact e', ?_, ?_⟩
  · intro i hi; exact hr'.sum (by rw [hl]; exact hi)
  · intro x hx hs
    obtain ⟨p, s, es, hp, rfl, h2, h3⟩ := hr'.search (by rw [hl]; exact hs) (by rw [hl]; exact hx)
    exact ⟨p, es, by rw [← hl]; exact hp, h2, h3⟩

/-- Any two buffers whose nodes agree on the entries below `n` (entries beyond, such as the values
left over from the previous leaf, being arbitrary numbers up to `M`) give the same answers. -/
theorem C16_tail_unobservable {t t' : Tree} (h : TreeRep fam b H M vals t)
    (h' : TreeRep fam b H M vals t') :
    (∀ i, i < vals.length → fam.sum b H t i = fam.sum b H t' i) ∧
    (fam.SearchSafe b H M (total vals vals.length) → ∀ x, x < total vals vals.length →
      fam.search b H t x = fam.search b H t' x) := by
  refine ⟨fun i hi => by rw [h.sum hi, h'.sum hi], fun hs x hx => ?_⟩
  obtain ⟨p, s, e, _, e2, h2, h3⟩ := h.search hs hx
  obtain ⟨p', s', e', _, e2', h2', h3'⟩ := h'.search hs hx
  have h4 := (C14_search_smallest h2 h3 p').1 h3'
  have h5 := (C14_search_smallest h2' h3' p).1 h3
  have : p = p' := by omega
  subst this
  rw [e, e', e2, e2']

/-- The leftovers are real: after building 129 counters, the second leaf of the `avx2` tree holds
the second counter of the first leaf in its unused entry 1. -/
theorem C16_leftover_exists :
    (do
      let input : Vec Nat := ⟨129, fun j => if j < 128 then 7 else 5⟩
      let tmp ← fillLeaf exDebug avx2Fam input 129 0 ⟨128, fun _ => 0⟩
      let tmp ← fillLeaf exDebug avx2Fam input 129 128 tmp
      ok (tmp.f 0, tmp.f 1)) = ok (5, 7) := by decide +kernel

example : ∃ t, TreeFam.run .avx2 exDebug 2 16 exVals exUps = ok t :=
  (TreeFam.run_ok exVals_valid exUps_ok).imp fun _ h => h.1

/-! ## C18 SIMD and scalar code agree -/

/-- Two builds of the same tree type, whatever their flags, return the same sums and the same
search results. -/
theorem C18_builds_agree {b' : Build} {addr' : Nat} (hv : fam.Valid b H M addr vals)
    (hv' : fam.Valid b' H M addr' vals) (hu : BumpsOK M vals us) :
    (∀ i, i < vals.length →
      (do let t ← fam.run b H addr vals us; fam.sum b H t i) =
      (do let t ← fam.run b' H addr' vals us; fam.sum b' H t i)) ∧
    (fam.SearchSafe b H M (total (bumps vals us) vals.length) →
      fam.SearchSafe b' H M (total (bumps vals us) vals.length) →
      ∀ x, x < total (bumps vals us) vals.length →
        (do let t ← fam.run b H addr vals us; fam.search b H t x) =
        (do let t ← fam.run b' H addr' vals us; fam.search b' H t x)) := by
  refine ⟨fun i hi => by rw [C12_sum hv hu hi, C12_sum hv' hu hi], fun hs hs' x hx => ?_⟩
  obtain ⟨p, e, _, h2, h3⟩ := C14_search hv hu hs hx
  obtain ⟨p', e', _, h2', h3'⟩ := C14_search hv' hu hs' hx
  have h4 := (C14_search_smallest h2 h3 p').1 h3'
  have h5 := (C14_search_smallest h2' h3' p).1 h3
  have : p = p' := by omega
  subst this
  rw [e, e']

example : exDebug.simd2 ≠ exScalar.simd2 ∧
    (do let t ← TreeFam.run .avx2 exDebug 2 16 exVals exUps; TreeFam.sum .avx2 exDebug 2 t 150) =
    (do let t ← TreeFam.run .avx2 exScalar 2 16 exVals exUps; TreeFam.sum .avx2 exScalar 2 t 150) :=
  ⟨by decide, (C18_builds_agree exVals_valid exVals_valid_scalar exUps_ok).1 150 (by decide +kernel)⟩

/-! ## C27 no counter overflows -/

/-- Every key and every summary of every node holds the exact (unreduced) sum, on every level, at
every supported size and for every reachable state; consequently the returned total is exact. -/
theorem C27_fields_exact (hv : fam.Valid b H M addr vals) (hu : BumpsOK M vals us) :
    ∃ t, fam.run b H addr vals us = ok t ∧
      LvlRep M (arr (bumps vals us)) vals.length t.mem fam.leaf (4 * H) (fam.cs H) ∧
      fam.sum b H t (vals.length - 1) = ok (bumps vals us).sum := by
  obtain ⟨t, e, ht⟩ := TreeFam.run_ok hv hu
  have hl := bumps_length us vals
  have hpos := hv.pos
  refine ⟨t, e, ?_, ?_⟩
  · have := ht.inv.lvl
    rw [hl] at this
    have hc : 4 * ((fam.cs H).length + 1) = 4 * H := by
      have h1 := ht.lo
      have h2 := ht.hi
      cases fam
      · have h2 : H ≤ 4 := h2
        have : H = 1 ∨ H = 2 ∨ H = 3 ∨ H = 4 := by omega
        rcases this with rfl | rfl | rfl | rfl <;> rfl
      · have h2 : H ≤ 3 := h2
        have : H = 1 ∨ H = 2 ∨ H = 3 := by omega
        rcases this with rfl | rfl | rfl <;> rfl
    rw [hc] at this
    exact this
  · rw [ht.sum (by rw [hl]; omega)]
    congr 1
    unfold total
    rw [List.take_of_length_le (by rw [hl]; omega)]

/-- Worst case: up to `2^24` counters, all equal to the maximum 512 (a total of 34 bits).  All
prefix sums are exact. -/
theorem C27_full {n : Nat} (h0 : 0 < n) (hn : n ≤ 2 ^ 24) (hb : b.ndebug = true ∨ fam = .avx2)
    (hH : H = fam.height n) (ha : b.strictAlign = true → (addr + 4 * H) % fam.need b H = 0)
    {i : Nat} (hi : i < n) :
    (do let t ← fam.run b H addr (List.replicate n 512) []; fam.sum b H t i) =
      ok ((i + 1) * 512) := by
  have hlen : (List.replicate n 512).length = n := List.length_replicate
  rw [C12_sum (M := 512) ⟨by rw [hlen]; exact h0, by rw [hlen]; exact hn,
      by rw [hlen]; exact hH, Nat.le_refl _, fun v h => Nat.le_of_eq (List.mem_replicate.1 h).2,
      hb.imp_right (fun h => by rw [h]; exact Nat.le_refl _), ha⟩
      (us := []) trivial (by rw [hlen]; exact hi)]
  congr 1
  show ((List.replicate n 512).take (i + 1)).sum = _
  rw [List.take_replicate, List.sum_replicate_nat]
  rw [Nat.min_eq_left (by omega)]

example {i : Nat} (hi : i < 2 ^ 24) :
    (do let t ← TreeFam.run .avx2 exDebug 4 16 (List.replicate (2 ^ 24) 512) []
        TreeFam.sum .avx2 exDebug 4 t i) = ok ((i + 1) * 512) :=
  C27_full (by decide) (Nat.le_refl _) (Or.inr rfl) (by decide) (by decide) hi

example : ∃ t, TreeFam.run .avx512 exDebug 1 16 exVals exUps = ok t :=
  (C27_fields_exact exVals_valid512 exUps_ok256).imp fun _ h => h.1

end

/-! ## C17 node contract -/

section
variable {b : Build} {c : NodeCfg} {vals : List Nat} {us : List (Nat × Bool)} {m : Mem} {off : Nat}

/-- For each of the six node classes, SIMD or scalar: a node built at any suitably aligned place of
any buffer, then updated, answers `sum` and `search` from the current values, and nothing outside
its own bytes changes. -/
theorem C17_node (hc : c ∈ nodeClasses) (hf : c.Fits vals) (hu : c.BumpsFit vals us)
    (hb : off + c.bytes ≤ m.size)
    (ha : b.strictAlign = true →
      (m.addr + off) % (if c.sumAligned && c.simd b then 32 else c.sumB) = 0) :
    ∃ m', nodeRun b c vals us m off = ok m' ∧
      (m'.addr = m.addr ∧ m'.size = m.size ∧
        ∀ a, a < off ∨ off + c.bytes ≤ a → m'.byte a = m.byte a) ∧
      (∀ i, i < c.fanout → nodeSum b c m' off i = ok (total (bumps vals us) (i + 1))) ∧
      (∀ x, x < 2 ^ 64 → (c.simd b = true → c.SearchFits (bumps vals us) x) →
        (c.guard = .assertLt → x < total (bumps vals us) c.fanout) →
        ∃ p, nodeSearch b c m' off x = ok (p, total (bumps vals us) p) ∧ p ≤ c.fanout ∧
          total (bumps vals us) p ≤ x ∧ (p < c.fanout → x < total (bumps vals us) (p + 1))) := by
  have wf := nodeClasses_wf hc
  have ha' : AlignOK b c m.addr off := by
    intro h
    have := ha h
    simp only [nodeClasses, List.mem_cons, List.not_mem_nil, or_false] at hc
    split at this
    all_goals rcases hc with rfl | rfl | rfl | rfl | rfl | rfl
    all_goals first
      | exact this
      | exact Nat.mod_eq_zero_of_dvd (Nat.dvd_trans (by decide) (Nat.dvd_of_mod_eq_zero this))
  have ho : UpOK b c m.addr off := by
    intro h h1 h2
    have := ha h
    rw [h1, h2] at this
    simp only [nodeClasses, List.mem_cons, List.not_mem_nil, or_false] at hc
    rcases hc with rfl | rfl | rfl | rfl | rfl | rfl
    · exact this
    all_goals cases h1
  obtain ⟨m', e, hr, hs, hf'⟩ := nodeRun_ok wf hf hb ha' ho hu
  refine ⟨m', e, ⟨hs.addr, hs.size, hs.byte⟩, fun i hi => ?_, fun x hx h1 h2 => ?_⟩
  · exact nodeSum_fits wf hf' hr (by rw [hs.addr]; exact ha') hi
  · exact nodeSearch_fits wf hf' hr (by rw [hs.addr]; exact ha') hx h1 h2

/-- Updating the entry one past the last is the identity, in every class. -/
theorem C17_update_fanout (c : NodeCfg) (sign : Bool) : nodeUpdate b c m off c.fanout sign = ok m := by
  unfold nodeUpdate; rw [if_pos rfl]

/-- 64 values for `node64`. -/
def exNodeVals : List Nat := (List.range 64).map (fun j => 1000 * j)

theorem exNode_fits : avx2Node64.Fits exNodeVals := ⟨by decide, by decide +kernel, by decide +kernel⟩

theorem exNode_bumps : avx2Node64.BumpsFit exNodeVals [(63, true), (64, false), (0, false)] :=
  ⟨by decide, by decide +kernel, ⟨by decide, by decide +kernel, by decide +kernel⟩,
   by decide, by decide +kernel, ⟨by decide, by decide +kernel, by decide +kernel⟩,
   by decide, by decide +kernel, ⟨by decide, by decide +kernel, by decide +kernel⟩, trivial⟩

example : ∃ m', nodeRun exDebug avx2Node64 exNodeVals [(63, true), (64, false), (0, false)]
      ⟨16, 400, fun _ => 77⟩ 12 = ok m' ∧ nodeSum exDebug avx2Node64 m' 12 63 = ok 2016000 := by
  obtain ⟨m', e, _, h, _⟩ := C17_node (b := exDebug) (m := ⟨16, 400, fun _ => 77⟩) (off := 12)
    (by simp [nodeClasses]) exNode_fits exNode_bumps (by decide) (by decide)
  exact ⟨m', e, (h 63 (by decide)).trans (congrArg ok (by decide +kernel))⟩

end

end MRS.Props
