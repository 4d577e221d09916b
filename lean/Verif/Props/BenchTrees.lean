import Verif.Proofs.BenchTrees
import Verif.Props.Tree
import Verif.Props.HftTrees

/-!
# C108: benchmarks of trees

src/perf_prefix_sum.cpp (the two segment trees) and src/perf_hft.cpp (the vendored Fenwick trees).  The
values drawn and the draws `rng` are arbitrary.
-/

set_option autoImplicit false

namespace MRS.Props
open MRS MRS.Bench Outcome Spec

/-- Assertions off, both SIMD bodies, alignment checked. -/
def exB108 : Build := ⟨true, true, true, true⟩

/-- Draws that go through all values in turn. -/
def exRng (hi j : Nat) : Nat := j % (hi + 1)

theorem exRng_lt {n : Nat} (hn : 0 < n) (j : Nat) : exRng (n - 1) j < n := by
  unfold exRng
  have := Nat.mod_lt j (show 0 < n - 1 + 1 by omega)
  omega

section
variable {fam : TreeFam} {b : Build} {H M addr : Nat} {vals : List Nat} {rng : Nat → Nat → Nat}

/-- Unless the operation is called `sarch` all queries are drawn below `n`. -/
theorem treeQueries_eq {op : String} (h : op ≠ "sarch") (n maxSum : Nat) (rng : Nat → Nat → Nat) :
    treeQueries op n maxSum rng = (List.range numQueries).map (rng (n - 1)) := by
  unfold treeQueries; rw [if_neg h]

theorem queries_lt {n m : Nat} (hr : ∀ j, rng (n - 1) j < n) :
    ∀ q ∈ (List.range m).map (rng (n - 1)), q < n := by
  intro q hq
  obtain ⟨j, _, rfl⟩ := List.mem_map.1 hq
  exact hr j

/-- **C108.**  The benchmark of `sum` prints in all forty lines a hundred times the prefix sums asked
for, whichever the tree. -/
theorem C108_sum (h : fam.Valid b H M addr vals) (hr : ∀ j, rng (vals.length - 1) j < vals.length) :
    ∃ t, treeRound fam b H addr "sum" vals rng = ok (List.replicate 40
      (100 * ((List.range 10000).map fun j => total vals (rng (vals.length - 1) j + 1)).sum % 2 ^ 64), t) := by
  obtain ⟨t, e, ht, _⟩ := h.build
  have go : ∀ m, measure (fun _ _ q => fam.sum b H t q) ((List.range m).map (rng (vals.length - 1))) =
      ok (100 * ((List.range m).map fun j => total vals (rng (vals.length - 1) j + 1)).sum % W64) := by
    intro m
    rw [measure_ok (v := fun q => total vals (q + 1)) fun _ _ q hq => ht.sum (queries_lt hr q hq), List.map_map]
    rfl
  have one : ∀ k s, s = t → ∃ s', (fun (_ : Nat) t => measureTree fam b H vals.length "sum"
      (treeQueries "sum" vals.length 0 rng) t) k s = ok (100 * ((List.range 10000).map fun j =>
        total vals (rng (vals.length - 1) j + 1)).sum % W64, s') ∧ s' = t := by
    intro k s hs
    subst hs
    refine ⟨s, ?_, rfl⟩
    show measureTree fam b H vals.length "sum" (treeQueries "sum" vals.length 0 rng) s = _
    rw [treeQueries_eq (by decide)]
    unfold measureTree
    rw [if_pos rfl, go, ok_bind]
    rfl
  obtain ⟨s', e', _⟩ := forty_ok (P := fun s => s = t) one rfl
  refine ⟨s', ?_⟩
  unfold treeRound
  rw [e, ok_bind, if_neg (by decide), ok_bind]
  exact e'

example : ∃ t n, treeRound .avx2 exDebug 2 16 "sum" exVals exRng = ok (List.replicate 40 n, t) := by
  obtain ⟨t, h⟩ := C108_sum exVals_valid (exRng_lt (by decide +kernel))
  exact ⟨t, _, h⟩

/-- **C108.**  `search` is asked for numbers below `n`, not below the sum as intended, since the source
compares with `sarch`.  If the sum is at least `n`, each answer is the position whose counter contains
the number, and the line printed is a hundred times the sum of the positions; and only the front of the
array is ever searched: every position is before the first `m` counters that sum up to `n`. -/
theorem C108_search (h : fam.Valid b H M addr vals) (hr : ∀ j, rng (vals.length - 1) j < vals.length)
    (hs : fam.SearchSafe b H M (total vals vals.length)) (hn : vals.length ≤ total vals vals.length) :
    ∃ (t : Tree) (p : Nat → Nat), treeRound fam b H addr "search" vals rng = ok (List.replicate 40
      (100 * ((List.range 10000).map p).sum % 2 ^ 64), t) ∧
      (∀ j, p j < vals.length ∧ total vals (p j) ≤ rng (vals.length - 1) j ∧
        rng (vals.length - 1) j < total vals (p j + 1)) ∧
      ∀ m, vals.length ≤ total vals m → ∀ j, p j < m := by
  obtain ⟨t, e, ht, _⟩ := h.build
  have hp : ∀ x, x < vals.length → ∃ p s, fam.search b H t x = ok (p, s) ∧ p < vals.length ∧
      total vals p ≤ x ∧ x < total vals (p + 1) := fun x hx => by
    obtain ⟨p, s, e, h1, _, h3⟩ := ht.search hs (show x < total vals vals.length by omega)
    exact ⟨p, s, e, h1, h3⟩
  have hp' : ∀ x, ∃ p, x < vals.length → ∃ s, fam.search b H t x = ok (p, s) ∧ p < vals.length ∧
      total vals p ≤ x ∧ x < total vals (p + 1) := fun x => by
    by_cases hx : x < vals.length
    · obtain ⟨p, s, hh⟩ := hp x hx
      exact ⟨p, fun _ => ⟨s, hh⟩⟩
    · exact ⟨0, fun h => absurd h hx⟩
  obtain ⟨p, hp⟩ := Classical.axiomOfChoice hp'
  have go : ∀ m, measure (fun _ _ q => do
        let r ← fam.search b H t q
        ok r.1) ((List.range m).map (rng (vals.length - 1))) =
      ok (100 * ((List.range m).map fun j => p (rng (vals.length - 1) j)).sum % W64) := by
    intro m
    rw [measure_ok (v := p) fun _ _ q hq => ?_, List.map_map]
    · rfl
    · obtain ⟨s, e, _⟩ := hp q (queries_lt hr q hq)
      rw [e, ok_bind]
  have one : ∀ k s, s = t → ∃ s', (fun (_ : Nat) t => measureTree fam b H vals.length "search"
      (treeQueries "search" vals.length 0 rng) t) k s = ok (100 * ((List.range 10000).map fun j =>
        p (rng (vals.length - 1) j)).sum % W64, s') ∧ s' = t := by
    intro k s hs
    subst hs
    refine ⟨s, ?_, rfl⟩
    show measureTree fam b H vals.length "search" (treeQueries "search" vals.length 0 rng) s = _
    rw [treeQueries_eq (by decide)]
    unfold measureTree
    rw [if_neg (by decide), if_neg (by decide), if_pos rfl, go, ok_bind]
    rfl
  obtain ⟨s', e', _⟩ := forty_ok (P := fun s => s = t) one rfl
  refine ⟨s', fun j => p (rng (vals.length - 1) j), ?_, ?_, ?_⟩
  · unfold treeRound
    rw [e, ok_bind, if_neg (by decide), ok_bind]
    exact e'
  · intro j
    obtain ⟨s, _, hh⟩ := hp _ (hr j)
    exact hh
  · intro m hm j
    obtain ⟨s, _, _, h2, _⟩ := hp _ (hr j)
    apply Classical.byContradiction
    intro hlt
    have hlt : ¬ p (rng (vals.length - 1) j) < m := hlt
    have := total_mono vals (show m ≤ p (rng (vals.length - 1) j) by omega)
    have := hr j
    omega

example : ∃ t n, treeRound .avx512 exDebug 1 16 "search" exVals exRng = ok (List.replicate 40 n, t) := by
  obtain ⟨t, p, h, _⟩ := C108_search exVals_valid512 (exRng_lt (by decide +kernel)) (fun h => by cases h)
    (by decide +kernel)
  exact ⟨t, _, h⟩

/-! ## Updates of segment trees -/

/-- **C108.**  Both deltas, `+1` and `-1`, become `true` when `update` is called, so every update is a
decrement.  No access ever faults: the benchmark does 4000 times 10000 decrements on the tree built and
prints forty numbers, whatever is drawn. -/
theorem C108_update_runs (h : fam.Valid b H M addr vals) (hr : ∀ j, rng (vals.length - 1) j < vals.length) :
    ∃ t t' ns, fam.build b H addr vals = ok t ∧
      fam.updates b H t (List.replicate 4000
        ((List.range 10000).map fun j => (rng (vals.length - 1) j, true))).flatten = ok t' ∧
      treeRound fam b H addr "update" vals rng = ok (ns, t') ∧ ns.length = 40 := by
  obtain ⟨t, e, _, hsh⟩ := h.shaped
  have key : ∀ m, ∃ t' ns, fam.updates b H t (times (40 * 100)
        ((List.range m).map fun j => (rng (vals.length - 1) j, true))) = ok t' ∧
      calls (fun _ t => measureTree fam b H vals.length "update"
        ((List.range m).map (rng (vals.length - 1))) t) 40 0 t = ok (ns, t') ∧ ns.length = 40 := by
    intro m
    have eu : ((List.range m).map (rng (vals.length - 1))).map (fun q => (q, true)) =
        (List.range m).map fun j => (rng (vals.length - 1) j, true) := by rw [List.map_map]; rfl
    generalize hus : (List.range m).map (fun j => (rng (vals.length - 1) j, true)) = us at eu ⊢
    have hlt : ∀ u ∈ us, u.1 < vals.length := by
      intro u hu
      rw [← hus] at hu
      obtain ⟨j, _, rfl⟩ := List.mem_map.1 hu
      exact hr j
    have step : ∀ k s, (fam.updates b H t (times (k * 100) us) = ok s ∧ Shaped fam b H vals.length s) →
        ∃ v s', measureTree fam b H vals.length "update" ((List.range m).map (rng (vals.length - 1))) s =
          ok (v, s') ∧ fam.updates b H t (times ((k + 1) * 100) us) = ok s' ∧
          Shaped fam b H vals.length s' := by
      intro k s ⟨h1, h2⟩
      obtain ⟨s', e1, hP⟩ := forN_inv
        (body := fun _ t => updateAll fam b H ((List.range m).map (rng (vals.length - 1))) t)
        (fun i s => fam.updates b H t (times (k * 100 + i) us) = ok s ∧ Shaped fam b H vals.length s)
        100 s ⟨h1, h2⟩ (by
          intro i s _ ⟨g1, g2⟩
          obtain ⟨s2, e2, g3⟩ := g2.updates us hlt
          refine ⟨s2, by rw [updateAll_eq, eu]; exact e2, ?_, g3⟩
          rw [← Nat.add_assoc, times_succ, updates_append _ _ g1, e2])
      obtain ⟨v, ev⟩ := hP.2.sum (i := vals.length - 1) (by have := h.pos; omega)
      refine ⟨v, s', ?_, by rw [Nat.succ_mul]; exact hP.1, hP.2⟩
      unfold measureTree
      rw [if_neg (by decide), if_pos rfl, e1, ok_bind, ev, ok_bind]
    obtain ⟨ns, s', ec, hl, hP⟩ := calls_total (P := fun k s =>
        fam.updates b H t (times (k * 100) us) = ok s ∧ Shaped fam b H vals.length s)
      (f := fun _ t => measureTree fam b H vals.length "update"
        ((List.range m).map (rng (vals.length - 1))) t)
      (fun k s hs => step k s hs) 40 0 t ⟨rfl, hsh⟩
    rw [Nat.zero_add] at hP
    exact ⟨s', ns, hP.1, ec, hl⟩
  obtain ⟨t', ns, e1, e2, e3⟩ := key 10000
  refine ⟨t, t', ns, e, e1, ?_, e3⟩
  unfold treeRound
  rw [e, ok_bind, if_neg (by decide), ok_bind]
  rw [treeQueries_eq (by decide)]
  exact e2

example : ∃ t ns, treeRound .avx2 exDebug 2 16 "update" exVals exRng = ok (ns, t) ∧ ns.length = 40 := by
  obtain ⟨_, t, ns, _, _, h, hl⟩ := C108_update_runs exVals_valid (exRng_lt (by decide +kernel))
  exact ⟨t, ns, h, hl⟩

/-- **C108, the negation.**  These updates are never all legal: every counter drawn is decremented at
least 4000 times, and none is above 512, so it passes below zero. -/
theorem C108_update_false (hM : M ≤ 512) (hv : ∀ v ∈ vals, v ≤ M) :
    ¬ BumpsOK M vals (List.replicate 4000
      ((List.range 10000).map fun j => (rng (vals.length - 1) j, true))).flatten := by
  have key : ∀ m, ¬ BumpsOK M vals (times 4000
      ((List.range (m + 1)).map fun j => (rng (vals.length - 1) j, true))) := by
    intro m hb
    have eu : (List.range (m + 1)).map (fun j => (rng (vals.length - 1) j, true)) =
        ((List.range (m + 1)).map (rng (vals.length - 1))).map fun q => (q, true) := by
      rw [List.map_map]; rfl
    rw [eu, times_map] at hb
    have hmem : rng (vals.length - 1) 0 ∈ (List.range (m + 1)).map (rng (vals.length - 1)) :=
      List.mem_map.2 ⟨0, List.mem_range.2 (by omega), rfl⟩
    have hc := List.count_pos_iff.2 hmem
    generalize hqs : (List.range (m + 1)).map (rng (vals.length - 1)) = qs at hb hmem hc
    have h2 := times_count (rng (vals.length - 1) 0) qs 4000
    have hm2 : rng (vals.length - 1) 0 ∈ times 4000 qs := List.count_pos_iff.1 (by rw [h2]; omega)
    have h1 := dec_count _ hb _ hm2
    have h3 := arr_le hv (rng (vals.length - 1) 0)
    unfold arr at h3
    omega
  exact key 9999

example : ¬ BumpsOK 512 exVals (List.replicate 4000
    ((List.range 10000).map fun j => (exRng (exVals.length - 1) j, true))).flatten :=
  C108_update_false (by decide) exVals_valid.vals

/-- **C108, partial.**  As long as no counter runs out, the lines printed drop by a hundred times the
number of queries each.  Missing: all forty lines, which `C108_update_false` excludes. -/
theorem C108_update_partial {t : Tree} {qs : List Nat} {m : Nat} (h : TreeRep fam b H M vals t)
    (h0 : 0 < vals.length) (hq : ∀ q ∈ qs, q < vals.length ∧ 100 * m * qs.count q ≤ vals.getD q 0) :
    ∃ t', calls (fun _ t => measureTree fam b H vals.length "update" qs t) m 0 t =
      ok ((List.range m).map fun k => total vals vals.length - 100 * (k + 1) * qs.length, t') ∧
      TreeRep fam b H M (bumps vals ((List.replicate (100 * m) (qs.map fun q => (q, true))).flatten)) t' := by
  have legal : ∀ i, i ≤ 100 * m → BumpsOK M vals ((times i qs).map fun q => (q, true)) := by
    intro i hi
    refine dec_legal _ fun q hm => ?_
    obtain ⟨h1, h2⟩ := hq q (times_mem hm)
    refine ⟨h1, ?_⟩
    rw [times_count]
    exact Nat.le_trans (Nat.mul_le_mul_right _ hi) h2
  have bs : ∀ i, bumps vals ((times (i + 1) qs).map fun q => (q, true)) =
      bumps (bumps vals ((times i qs).map fun q => (q, true))) (qs.map fun q => (q, true)) := by
    intro i
    rw [times_succ, List.map_append]
    unfold bumps
    rw [List.foldl_append]
  have step : ∀ k s, k < m → TreeRep fam b H M (bumps vals ((times (100 * k) qs).map fun q => (q, true))) s →
      ∃ s', measureTree fam b H vals.length "update" qs s =
        ok (total vals vals.length - 100 * (k + 1) * qs.length, s') ∧
        TreeRep fam b H M (bumps vals ((times (100 * (k + 1)) qs).map fun q => (q, true))) s' := by
    intro k s hk hs
    obtain ⟨s', e1, hP⟩ := forN_inv (body := fun _ t => updateAll fam b H qs t)
      (fun i s => TreeRep fam b H M (bumps vals ((times (100 * k + i) qs).map fun q => (q, true))) s)
      100 s hs (by
        intro i s hi g
        have hl : BumpsOK M (bumps vals ((times (100 * k + i) qs).map fun q => (q, true)))
            (qs.map fun q => (q, true)) := by
          refine dec_legal _ fun q hm => ?_
          obtain ⟨h1, h2⟩ := hq q hm
          rw [bumps_length, dec_getD _ (fun q hm => (hq q (times_mem hm)).1), times_count]
          refine ⟨h1, ?_⟩
          have : (100 * k + i + 1) * qs.count q ≤ 100 * m * qs.count q := Nat.mul_le_mul_right _ (by omega)
          rw [Nat.succ_mul] at this
          omega
        obtain ⟨s2, e2, g2⟩ := g.updates _ hl
        refine ⟨s2, by rw [updateAll_eq]; exact e2, ?_⟩
        rw [← Nat.add_assoc, bs]
        exact g2)
    have e2 := hP.sum (i := vals.length - 1) (by rw [bumps_length]; omega)
    rw [show vals.length - 1 + 1 = vals.length by omega] at e2
    have e3 := dec_total _ (legal (100 * k + 100) (by omega))
    rw [times_length] at e3
    refine ⟨s', ?_, hP⟩
    unfold measureTree
    rw [if_neg (by decide), if_pos rfl, e1, ok_bind, e2, ok_bind]
    rw [show 100 * (k + 1) = 100 * k + 100 by omega, ← e3, Nat.add_sub_cancel]
  obtain ⟨s', e, hP⟩ := calls_seq (f := fun _ t => measureTree fam b H vals.length "update" qs t)
    (v := fun k => total vals vals.length - 100 * (k + 1) * qs.length)
    (P := fun k s => TreeRep fam b H M (bumps vals ((times (100 * k) qs).map fun q => (q, true))) s)
    (K := m) (fun k s hk hs => step k s hk hs) m 0 t (by omega) h
  rw [Nat.zero_add, ← times_map] at hP
  refine ⟨s', ?_, hP⟩
  rw [e]
  simp only [Nat.zero_add]

/-- Two lines with two queries, one of them twice. -/
example : ∃ t t', TreeFam.avx2.build exB108 1 28 [400, 3, 200] = ok t ∧
    calls (fun _ t => measureTree .avx2 exB108 1 3 "update" [0, 2, 0] t) 2 0 t = ok ([303, 3], t') := by
  obtain ⟨t, e, ht, _⟩ := TreeFam.Valid.build (fam := .avx2) (b := exB108) (H := 1) (M := 512) (addr := 28)
    (vals := [400, 3, 200]) ⟨by decide, by decide, by decide, by decide, by decide, .inl rfl, fun _ => by decide⟩
  obtain ⟨t', h, _⟩ := C108_update_partial (qs := [0, 2, 0]) (m := 2) ht (by decide) (by decide)
  exact ⟨t, t', e, h⟩

/-- **C108, a witness.**  One decrement of a counter that is zero: the sum is 65535 in both trees. -/
theorem C108_update_wraps :
    (∃ t, TreeFam.avx2.run exB108 1 28 [0, 0] [(0, toBool (delta 0))] = ok t ∧
      TreeFam.avx2.sum exB108 1 t 1 = ok 65535) ∧
    (∃ t, TreeFam.avx512.run exB108 1 60 [0, 0] [(0, toBool (delta 0))] = ok t ∧
      TreeFam.avx512.sum exB108 1 t 0 = ok 65535) := by
  have one : ∀ {x : Outcome Tree} {f : Tree → Outcome Nat} {v : Nat}, (x >>= f) = ok v →
      ∃ t, x = ok t ∧ f t = ok v := by
    intro x f v h
    cases x with
    | ok t => exact ⟨t, rfl, h⟩
    | ub e => cases h
    | abort => cases h
  exact ⟨one (by decide +kernel), one (by decide +kernel)⟩

end

/-! ## Fenwick trees -/

open Spec.Tree Hft

section
variable {c : Cfg} {k : Kind} {A : List Int} {rng : Nat → Nat → Nat}

theorem hft_queries {op : String} (h : op ≠ "sarch") (n maxSum : Nat) (rng : Nat → Nat → Nat) :
    hftQueries op n maxSum rng = (List.range numQueries).map fun j => rng (n - 1) j + 1 := by
  unfold hftQueries
  rw [treeQueries_eq h, List.map_map]
  rfl

theorem hft_queries_le {n m : Nat} (hr : ∀ j, rng (n - 1) j < n) :
    ∀ q ∈ (List.range m).map (fun j => rng (n - 1) j + 1), 0 < q ∧ q ≤ n := by
  intro q hq
  obtain ⟨j, _, rfl⟩ := List.mem_map.1 hq
  have := hr j
  show 0 < rng (n - 1) j + 1 ∧ rng (n - 1) j + 1 ≤ n
  omega

/-- **C108.**  perf_hft `sum` prints a hundred times the prefix sums asked for in all forty lines, for
every class within its limits. -/
theorem C108_hft_sum (hn : A.length < 2 ^ 48) (hl : Limits c A.length k)
    (hA : Within c.bound A) (hr : ∀ j, rng (A.length - 1) j < A.length) :
    ∃ o, hftRound c k "sum" A rng = ok (List.replicate 40
      (100 * ((List.range 10000).map fun j => u64 (pre A (rng (A.length - 1) j + 1))).sum % 2 ^ 64), o) := by
  obtain ⟨o, e, ho⟩ := build_ok (hl.fits hn) (fun _ => hA)
  have go : ∀ m, measure (fun _ _ q => o.prefix c q) ((List.range m).map fun j => rng (A.length - 1) j + 1) =
      ok (100 * ((List.range m).map fun j => u64 (pre A (rng (A.length - 1) j + 1))).sum % W64) := by
    intro m
    rw [measure_ok (v := fun q => u64 (pre A q)) fun _ _ q hq =>
      prefix_ok (hl.fits hn) ho (pre_zero A) (hft_queries_le hr q hq).2, List.map_map]
    rfl
  have one : ∀ i s, s = o → ∃ s', (fun (_ : Nat) o => measureHft c A.length "sum"
      (hftQueries "sum" A.length 0 rng) o) i s = ok (100 * ((List.range 10000).map fun j =>
        u64 (pre A (rng (A.length - 1) j + 1))).sum % W64, s') ∧ s' = o := by
    intro i s hs
    subst hs
    refine ⟨s, ?_, rfl⟩
    show measureHft c A.length "sum" (hftQueries "sum" A.length 0 rng) s = _
    rw [hft_queries (by decide)]
    unfold measureHft
    rw [if_pos rfl, go, ok_bind]
    rfl
  obtain ⟨s', e', _⟩ := forty_ok (P := fun s => s = o) one rfl
  refine ⟨s', ?_⟩
  unfold hftRound
  rw [show (⟨A.length, fun i => u64 (A.getD i 0)⟩ : Vec Nat) = array A from rfl, e, ok_bind,
    if_neg (by decide), ok_bind]
  exact e'

example : ∃ o n, hftRound (hcfg 256) .bitF "sum" [3, 1, 4, 1, 256] exRng = ok (List.replicate 40 n, o) := by
  obtain ⟨o, h⟩ := C108_hft_sum (c := hcfg 256) (k := .bitF) (A := [3, 1, 4, 1, 256]) (by decide)
    (by unfold Limits; decide +kernel) (by decide) (exRng_lt (by decide))
  exact ⟨o, _, h⟩

/-- **C108.**  perf_hft `search`, with the same `sarch` in the source: `find` is asked for 1 to `n`, and
each answer is the largest index whose prefix sum does not exceed the number. -/
theorem C108_hft_search (hn : A.length < 2 ^ 48) (h0 : 0 < A.length) (hl : Limits c A.length k)
    (hA : Within c.bound A) (hs : SearchOk k A) (hT : k = .typeL → ZerosOk c.bound A.length)
    (hr : ∀ j, rng (A.length - 1) j < A.length) :
    ∃ (o : Obj) (p : Nat → Nat), hftRound c k "search" A rng = ok (List.replicate 40
      (100 * ((List.range 10000).map p).sum % 2 ^ 64), o) ∧
      ∀ j, Spec.Tree.IsFind A (rng (A.length - 1) j + 1) (p j) := by
  obtain ⟨o, e, ho⟩ := build_ok (hl.fits hn) (fun _ => hA)
  have hp' : ∀ x, ∃ p, ∃ d, o.find c x = ok (p, d) ∧ Spec.Tree.IsFind A x p := fun x => by
    obtain ⟨r, d, h1, h2, _⟩ := find_ok (val := x) (hl.fits hn) ho h0 hT (fun a ha => (hA a ha).1)
      (fun i hi h2 => by
        cases hk : k.compressed with
        | false => exact node_lt_total (hs hk) h2
        | true => exact node_lt_bound (hl.fits hn) hk hA hi h2)
    exact ⟨r, d, h1, h2⟩
  obtain ⟨p, hp⟩ := Classical.axiomOfChoice hp'
  have go : ∀ m, measure (fun _ _ q => do
        let r ← o.find c q
        ok r.1) ((List.range m).map fun j => rng (A.length - 1) j + 1) =
      ok (100 * ((List.range m).map fun j => p (rng (A.length - 1) j + 1)).sum % W64) := by
    intro m
    rw [measure_ok (v := p) fun _ _ q _ => ?_, List.map_map]
    · rfl
    · obtain ⟨d, e, _⟩ := hp q
      rw [e, ok_bind]
  have one : ∀ i s, s = o → ∃ s', (fun (_ : Nat) o => measureHft c A.length "search"
      (hftQueries "search" A.length 0 rng) o) i s = ok (100 * ((List.range 10000).map fun j =>
        p (rng (A.length - 1) j + 1)).sum % W64, s') ∧ s' = o := by
    intro i s hs
    subst hs
    refine ⟨s, ?_, rfl⟩
    show measureHft c A.length "search" (hftQueries "search" A.length 0 rng) s = _
    rw [hft_queries (by decide)]
    unfold measureHft
    rw [if_neg (by decide), if_neg (by decide), if_pos rfl, go, ok_bind]
    rfl
  obtain ⟨s', e', _⟩ := forty_ok (P := fun s => s = o) one rfl
  refine ⟨s', fun j => p (rng (A.length - 1) j + 1), ?_, fun j => (hp _).choose_spec.2⟩
  unfold hftRound
  rw [show (⟨A.length, fun i => u64 (A.getD i 0)⟩ : Vec Nat) = array A from rfl, e, ok_bind,
    if_neg (by decide), ok_bind]
  exact e'

example : ∃ o n, hftRound (hcfg 256) .byteL "search" [3, 1, 4, 1, 256] exRng = ok (List.replicate 40 n, o) := by
  obtain ⟨o, p, h, _⟩ := C108_hft_search (c := hcfg 256) (k := .byteL) (A := [3, 1, 4, 1, 256]) (by decide)
    (by decide) (by unfold Limits; decide +kernel) (by decide) (fun h => by simp [Kind.compressed] at h)
    (fun h => by cases h) (exRng_lt (by decide))
  exact ⟨o, _, h⟩

/-- **C108, partial.**  perf_hft `update` with the uncompressed classes: line `i` is the sum plus
`100 (i + 1)` times the deltas of the queries, modulo `2^64`.  Missing: the compressed classes, for
which see `C108_hft_update_false`. -/
theorem C108_hft_update_partial (hk : k.compressed = false) (hn : A.length < 2 ^ 48)
    (hl : Limits c A.length k) (hr : ∀ j, rng (A.length - 1) j < A.length) :
    ∃ o, hftRound c k "update" A rng = ok ((List.range 40).map fun i =>
      u64 (pre A A.length + (100 * (i + 1) : Nat) *
        ((List.range 10000).map fun j => delta (rng (A.length - 1) j + 1)).sum), o) := by
  obtain ⟨o, e, ho⟩ := build_ok (hl.fits hn) (fun h => by rw [hk] at h; cases h)
  have key : ∀ qs : List Nat, (∀ q ∈ qs, 0 < q ∧ q ≤ A.length) →
      ∃ o', calls (fun _ o => measureHft c A.length "update" qs o) 40 0 o =
        ok ((List.range 40).map fun i => u64 (pre A A.length + (100 * (i + 1) : Nat) * (qs.map delta).sum), o') := by
    intro qs hq
    have len : ∀ i, (after A ((times i qs).map fun q => (q, delta q))).length = A.length :=
      fun i => after_length _ _
    have step : ∀ i s, i < 40 →
        ObjHolds c A.length (pre (after A ((times (100 * i) qs).map fun q => (q, delta q)))) k s →
        ∃ s', measureHft c A.length "update" qs s =
          ok (u64 (pre A A.length + (100 * (i + 1) : Nat) * (qs.map delta).sum), s') ∧
          ObjHolds c A.length (pre (after A ((times (100 * (i + 1)) qs).map fun q => (q, delta q)))) k s' := by
      intro i s _ hs
      obtain ⟨s', e1, hP⟩ := forN_inv
        (body := fun _ (o : Obj) => o.adds c (qs.map fun q => (q, delta q)))
        (fun r s => ObjHolds c A.length (pre (after A ((times (100 * i + r) qs).map fun q => (q, delta q)))) k s)
        100 s hs (by
          intro r s _ g
          have hf := hl.fits hn
          rw [← len (100 * i + r)] at g hf
          obtain ⟨s2, e2, g2⟩ := adds_ok (qs.map fun q => (q, delta q)) hf
            (fun op hop => by
              obtain ⟨q, hm, rfl⟩ := List.mem_map.1 hop
              exact (hq q hm).1)
            (fun h => by rw [hk] at h; cases h) g
          refine ⟨s2, e2, ?_⟩
          rw [len] at g2
          rw [← Nat.add_assoc, times_succ, List.map_append]
          unfold after at g2 ⊢
          rw [List.foldl_append]
          exact g2)
      have e2 := prefix_ok (hl.fits hn) hP (pre_zero _) (Nat.le_refl A.length)
      rw [pre_after _ (fun q hm => hq q (times_mem hm)), ← times_map, times_sum] at e2
      refine ⟨s', ?_, hP⟩
      unfold measureHft
      rw [if_neg (by decide), if_pos rfl, e1, ok_bind, e2, ok_bind]
      rfl
    obtain ⟨s', ec, _⟩ := calls_seq (f := fun _ o => measureHft c A.length "update" qs o)
      (v := fun i => u64 (pre A A.length + (100 * (i + 1) : Nat) * (qs.map delta).sum))
      (P := fun i s => ObjHolds c A.length
        (pre (after A ((times (100 * i) qs).map fun q => (q, delta q)))) k s)
      (K := 40) (fun i s hi hs => step i s hi hs) 40 0 o (by omega) ho
    refine ⟨s', ?_⟩
    rw [ec]
    simp only [Nat.zero_add]
  have fin : ∀ m, ∃ o', calls (fun _ o => measureHft c A.length "update"
      ((List.range m).map fun j => rng (A.length - 1) j + 1) o) 40 0 o =
        ok ((List.range 40).map fun i => u64 (pre A A.length + (100 * (i + 1) : Nat) *
          ((List.range m).map fun j => delta (rng (A.length - 1) j + 1)).sum), o') := by
    intro m
    obtain ⟨o', h'⟩ := key _ (hft_queries_le (m := m) hr)
    rw [List.map_map] at h'
    exact ⟨o', h'⟩
  obtain ⟨o', h'⟩ := fin 10000
  refine ⟨o', ?_⟩
  unfold hftRound
  rw [show (⟨A.length, fun i => u64 (A.getD i 0)⟩ : Vec Nat) = array A from rfl, e, ok_bind,
    if_neg (by decide), ok_bind, hft_queries (by decide)]
  exact h'

example : ∃ o ns, hftRound (hcfg 256) .fixedL "update" [3, 1, 4] exRng = ok (ns, o) := by
  obtain ⟨o, h⟩ := C108_hft_update_partial (c := hcfg 256) (k := .fixedL) (A := [3, 1, 4]) rfl (by decide)
    (by unfold Limits; decide +kernel) (exRng_lt (by decide))
  exact ⟨o, _, h⟩

/-- **C108, the negation.**  The updates of perf_hft leave the range 0 to `BOUND = 256` that the
compressed classes need: all deltas of an element have the same sign, so it ends 4000 or more away. -/
theorem C108_hft_update_false (hc : c.bound = 256) (hr : ∀ j, rng (A.length - 1) j < A.length) :
    ¬ StaysWithin c.bound A (List.replicate 4000 ((List.range 10000).map fun j =>
      (rng (A.length - 1) j + 1, delta (rng (A.length - 1) j + 1)))).flatten := by
  have key : ∀ m, ¬ StaysWithin c.bound A (times 4000 ((List.range (m + 1)).map fun j =>
      (rng (A.length - 1) j + 1, delta (rng (A.length - 1) j + 1)))) := by
    intro m hst
    have eu : (List.range (m + 1)).map (fun j => (rng (A.length - 1) j + 1, delta (rng (A.length - 1) j + 1))) =
        ((List.range (m + 1)).map fun j => rng (A.length - 1) j + 1).map fun q => (q, delta q) := by
      rw [List.map_map]; rfl
    rw [eu, times_map] at hst
    have hmem : rng (A.length - 1) 0 + 1 ∈ (List.range (m + 1)).map fun j => rng (A.length - 1) j + 1 :=
      List.mem_map.2 ⟨0, List.mem_range.2 (by omega), rfl⟩
    have hle := hft_queries_le (m := m + 1) hr
    have hc' := List.count_pos_iff.2 hmem
    have hlt := hr 0
    generalize (List.range (m + 1)).map (fun j => rng (A.length - 1) j + 1) = qs at hst hmem hle hc'
    generalize rng (A.length - 1) 0 = x at hmem hc' hlt
    have f1 := staysWithin_first hst
    have f2 := staysWithin_last _ hst
    have e := after_getD (times 4000 qs) (A := A) (fun q hm => hle q (times_mem hm)) x
    rw [times_count] at e
    have at_ : ∀ {L : List Int}, L.length = A.length → Within c.bound L →
        0 ≤ L.getD x 0 ∧ L.getD x 0 ≤ 256 := by
      intro L hL hW
      have hx : x < L.length := by omega
      have := hW _ (List.getElem_mem hx)
      rw [List.getD_eq_getElem?_getD, List.getElem?_eq_getElem hx, Option.getD_some]
      rw [hc] at this
      exact this
    have g1 := at_ rfl f1
    have g2 := at_ (after_length _ _) f2
    rw [e] at g2
    unfold delta at g2
    generalize List.count (x + 1) qs = y at g2 hc'
    by_cases h : (x + 1) % 2 = 0
    · rw [if_pos h] at g2; omega
    · rw [if_neg h] at g2; omega
  exact key 9999

example : ¬ StaysWithin 256 [3, 1, 4] (List.replicate 4000 ((List.range 10000).map fun j =>
    (exRng ([3, 1, 4] : List Int).length.pred j + 1, delta (exRng 2 j + 1)))).flatten :=
  C108_hft_update_false (c := hcfg 256) (A := [3, 1, 4]) (rng := exRng) rfl (exRng_lt (by decide))

/-- **C108, a witness.**  The delta `-1` on an element that is zero: prefix sums of BitF and ByteF are
then neither right nor the right number modulo `2^64`. -/
theorem C108_hft_update_wraps :
    (∃ o, run (hcfg 256) .bitF [0, 0, 0] [(1, delta 1)] = ok o ∧
      o.prefix (hcfg 256) 1 = ok 511 ∧ o.prefix (hcfg 256) 3 = ok 1533) ∧
    (∃ o, run (hcfg 256) .byteF [0, 0, 0] [(1, delta 1)] = ok o ∧
      o.prefix (hcfg 256) 1 = ok 65535 ∧ o.prefix (hcfg 256) 2 = ok 65534) := by
  have one : ∀ {x : Outcome Obj} {f g : Obj → Outcome Nat} {v w : Nat}, (x >>= f) = ok v → (x >>= g) = ok w →
      ∃ t, x = ok t ∧ f t = ok v ∧ g t = ok w := by
    intro x f g v w h h'
    cases x with
    | ok t => exact ⟨t, rfl, h, h'⟩
    | ub e => cases h
    | abort => cases h
  exact ⟨one (by decide +kernel) (by decide +kernel), one (by decide +kernel) (by decide +kernel)⟩

end

end MRS.Props
