import Verif.Proofs.TreeShape
import Verif.Props.Tree

/-!
# C109: updates that take counters out of their range

The segment trees do not check the counters; `update` may be called on an entry that is 0 or at its
limit.  `exMod` is compiled with both SIMD bodies and without assertions.
-/

set_option autoImplicit false

namespace MRS.Props
open MRS Outcome Spec

/-- **C109.**  After any updates at existing positions, whatever becomes of the counters, no `update` has
faulted, and no `sum` and no further `update` does; no assertion fails either. -/
theorem C109_runs {fam : TreeFam} {b : Build} {H M addr : Nat} {vals : List Nat} {us : List (Nat × Bool)}
    (h : fam.Valid b H M addr vals) (hu : ∀ u ∈ us, u.1 < vals.length) :
    ∃ t, fam.run b H addr vals us = ok t ∧
      (∀ i, i < vals.length → ∃ v, fam.sum b H t i = ok v) ∧
      ∀ i s, i < vals.length → ∃ t', fam.update b H t i s = ok t' := by
  obtain ⟨t, e, _, hs⟩ := h.shaped
  obtain ⟨t', e', hs'⟩ := hs.updates us hu
  refine ⟨t', by unfold TreeFam.run; rw [e, ok_bind, e'], fun i hi => hs'.sum hi, fun i s hi => ?_⟩
  obtain ⟨t2, e2, _⟩ := hs'.update s hi
  exact ⟨t2, e2⟩

/-- 200 counters, of which the first is 0: three decrements of it, in a debug build. -/
example : ∃ t, TreeFam.run .avx2 exDebug 2 16 exVals [(0, true), (0, true), (0, true)] = ok t ∧
    ∃ v, TreeFam.sum .avx2 exDebug 2 t 199 = ok v := by
  obtain ⟨t, e, h, _⟩ := C109_runs (us := [(0, true), (0, true), (0, true)]) exVals_valid (by decide +kernel)
  exact ⟨t, e, h 199 (by decide +kernel)⟩

def exMod : Build := ⟨true, true, true, true⟩

/-- **C109, the negation for `search`.**  One decrement of a counter that is 0, and `search(5)` reads out
of bounds in the avx2 tree, although `sum` says that there is more than that. -/
theorem C109_search_oob :
    (∃ t, TreeFam.avx2.run exMod 2 24 (List.replicate 129 0) [(0, true)] = ok t ∧
      TreeFam.avx2.sum exMod 2 t 128 = ok (2 ^ 32 - 1) ∧ TreeFam.avx2.search exMod 2 t 5 = ub .oob) := by
  have one : ∀ {x : Outcome Tree} {f : Tree → Outcome Nat} {g : Tree → Outcome (Nat × Nat)} {v : Nat} {e : Fault},
      (∃ t, x = ok t) → (x >>= f) = ok v → (x >>= g) = ub e → ∃ t, x = ok t ∧ f t = ok v ∧ g t = ub e := by
    intro x f g v e ⟨t, ht⟩ h1 h2
    subst ht
    exact ⟨t, rfl, h1, h2⟩
  refine one ?_ (by decide +kernel) (by decide +kernel)
  obtain ⟨t, e, _⟩ := C109_runs (fam := .avx2) (b := exMod) (H := 2) (M := 512) (addr := 24)
    (vals := List.replicate 129 0) (us := [(0, true)])
    ⟨by decide +kernel, by decide +kernel, by decide +kernel, by decide, by decide +kernel, .inl rfl, fun _ => by decide⟩
    (by decide +kernel)
  exact ⟨t, e⟩

/-- **C109, the negation for `search`.**  In the avx512 tree it counts the trailing zeros of 0. -/
theorem C109_search_ctz :
    (∃ t, TreeFam.avx512.run exMod 2 56 (List.replicate 513 0) [(0, true)] = ok t ∧
      TreeFam.avx512.search exMod 2 t 5 = ub .ctzZero) := by
  have one : ∀ {x : Outcome Tree} {g : Tree → Outcome (Nat × Nat)} {e : Fault},
      (∃ t, x = ok t) → (x >>= g) = ub e → ∃ t, x = ok t ∧ g t = ub e := by
    intro x g e ⟨t, ht⟩ h2
    subst ht
    exact ⟨t, rfl, h2⟩
  refine one ?_ (by decide +kernel)
  obtain ⟨t, e, _⟩ := C109_runs (fam := .avx512) (b := exMod) (H := 2) (M := 256) (addr := 56)
    (vals := List.replicate 513 0) (us := [(0, true)])
    ⟨by decide +kernel, by decide +kernel, by decide +kernel, by decide, by decide +kernel, .inl rfl, fun _ => by decide⟩
    (by decide +kernel)
  exact ⟨t, e⟩

end MRS.Props
