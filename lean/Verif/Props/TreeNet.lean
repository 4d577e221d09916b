import Verif.Proofs.TreeMod
import Verif.Props.TreeAny

/-!
# C110, C111: what counters that leave their range do to the segment trees

The segment trees store sums in 16, 32 or 64 bits, and never check a counter.
-/

set_option autoImplicit false

namespace MRS.Props
open MRS Outcome Spec

/-- **C110.**  Only the outcome of the updates matters: whatever the order of `us`, and whatever the
counters were in between, if the counters end up as `ws`, within their range, then every `sum` and
`search` is as for `ws`, and so it remains during legal updates `us2`. -/
theorem C110_heals {fam : TreeFam} {b : Build} {H M addr : Nat} {vals ws : List Nat} {us us2 : List (Nat × Bool)}
    (h : fam.Valid b H M addr vals) (hu : ∀ u ∈ us, u.1 < vals.length) (hl : ws.length = vals.length)
    (hw : ∀ w ∈ ws, w ≤ M) (hn : ∀ j, j < vals.length → (ws.getD j 0 : Int) = net vals us j)
    (hu2 : BumpsOK M ws us2) :
    ∃ t, (fam.run b H addr vals us >>= fun t => fam.updates b H t us2) = ok t ∧
      (∀ i, i < vals.length → fam.sum b H t i = ok (total (bumps ws us2) (i + 1))) ∧
      (fam.SearchSafe b H M (total (bumps ws us2) vals.length) → ∀ x, x < total (bumps ws us2) vals.length →
        ∃ p, fam.search b H t x = ok (p, total (bumps ws us2) p) ∧ p < vals.length ∧
          total (bumps ws us2) p ≤ x ∧ x < total (bumps ws us2) (p + 1)) := by
  obtain ⟨t, e, ht⟩ := h.heals hu hl hw hn
  obtain ⟨t', e', ht'⟩ := ht.updates us2 hu2
  have hlen : (bumps ws us2).length = vals.length := by rw [bumps_length, hl]
  refine ⟨t', by rw [e, ok_bind, e'], fun i hi => ht'.sum (by rw [hlen]; exact hi), fun hs x hx => ?_⟩
  rw [← hlen] at hs hx
  obtain ⟨p, s, es, h1, h2, h3, h4⟩ := ht'.search hs hx
  subst h2
  exact ⟨p, es, by rw [← hlen]; exact h1, h3, h4⟩

/-- 200 counters; the first goes from 0 down to -2 and back up to 1, another from 1 to 2. -/
def exSwing : List (Nat × Bool) := [(0, true), (0, true), (1, false), (0, false), (0, false), (0, false)]
def exSwung : List Nat := 1 :: 2 :: exVals.drop 2

theorem exSwing_net : ∀ j, j < exVals.length → (exSwung.getD j 0 : Int) = net exVals exSwing j := by
  have h : ∀ j : Fin 200, (exSwung.getD j 0 : Int) = net exVals exSwing j := by decide +kernel
  exact fun j hj => h ⟨j, by rw [show exVals.length = 200 by decide +kernel] at hj; exact hj⟩

example : ¬ BumpsOK 512 exVals exSwing := fun h => absurd (h.2.1 rfl) (by decide +kernel)

example : ∃ t, TreeFam.run .avx2 exDebug 2 16 exVals exSwing = ok t ∧ TreeFam.sum .avx2 exDebug 2 t 1 = ok 3 := by
  obtain ⟨t, e, h, _⟩ := C110_heals (ws := exSwung) (us2 := []) exVals_valid (us := exSwing) (by decide +kernel)
    (by decide +kernel) (by decide +kernel) exSwing_net trivial
  refine ⟨t, ?_, (h 1 (by decide +kernel)).trans (congrArg ok (by decide +kernel))⟩
  cases hr : TreeFam.run .avx2 exDebug 2 16 exVals exSwing with
  | ok t' => rw [hr] at e; exact e
  | ub f => rw [hr] at e; cases e
  | abort => rw [hr] at e; cases e

/-- **C111, weakened.**  After any updates at existing positions, `sum(i)` is the sum of the counters as
integers, modulo `2^16`.  (Full statement: modulo `2^32`, the range of the results of the smallest trees;
it fails, see `C111_not_mod32`.) -/
theorem C111_sum_mod_partial {fam : TreeFam} {b : Build} {H M addr : Nat} {vals : List Nat} {us : List (Nat × Bool)}
    (h : fam.Valid b H M addr vals) (hu : ∀ u ∈ us, u.1 < vals.length) :
    ∃ t, fam.run b H addr vals us = ok t ∧ ∀ i, i < vals.length →
      ∃ v, fam.sum b H t i = ok v ∧ (v : Int) % 65536 = netSum vals us (i + 1) % 65536 := by
  obtain ⟨t, e, hs⟩ := h.sum_mod hu
  refine ⟨t, e, fun i hi => ?_⟩
  obtain ⟨v, ev, hc⟩ := hs i hi
  refine ⟨v, ev, ?_⟩
  unfold Cg at hc
  omega

/-- Three decrements of a counter that is 0: the sums are 3 too small, and the first is negative. -/
example : netSum exVals [(0, true), (0, true), (0, true)] 2 = -2 ∧
    ∃ t, TreeFam.run .avx2 exDebug 2 16 exVals [(0, true), (0, true), (0, true)] = ok t ∧
      ∃ v, TreeFam.sum .avx2 exDebug 2 t 1 = ok v ∧ v % 65536 = 65534 := by
  have e : netSum exVals [(0, true), (0, true), (0, true)] 2 = -2 := by decide +kernel
  refine ⟨e, ?_⟩
  obtain ⟨t, er, h⟩ := C111_sum_mod_partial (us := [(0, true), (0, true), (0, true)]) exVals_valid (by decide +kernel)
  obtain ⟨v, ev, hv⟩ := h 1 (by decide +kernel)
  refine ⟨t, er, v, ev, ?_⟩
  rw [show (1 + 1 : Nat) = 2 from rfl, e] at hv
  omega

/-- **C111, the negation.**  Modulo `2^32` the sums are wrong, and not even alike: of 128 counters that
are 0 the first is decremented; `sum(0)` says 65535 and `sum(16)` says `2^32 - 1`, where both sums are
-1. -/
theorem C111_not_mod32 :
    (∃ t, TreeFam.avx2.run exMod 1 28 (List.replicate 128 0) [(0, true)] = ok t ∧
      TreeFam.avx2.sum exMod 1 t 0 = ok 65535 ∧ TreeFam.avx2.sum exMod 1 t 16 = ok (2 ^ 32 - 1)) ∧
    netSum (List.replicate 128 0) [(0, true)] 1 = -1 ∧ netSum (List.replicate 128 0) [(0, true)] 17 = -1 ∧
    (65535 : Int) % 2 ^ 32 ≠ -1 % 2 ^ 32 := by
  have one : ∀ {x : Outcome Tree} {f g : Tree → Outcome Nat} {v w : Nat},
      (x >>= f) = ok v → (x >>= g) = ok w → ∃ t, x = ok t ∧ f t = ok v ∧ g t = ok w := by
    intro x f g v w h1 h2
    obtain ⟨t, e, h⟩ := bind_ok_inv h1
    subst e
    exact ⟨t, rfl, h, h2⟩
  exact ⟨one (by decide +kernel) (by decide +kernel), by decide +kernel, by decide +kernel, by decide⟩

end MRS.Props
