import Verif.Props.BenchTrees
import Verif.Proofs.TreeMod

/-!
# C108: what the update benchmark prints once counters have run out

The updates of perf_prefix_sum are decrements only and soon leave the range of the counters
(`C108_update_false`); the numbers printed are still right modulo `2^16`.
-/

set_option autoImplicit false

namespace MRS.Props
open MRS MRS.Bench Outcome Spec

/-- Calls whose numbers are known up to a relation. -/
theorem calls_rel {σ : Type} {f : Nat → σ → Outcome (Nat × σ)} {P : Nat → σ → Prop} {Q : Nat → Nat → Prop}
    (h : ∀ k s, P k s → ∃ v s', f k s = ok (v, s') ∧ Q k v ∧ P (k + 1) s') (m : Nat) :
    ∀ k s, P k s → ∃ ns s', calls f m k s = ok (ns, s') ∧ ns.length = m ∧
      (∀ j, j < m → Q (k + j) (ns.getD j 0)) ∧ P (k + m) s' := by
  induction m with
  | zero => intro k s hs; exact ⟨[], s, rfl, rfl, fun j hj => by omega, hs⟩
  | succ m ih =>
    intro k s hs
    obtain ⟨v, s1, e1, q1, h1⟩ := h k s hs
    obtain ⟨ns, s2, e2, hl, hq, h2⟩ := ih (k + 1) s1 h1
    refine ⟨v :: ns, s2, ?_, by rw [List.length_cons, hl], ?_,
      by rw [show k + (m + 1) = k + 1 + m by omega]; exact h2⟩
    · unfold calls
      rw [e1, ok_bind]
      show (calls f m (k + 1) s1 >>= fun rs => ok (v :: rs.1, rs.2)) = _
      rw [e2, ok_bind]
    · intro j hj
      cases j with
      | zero => exact q1
      | succ j =>
        have := hq j (by omega)
        rw [show k + 1 + j = k + (j + 1) by omega] at this
        exact this

theorem netSum_succ (vals : List Nat) (us : List (Nat × Bool)) (k : Nat) :
    netSum vals us (k + 1) = netSum vals us k + net vals us k := by
  unfold netSum
  rw [List.range_succ, List.map_append, List.sum_append]
  show _ + (_ + 0) = _
  omega

theorem net_cons (vals : List Nat) (u : Nat × Bool) (us : List (Nat × Bool)) (j : Nat) :
    net vals (u :: us) j = net vals us j + (if u.1 = j then (if u.2 then -1 else 1) else 0) := by
  unfold net
  rw [List.map_cons, List.sum_cons]
  omega

theorem netSum_cons (vals : List Nat) (u : Nat × Bool) (us : List (Nat × Bool)) (k : Nat) :
    netSum vals (u :: us) k = netSum vals us k + (if u.1 < k then (if u.2 then -1 else 1) else 0) := by
  induction k with
  | zero => rw [if_neg (by omega)]; rfl
  | succ k ih =>
    rw [netSum_succ, netSum_succ, ih, net_cons]
    by_cases h1 : u.1 < k
    · rw [if_pos h1, if_neg (show ¬ u.1 = k by omega), if_pos (show u.1 < k + 1 by omega)]
      omega
    · by_cases h2 : u.1 = k
      · rw [if_neg h1, if_pos h2, if_pos (show u.1 < k + 1 by omega)]
        omega
      · rw [if_neg h1, if_neg h2, if_neg (show ¬ u.1 < k + 1 by omega)]
        omega

theorem netSum_nil (vals : List Nat) (k : Nat) (hk : k ≤ vals.length) : netSum vals [] k = total vals k := by
  induction k with
  | zero => rfl
  | succ k ih =>
    rw [netSum_succ, ih (by omega)]
    unfold total net
    rw [List.take_add_one, List.sum_append, List.getElem?_eq_getElem (by omega),
      List.getD_eq_getElem?_getD, List.getElem?_eq_getElem (by omega)]
    simp

/-- Decrements only. -/
theorem netSum_dec (vals : List Nat) : ∀ (us : List (Nat × Bool)), (∀ u ∈ us, u.1 < vals.length ∧ u.2 = true) →
    netSum vals us vals.length = (total vals vals.length : Int) - us.length
  | [], _ => by rw [netSum_nil _ _ (Nat.le_refl _)]; simp
  | u :: us, h => by
    obtain ⟨h1, h2⟩ := h u List.mem_cons_self
    rw [netSum_cons, netSum_dec vals us (fun w hw => h w (List.mem_cons_of_mem _ hw)), if_pos h1, if_pos h2,
      List.length_cons]
    omega

section
variable {fam : TreeFam} {b : Build} {H M addr : Nat} {vals : List Nat} {rng : Nat → Nat → Nat}

/-- **C108.**  `update` of perf_prefix_sum prints forty numbers; number `k` (from 0) is, modulo `2^16`, the sum
of the values less a million for each line up to it.  Afterwards every prefix sum is, modulo `2^16`, the
sum of the counters as integers. -/
theorem C108_update_mod (h : fam.Valid b H M addr vals) (hr : ∀ j, rng (vals.length - 1) j < vals.length) :
    ∃ t' ns, treeRound fam b H addr "update" vals rng = ok (ns, t') ∧ ns.length = 40 ∧
      (∀ k, k < 40 → ((ns.getD k 0 : Nat) : Int) % 65536 =
        ((total vals vals.length : Int) - 1000000 * (k + 1)) % 65536) ∧
      ∀ i, i < vals.length → ∃ v, fam.sum b H t' i = ok v ∧ (v : Int) % 65536 =
        netSum vals (List.replicate 4000
          ((List.range 10000).map fun j => (rng (vals.length - 1) j, true))).flatten (i + 1) % 65536 := by
  obtain ⟨t, e, _, _⟩ := h.shaped
  have key : ∀ m, ∃ t' ns, calls (fun _ t => measureTree fam b H vals.length "update"
        ((List.range m).map (rng (vals.length - 1))) t) 40 0 t = ok (ns, t') ∧ ns.length = 40 ∧
      (∀ k, k < 40 → ((ns.getD k 0 : Nat) : Int) % 65536 =
        ((total vals vals.length : Int) - ((k + 1) * 100 * m : Nat)) % 65536) ∧
      ∀ i, i < vals.length → ∃ v, fam.sum b H t' i = ok v ∧ (v : Int) % 65536 =
        netSum vals (times (40 * 100) ((List.range m).map fun j => (rng (vals.length - 1) j, true)))
          (i + 1) % 65536 := by
    intro m
    have eu : ((List.range m).map (rng (vals.length - 1))).map (fun q => (q, true)) =
        (List.range m).map fun j => (rng (vals.length - 1) j, true) := by rw [List.map_map]; rfl
    have hm : ((List.range m).map fun j => (rng (vals.length - 1) j, true)).length = m := by
      rw [List.length_map, List.length_range]
    generalize hus : (List.range m).map (fun j => (rng (vals.length - 1) j, true)) = us at eu hm ⊢
    have hlt : ∀ u ∈ us, u.1 < vals.length ∧ u.2 = true := by
      intro u hu
      rw [← hus] at hu
      obtain ⟨j, _, rfl⟩ := List.mem_map.1 hu
      exact ⟨hr j, rfl⟩
    have sums : ∀ k s, fam.updates b H t (times k us) = ok s → ∀ i, i < vals.length →
        ∃ v, fam.sum b H s i = ok v ∧ (v : Int) % 65536 = netSum vals (times k us) (i + 1) % 65536 := by
      intro k s hs i hi
      obtain ⟨t1, e1, h1⟩ := h.sum_mod (us := times k us) (fun u hu => (hlt u (times_mem hu)).1)
      unfold TreeFam.run at e1
      rw [e, ok_bind, hs] at e1
      have := Outcome.ok.inj e1
      subst this
      obtain ⟨v, ev, hc⟩ := h1 i hi
      refine ⟨v, ev, ?_⟩
      unfold Cg at hc
      omega
    have step : ∀ k s, fam.updates b H t (times (k * 100) us) = ok s →
        ∃ v s', measureTree fam b H vals.length "update" ((List.range m).map (rng (vals.length - 1))) s =
          ok (v, s') ∧ ((v : Nat) : Int) % 65536 =
            ((total vals vals.length : Int) - ((k + 1) * 100 * m : Nat)) % 65536 ∧
          fam.updates b H t (times ((k + 1) * 100) us) = ok s' := by
      intro k s h1
      obtain ⟨s', e1, hP⟩ := forN_inv
        (body := fun _ t => updateAll fam b H ((List.range m).map (rng (vals.length - 1))) t)
        (fun i s => fam.updates b H t (times (k * 100 + i) us) = ok s)
        100 s h1 (by
          intro i s _ g1
          obtain ⟨t1, e2, _⟩ := h.sum_mod (us := times (k * 100 + i + 1) us)
            (fun u hu => (hlt u (times_mem hu)).1)
          unfold TreeFam.run at e2
          rw [e, ok_bind] at e2
          have e3 := e2
          rw [times_succ, updates_append _ _ g1] at e3
          exact ⟨t1, by rw [updateAll_eq, eu]; exact e3, e2⟩)
      have hpos := h.pos
      obtain ⟨v, ev, hv⟩ := sums _ _ hP (vals.length - 1) (by omega)
      refine ⟨v, s', ?_, ?_, by rw [Nat.succ_mul]; exact hP⟩
      · unfold measureTree
        rw [if_neg (by decide), if_pos rfl, e1, ok_bind, ev, ok_bind]
      · rw [hv, show vals.length - 1 + 1 = vals.length by omega,
          netSum_dec _ _ (fun u hu => hlt u (times_mem hu)), times_length, hm,
          show k * 100 + 100 = (k + 1) * 100 by omega]
    obtain ⟨ns, s', ec, hl, hq, hP⟩ := calls_rel (P := fun k s =>
        fam.updates b H t (times (k * 100) us) = ok s)
      (Q := fun k v => ((v : Nat) : Int) % 65536 =
        ((total vals vals.length : Int) - ((k + 1) * 100 * m : Nat)) % 65536)
      (f := fun _ t => measureTree fam b H vals.length "update"
        ((List.range m).map (rng (vals.length - 1))) t)
      (fun k s hs => step k s hs) 40 0 t rfl
    rw [Nat.zero_add] at hP
    refine ⟨s', ns, ec, hl, fun k hk => ?_, sums _ _ hP⟩
    have := hq k hk
    rw [Nat.zero_add] at this
    exact this
  obtain ⟨t', ns, e2, hl, hq, hs⟩ := key 10000
  refine ⟨t', ns, ?_, hl, fun k hk => ?_, hs⟩
  · unfold treeRound
    rw [e, ok_bind, if_neg (by decide), ok_bind]
    rw [treeQueries_eq (by decide)]
    exact e2
  · rw [hq k hk, show (((k + 1) * 100 * 10000 : Nat) : Int) = 1000000 * ((k : Int) + 1) by omega]

/-- 200 counters, drawn in turn. -/
example : ∃ t ns, treeRound .avx2 exDebug 2 16 "update" exVals exRng = ok (ns, t) ∧
    ((ns.getD 0 0 : Nat) : Int) % 65536 = ((total exVals exVals.length : Int) - 1000000) % 65536 := by
  obtain ⟨t, ns, e, _, h, _⟩ := C108_update_mod exVals_valid (rng := exRng) (exRng_lt (by decide +kernel))
  refine ⟨t, ns, e, ?_⟩
  have := h 0 (by omega)
  rw [this]
  rfl

end

end MRS.Props
