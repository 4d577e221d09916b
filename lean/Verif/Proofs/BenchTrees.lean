import Verif.Proofs.BenchStructs
import Verif.Proofs.TreeShape
import Verif.Proofs.NodeSpec
import Verif.Proofs.Hft.Limits

/-!
# Facts about the benchmarks of trees
-/

set_option autoImplicit false

namespace MRS.Bench
open Outcome Spec

/-- Calls of which number `k` prints `v k`. -/
theorem calls_seq {σ : Type} {f : Nat → σ → Outcome (Nat × σ)} {P : Nat → σ → Prop} {v : Nat → Nat}
    {K : Nat} (h : ∀ k s, k < K → P k s → ∃ s', f k s = ok (v k, s') ∧ P (k + 1) s') (m : Nat) :
    ∀ k s, k + m ≤ K → P k s →
      ∃ s', calls f m k s = ok ((List.range m).map fun j => v (k + j), s') ∧ P (k + m) s' := by
  induction m with
  | zero => intro k s _ hs; exact ⟨s, rfl, hs⟩
  | succ m ih =>
    intro k s hk hs
    obtain ⟨s1, e1, h1⟩ := h k s (by omega) hs
    obtain ⟨s2, e2, h2⟩ := ih (k + 1) s1 (by omega) h1
    refine ⟨s2, ?_, by rw [show k + (m + 1) = k + 1 + m by omega]; exact h2⟩
    rw [map_range_shift v m k]
    unfold calls
    rw [e1, ok_bind]
    show (calls f m (k + 1) s1 >>= fun rs => ok (v k :: rs.1, rs.2)) = _
    rw [e2, ok_bind]

/-- Calls that never fail. -/
theorem calls_total {σ : Type} {f : Nat → σ → Outcome (Nat × σ)} {P : Nat → σ → Prop}
    (h : ∀ k s, P k s → ∃ v s', f k s = ok (v, s') ∧ P (k + 1) s') (m : Nat) :
    ∀ k s, P k s → ∃ ns s', calls f m k s = ok (ns, s') ∧ ns.length = m ∧ P (k + m) s' := by
  induction m with
  | zero => intro k s hs; exact ⟨[], s, rfl, rfl, hs⟩
  | succ m ih =>
    intro k s hs
    obtain ⟨v, s1, e1, h1⟩ := h k s hs
    obtain ⟨ns, s2, e2, hl, h2⟩ := ih (k + 1) s1 h1
    refine ⟨v :: ns, s2, ?_, by rw [List.length_cons, hl],
      by rw [show k + (m + 1) = k + 1 + m by omega]; exact h2⟩
    unfold calls
    rw [e1, ok_bind]
    show (calls f m (k + 1) s1 >>= fun rs => ok (v :: rs.1, rs.2)) = _
    rw [e2, ok_bind]

/-- A list, `m` times. -/
def times {α : Type} (m : Nat) (us : List α) : List α := (List.replicate m us).flatten

theorem times_zero {α : Type} (us : List α) : times 0 us = [] := rfl

theorem times_succ {α : Type} (m : Nat) (us : List α) : times (m + 1) us = times m us ++ us := by
  unfold times
  rw [List.replicate_succ', List.flatten_append]
  simp

theorem times_map {α β : Type} (f : α → β) (us : List α) (m : Nat) :
    times m (us.map f) = (times m us).map f := by
  induction m with
  | zero => rfl
  | succ m ih => rw [times_succ, times_succ, ih, List.map_append]

theorem times_count (x : Nat) (us : List Nat) (m : Nat) : (times m us).count x = m * us.count x := by
  induction m with
  | zero => rw [Nat.zero_mul]; rfl
  | succ m ih => rw [times_succ, List.count_append, ih, Nat.succ_mul]

theorem times_length {α : Type} (us : List α) (m : Nat) : (times m us).length = m * us.length := by
  induction m with
  | zero => rw [Nat.zero_mul]; rfl
  | succ m ih => rw [times_succ, List.length_append, ih, Nat.succ_mul]

theorem times_mem {α : Type} {us : List α} {m : Nat} {x : α} (h : x ∈ times m us) : x ∈ us := by
  induction m with
  | zero => cases h
  | succ m ih => rw [times_succ] at h; exact (List.mem_append.1 h).elim ih id

theorem updates_append {fam : TreeFam} {b : Build} {H : Nat} (us : List (Nat × Bool)) :
    ∀ (more : List (Nat × Bool)) {t t1 : Tree}, fam.updates b H t us = ok t1 →
      fam.updates b H t (us ++ more) = fam.updates b H t1 more := by
  induction us with
  | nil => intro more t t1 h; cases h; rfl
  | cons u us ih =>
    intro more t t1 h
    unfold TreeFam.updates at h
    rw [List.cons_append]
    show (fam.update b H t u.1 u.2 >>= fun t => fam.updates b H t (us ++ more)) = _
    cases hu : fam.update b H t u.1 u.2 with
    | ok t' => rw [hu, ok_bind] at h; rw [ok_bind]; exact ih more h
    | ub e => rw [hu] at h; cases h
    | abort => rw [hu] at h; cases h

/-- All deltas are true. -/
theorem toBool_delta (q : Nat) : toBool (delta q) = true := by
  unfold toBool delta; split <;> rfl

theorem updateAll_eq (fam : TreeFam) (b : Build) (H : Nat) (qs : List Nat) (t : Tree) :
    updateAll fam b H qs t = fam.updates b H t (qs.map fun q => (q, true)) := by
  unfold updateAll
  rw [show (fun q => (q, toBool (delta q))) = fun q => (q, true) from
    funext fun q => by rw [toBool_delta]]

/-! ## Arrays of counters that are only decremented -/

theorem getD_dec {vals : List Nat} {q : Nat} (x : Nat) (hq : q < vals.length) :
    (Spec.bump vals q true).getD x 0 = if x = q then vals.getD x 0 - 1 else vals.getD x 0 := by
  have e := congrFun (arr_bump (s := true) hq) x
  unfold updA at e
  by_cases hx : x = q
  · subst hx; rw [if_pos rfl] at e ⊢; exact e
  · rw [if_neg hx] at e ⊢; exact e

theorem dec_legal {M : Nat} (qs : List Nat) : ∀ {vals : List Nat},
    (∀ q ∈ qs, q < vals.length ∧ qs.count q ≤ vals.getD q 0) → BumpsOK M vals (qs.map fun q => (q, true)) := by
  induction qs with
  | nil => intro vals _; trivial
  | cons q qs ih =>
    intro vals h
    obtain ⟨hq, hc⟩ := h q List.mem_cons_self
    rw [List.count_cons_self] at hc
    refine ⟨hq, (fun _ => by show 1 ≤ vals.getD q 0; omega), (fun e => by cases e), ?_⟩
    refine ih fun r hr => ?_
    obtain ⟨hr1, hr2⟩ := h r (List.mem_cons_of_mem _ hr)
    rw [bump_length]
    refine ⟨hr1, ?_⟩
    show List.count r qs ≤ (Spec.bump vals q true).getD r 0
    rw [getD_dec r hq]
    by_cases e : r = q
    · subst e; rw [if_pos rfl]; omega
    · rw [if_neg e]
      rw [List.count_cons_of_ne (fun h => e h.symm)] at hr2
      exact hr2

theorem dec_count {M : Nat} (qs : List Nat) : ∀ {vals : List Nat},
    BumpsOK M vals (qs.map fun q => (q, true)) → ∀ q ∈ qs, qs.count q ≤ vals.getD q 0 := by
  induction qs with
  | nil => intro vals _ q hq; cases hq
  | cons q qs ih =>
    intro vals h r hr
    obtain ⟨hq, h1, _, h3⟩ := h
    have h1 : 1 ≤ vals.getD q 0 := h1 rfl
    have hq : q < vals.length := hq
    have hrest : qs.count r ≤ (Spec.bump vals q true).getD r 0 := by
      by_cases hm : r ∈ qs
      · exact ih h3 r hm
      · rw [List.count_eq_zero_of_not_mem hm]; exact Nat.zero_le _
    rw [getD_dec r hq] at hrest
    by_cases e : r = q
    · subst e
      rw [if_pos rfl] at hrest
      rw [List.count_cons_self]; omega
    · rw [if_neg e] at hrest
      rw [List.count_cons_of_ne (fun h => e h.symm)]
      exact hrest

/-- What is left of each entry. -/
theorem dec_getD (qs : List Nat) : ∀ {vals : List Nat}, (∀ q ∈ qs, q < vals.length) → ∀ x,
    (bumps vals (qs.map fun q => (q, true))).getD x 0 = vals.getD x 0 - qs.count x := by
  induction qs with
  | nil => intro vals _ x; rfl
  | cons q qs ih =>
    intro vals h x
    have hq := h q List.mem_cons_self
    show (bumps (Spec.bump vals q true) (qs.map fun q => (q, true))).getD x 0 = _
    rw [ih (fun r hr => by rw [bump_length]; exact h r (List.mem_cons_of_mem _ hr)), getD_dec x hq]
    by_cases e : x = q
    · subst e; rw [if_pos rfl, List.count_cons_self]; omega
    · rw [if_neg e, List.count_cons_of_ne (fun h => e h.symm)]

/-- The sum drops by the number of updates. -/
theorem dec_total {M : Nat} (qs : List Nat) : ∀ {vals : List Nat},
    BumpsOK M vals (qs.map fun q => (q, true)) →
    total (bumps vals (qs.map fun q => (q, true))) vals.length + qs.length = total vals vals.length := by
  induction qs with
  | nil => intro vals _; rfl
  | cons q qs ih =>
    intro vals h
    obtain ⟨hq, h1, _, h3⟩ := h
    have h1 : 1 ≤ vals.getD q 0 := h1 rfl
    have hq : q < vals.length := hq
    have e := ih h3
    rw [bump_length] at e
    have e2 := total_bump (s := true) hq (fun _ => h1) vals.length
    have e3 : bumpS (total vals) q true vals.length = total vals vals.length - 1 := by
      unfold bumpS; rw [if_pos hq]; rfl
    have e4 : 1 ≤ total vals vals.length := by
      have a := total_mono vals (show q + 1 ≤ vals.length by omega)
      have b : total vals (q + 1) = total vals q + vals.getD q 0 := by
        rw [← psum_arr, psum_succ, psum_arr]; rfl
      omega
    show total (bumps (Spec.bump vals q true) (qs.map fun q => (q, true))) vals.length + (qs.length + 1) = _
    have e : total (bumps (Spec.bump vals q true) (qs.map fun q => (q, true))) vals.length + qs.length =
      total (Spec.bump vals q true) vals.length := e
    omega

/-! ## Arrays of integers to which the deltas are added -/

open Spec.Tree Hft

theorem adds_append {c : Cfg} (ops : List (Nat × Int)) : ∀ (more : List (Nat × Int)) {o o1 : Obj},
    o.adds c ops = ok o1 → o.adds c (ops ++ more) = o1.adds c more := by
  induction ops with
  | nil => intro more o o1 h; cases h; rfl
  | cons u us ih =>
    intro more o o1 h
    unfold Obj.adds at h
    rw [List.cons_append]
    show (o.add c u.1 (u64 u.2) >>= fun o => o.adds c (us ++ more)) = _
    cases hu : o.add c u.1 (u64 u.2) with
    | ok t' => rw [hu, ok_bind] at h; rw [ok_bind]; exact ih more h
    | ub e => rw [hu] at h; cases h
    | abort => rw [hu] at h; cases h

/-- Every element has changed by its delta as often as it was drawn. -/
theorem after_getD (qs : List Nat) : ∀ {A : List Int}, (∀ q ∈ qs, 0 < q ∧ q ≤ A.length) → ∀ j,
    (after A (qs.map fun q => (q, delta q))).getD j 0 = A.getD j 0 + (qs.count (j + 1) : Int) * delta (j + 1) := by
  induction qs with
  | nil => intro A _ j; show A.getD j 0 = A.getD j 0 + (0 : Nat) * _; omega
  | cons q qs ih =>
    intro A h j
    obtain ⟨h0, h1⟩ := h q List.mem_cons_self
    show (after (addAt A q (delta q)) (qs.map fun q => (q, delta q))).getD j 0 = _
    rw [ih (fun r hr => by rw [addAt_length]; exact h r (List.mem_cons_of_mem _ hr)),
      addAt_getD A q j (delta q) h0 h1]
    by_cases e : j = q - 1
    · have e' : q = j + 1 := by omega
      subst e'
      rw [if_pos e, List.count_cons_self, Int.natCast_add, Int.add_mul]
      omega
    · rw [if_neg e, List.count_cons_of_ne (by omega)]
      omega

/-- The sum of the whole array. -/
theorem pre_after (qs : List Nat) : ∀ {A : List Int}, (∀ q ∈ qs, 0 < q ∧ q ≤ A.length) →
    pre (after A (qs.map fun q => (q, delta q))) A.length = pre A A.length + (qs.map delta).sum := by
  induction qs with
  | nil => intro A _; show pre A A.length = pre A A.length + 0; omega
  | cons q qs ih =>
    intro A h
    obtain ⟨h0, h1⟩ := h q List.mem_cons_self
    have e := ih (A := addAt A q (delta q)) fun r hr => by
      rw [addAt_length]; exact h r (List.mem_cons_of_mem _ hr)
    rw [addAt_length, pre_addAt A q (delta q) h0 h1, if_pos h1] at e
    show pre (after (addAt A q (delta q)) (qs.map fun q => (q, delta q))) A.length = _
    rw [e, List.map_cons, List.sum_cons]
    omega

theorem times_sum (us : List Int) (m : Nat) : (times m us).sum = m * us.sum := by
  induction m with
  | zero => rw [times_zero]; show (0 : Int) = (0 : Nat) * us.sum; omega
  | succ m ih => rw [times_succ, List.sum_append, ih, Int.natCast_add, Int.add_mul]; omega

end MRS.Bench
