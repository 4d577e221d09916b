import Verif.Model.TestTrees
import Verif.Proofs.Tests
import Verif.Proofs.NodeSpec

/-!
# What the tests of nodes and segment trees accept
-/

set_option autoImplicit false

namespace MRS.Test
open Outcome Spec

theorem total_succ (cur : List Nat) (k : Nat) : total cur (k + 1) = total cur k + arr cur k := by
  rw [← psum_arr, ← psum_arr]; rfl

theorem total_bound {cur : List Nat} {M : Nat} (h : ∀ j, arr cur j ≤ M) (k : Nat) :
    total cur k ≤ k * M := by
  have := psum_le_mul (f := arr cur) (M := M) (a := 0) (d := k) (fun j _ => h j)
  rw [Nat.zero_add, psum_arr] at this
  have h0 : psum (arr cur) 0 = 0 := rfl
  omega

theorem get_arrayOf {cur : List Nat} {i : Nat} (hi : i < cur.length) :
    (arrayOf cur).get i = ok (arr cur i) := Vec.get_ok hi

theorem set_arrayOf {cur : List Nat} {i K : Nat} {sign : Bool} (hi : i < cur.length)
    (hp : sign = true → 1 ≤ arr cur i) (hK : arr cur i + 1 < K) :
    (arrayOf cur).set i (addDelta K (arr cur i) sign) = ok (arrayOf (Spec.bump cur i sign)) := by
  rw [Vec.set_ok (v := arrayOf cur) _ hi]
  have e : addDelta K (arr cur i) sign = if sign then arr cur i - 1 else arr cur i + 1 := by
    unfold addDelta
    cases sign with
    | true =>
      have := hp rfl
      simp only [if_true]
      rw [show arr cur i + (K - 1) = arr cur i - 1 + K by omega, Nat.add_mod_right,
        Nat.mod_eq_of_lt (by omega)]
    | false =>
      simp only [Bool.false_eq_true, if_false]
      exact Nat.mod_eq_of_lt hK
  unfold arrayOf
  rw [e, bump_length]
  refine congrArg ok (congrArg _ (funext fun j => ?_))
  show _ = arr (Spec.bump cur i sign) j
  rw [arr_bump hi]
  rfl

theorem add64_ok {a b : Nat} (h : a + b < W64) : add64 a b = a + b := Nat.mod_eq_of_lt h

/-! ## The reference search -/

theorem refSearch_ok {cur : List Nat} {x : Nat} (hT : total cur cur.length < W64) (m : Nat) :
    ∀ pos, pos + m = cur.length → total cur pos ≤ x →
      ∃ p, refSearch (arrayOf cur) x m pos (total cur pos) = ok (p, total cur p) ∧ p ≤ cur.length ∧
        total cur p ≤ x ∧ (p < cur.length → x < total cur (p + 1)) := by
  induction m with
  | zero => intro pos h hx; exact ⟨pos, rfl, by omega, hx, fun h' => absurd h' (by omega)⟩
  | succ m ih =>
    intro pos h hx
    have hm := total_mono cur (a := pos + 1) (b := cur.length) (by omega)
    have hs := total_succ cur pos
    unfold refSearch
    rw [get_arrayOf (by omega), ok_bind, add64_ok (by omega), ← hs]
    by_cases hc : x < total cur (pos + 1)
    · rw [if_pos hc]; exact ⟨pos, rfl, by omega, hx, fun _ => hc⟩
    · rw [if_neg hc]; exact ih (pos + 1) (by omega) (by omega)

/-- The answer to `search(x)`: the first position whose prefix sum exceeds `x`, or the end. -/
structure IsSearch (cur : List Nat) (x : Nat) (r : Nat × Nat) : Prop where
  le : r.1 ≤ cur.length
  sum : r.2 = total cur r.1
  lo : total cur r.1 ≤ x
  hi : r.1 < cur.length → x < total cur (r.1 + 1)

theorem IsSearch.unique {cur : List Nat} {x : Nat} {r r' : Nat × Nat} (h : IsSearch cur x r)
    (h' : IsSearch cur x r') : r = r' := by
  have e : r.1 = r'.1 := by
    rcases Nat.lt_trichotomy r.1 r'.1 with hl | he | hl
    · have h1 := h.hi (by have := h'.le; omega)
      have h2 := total_mono cur (a := r.1 + 1) (b := r'.1) hl
      have h3 := h'.lo
      omega
    · exact he
    · have h1 := h'.hi (by have := h.le; omega)
      have h2 := total_mono cur (a := r'.1 + 1) (b := r.1) hl
      have h3 := h.lo
      omega
  exact Prod.ext e (by rw [h.sum, h'.sum, e])

theorem requireMsg_iff {p : Prop} [Decidable p] : requireMsg (decide p) = ok () ↔ p := by
  unfold requireMsg
  by_cases h : p
  · rw [decide_eq_true h]; exact ⟨fun _ => h, fun _ => rfl⟩
  · rw [decide_eq_false h]; exact ⟨fun e => (by cases e), fun h' => absurd h' h⟩

theorem forFrom_unit_iff (f : Nat → Outcome Unit) (Q : Nat → Prop) (n : Nat) : ∀ (a : Nat),
    (∀ i, a ≤ i → i < a + n → (f i = ok () ↔ Q i)) →
    (forFrom a n (fun i (_ : Unit) => f i) () = ok () ↔ ∀ i, a ≤ i → i < a + n → Q i) := by
  induction n with
  | zero => intro a _; exact ⟨fun _ i h1 h2 => absurd h2 (by omega), fun _ => rfl⟩
  | succ n ih =>
    intro a h
    have ih := ih (a + 1) fun i l1 l2 => h i (by omega) (by omega)
    have h0 := h a (Nat.le_refl a) (by omega)
    constructor
    · intro e
      obtain ⟨⟨⟩, e1, e2⟩ := forFrom_succ_ok e
      intro i l1 l2
      by_cases hi : i = a
      · subst hi; exact h0.1 e1
      · exact ih.1 e2 i (by omega) (by omega)
    · intro hQ
      show (f a >>= fun _ => forFrom (a + 1) n (fun i (_ : Unit) => f i) ()) = ok ()
      rw [h0.2 (hQ a (Nat.le_refl a) (by omega)), ok_bind]
      exact ih.2 fun i l1 l2 => hQ i (by omega) (by omega)

theorem searchPhase_iff {cur : List Nat} (hT : total cur cur.length < W64) (count : Nat)
    (x : Nat → Nat) (search : Nat → Outcome (Nat × Nat)) :
    searchPhase count (arrayOf cur) x search = ok () ↔
      ∀ i, i < count → ∃ r, search (x i) = ok r ∧ IsSearch cur (x i) r := by
  unfold searchPhase forN
  rw [forFrom_unit_iff _ (fun i => ∃ r, search (x i) = ok r ∧ IsSearch cur (x i) r)]
  · exact ⟨fun h i hi => h i (Nat.zero_le i) (by omega), fun h i _ hi => h i (by omega)⟩
  · intro i _ _
    have h0 : total cur 0 = 0 := by simp [total]
    obtain ⟨p, e, h1, h2, h3⟩ := refSearch_ok hT cur.length (x := x i) 0 (by omega) (by omega)
    rw [h0] at e
    have e : refSearch (arrayOf cur) (x i) (arrayOf cur).len 0 0 = ok (p, total cur p) := e
    rw [e, ok_bind]
    have hs : IsSearch cur (x i) (p, total cur p) := ⟨h1, rfl, h2, h3⟩
    constructor
    · intro h
      obtain ⟨r, er, hr⟩ := bind_ok h
      rw [requireMsg_iff] at hr
      exact ⟨r, er, hr ▸ hs⟩
    · rintro ⟨r, er, hr⟩
      rw [er, ok_bind, requireMsg_iff]
      exact hr.unique hs

/-! ## Loops with a step -/

theorem step_gap {step i j : Nat} (hi : i % step = 0) (hj : j % step = 0) (h1 : i < j)
    (h2 : j < i + step) : False := by
  obtain ⟨a, rfl⟩ := Nat.dvd_of_mod_eq_zero hi
  obtain ⟨c, rfl⟩ := Nat.dvd_of_mod_eq_zero hj
  have h3 : a < c := Nat.lt_of_mul_lt_mul_left h1
  have h4 : step * (a + 1) ≤ step * c := Nat.mul_le_mul_left step h3
  rw [Nat.mul_succ] at h4
  omega

theorem stepLoop_iff {σ : Type} {n step : Nat} (hs : 0 < step) (hN : n + step ≤ W32)
    {body : Nat → σ → Outcome σ} {I : Nat → σ → Prop} {Q : Nat → Prop}
    (hb : ∀ i s, i < n → i % step = 0 → I i s →
      (Q i ∧ ∃ s', body i s = ok s' ∧ I (i + step) s') ∨ (¬ Q i ∧ ∀ s', body i s ≠ ok s')) (m : Nat) :
    ∀ i s, i % step = 0 → n < i + m → 0 < m → I i s →
      ((∃ s' i', stepLoop n step body m i s = ok s' ∧ n ≤ i' ∧ i' % step = 0 ∧ I i' s') ∧
        ∀ j, i ≤ j → j < n → j % step = 0 → Q j) ∨
      ((∀ s', stepLoop n step body m i s ≠ ok s') ∧ ∃ j, i ≤ j ∧ j < n ∧ j % step = 0 ∧ ¬ Q j) := by
  induction m with
  | zero => intro i s _ _ h0; exact absurd h0 (by omega)
  | succ m ih =>
    intro i s hi hm _ h
    unfold stepLoop
    by_cases hin : i < n
    · rw [if_pos hin]
      rcases hb i s hin hi h with ⟨hQ, s1, e1, h1⟩ | ⟨hQ, hne⟩
      · rw [e1, ok_bind, Nat.mod_eq_of_lt (a := i + step) (by omega)]
        rcases ih (i + step) s1 (by rw [Nat.add_mod_right]; exact hi) (by omega) (by omega) h1 with
          ⟨hr, hq⟩ | ⟨hr, j, hj1, hj2, hj3, hj4⟩
        · refine Or.inl ⟨hr, fun j h1 h2 h3 => ?_⟩
          by_cases hij : j = i
          · subst hij; exact hQ
          · by_cases hlt : j < i + step
            · exact (step_gap hi h3 (by omega) hlt).elim
            · exact hq j (by omega) h2 h3
        · exact Or.inr ⟨hr, j, by omega, hj2, hj3, hj4⟩
      · refine Or.inr ⟨fun s' e => ?_, i, Nat.le_refl i, hin, hi, hQ⟩
        obtain ⟨t, et, _⟩ := bind_ok e
        exact hne t et
    · rw [if_neg hin]
      exact Or.inl ⟨⟨s, i, rfl, by omega, hi, h⟩, fun j h1 h2 => absurd h2 (by omega)⟩

theorem fuel32_eq : fuel32 = 4294967297 := by unfold fuel32; rfl

theorem accTo_ok {cur : List Nat} (hT : total cur cur.length < W64) (hn : cur.length < W32) {stop : Nat}
    (hs : stop ≤ cur.length) (m : Nat) : ∀ k, k ≤ stop → stop < k + m →
    accTo (arrayOf cur) stop m k (total cur k) = ok (stop, total cur stop) := by
  induction m with
  | zero => intro k h1 h2; exact absurd h2 (by omega)
  | succ m ih =>
    intro k h1 h2
    unfold accTo
    by_cases hk : k = stop
    · rw [if_pos hk, hk]
    · rw [if_neg hk, get_arrayOf (by omega), ok_bind]
      have h3 := total_succ cur k
      have h4 := total_mono cur (a := k + 1) (b := cur.length) (by omega)
      rw [add64_ok (by omega), ← h3, Nat.mod_eq_of_lt (a := k + 1) (by omega)]
      exact ih (k + 1) (by omega) (by omega)

theorem accTo_fuel {cur : List Nat} (hT : total cur cur.length < W64) (hn : cur.length < W32) {i k : Nat}
    (hi : i < cur.length) (hk : k ≤ i + 1) :
    accTo (arrayOf cur) ((i + 1) % W32) fuel32 k (total cur k) = ok (i + 1, total cur (i + 1)) := by
  rw [Nat.mod_eq_of_lt (a := i + 1) (by omega)]
  exact accTo_ok hT hn (by omega) _ k hk (by rw [fuel32_eq]; simp only [W32] at hn; omega)

theorem stepOf_pos (n : Nat) : 0 < stepOf n := by
  unfold stepOf; split <;> omega

theorem stepOf_le (n : Nat) : stepOf n ≤ n + 1 := by
  unfold stepOf; split
  · omega
  · have := Nat.div_le_self n 5000; omega

/-- The loop over the positions accepts exactly the right sums, at every `step`-th position. -/
theorem treeSumPhase_iff {cur : List Nat} (hT : total cur cur.length < W64)
    (hn : cur.length < 2 ^ 31) (sum : Nat → Outcome Nat) :
    treeSumPhase (arrayOf cur) sum = ok () ↔
      ∀ i, i < cur.length → i % stepOf cur.length = 0 → sum i = ok (total cur (i + 1)) := by
  have hstep := stepOf_le cur.length
  have hn' : cur.length < W32 := by simp only [W32]; omega
  unfold treeSumPhase
  rcases stepLoop_iff (n := cur.length) (step := stepOf cur.length) (stepOf_pos _)
      (by simp only [W32]; omega)
      (body := fun i (s : Nat × Nat) => do
        let got ← sum i
        let s ← accTo (arrayOf cur) ((i + 1) % W32) fuel32 s.1 s.2
        requireMsg (decide (got = s.2))
        ok s)
      (I := fun i s => s.1 ≤ i ∧ s.2 = total cur s.1) (Q := fun i => sum i = ok (total cur (i + 1)))
      (by
        rintro i ⟨k, e⟩ hi _ ⟨hk, he⟩
        obtain rfl : e = total cur k := he
        have hacc := accTo_fuel hT hn' hi (k := k) (by have : k ≤ i := hk; omega)
        by_cases hq : sum i = ok (total cur (i + 1))
        · refine Or.inl ⟨hq, (i + 1, total cur (i + 1)), ?_, ?_, rfl⟩
          · rw [hq, ok_bind, hacc, ok_bind, requireMsg_iff.2 rfl, ok_bind]
          · have := stepOf_pos cur.length
            show i + 1 ≤ i + _
            omega
        · refine Or.inr ⟨hq, fun s' e => hq ?_⟩
          obtain ⟨g, e1, e⟩ := bind_ok e
          rw [hacc, ok_bind] at e
          obtain ⟨⟨⟩, e2, _⟩ := bind_ok e
          rw [requireMsg_iff] at e2
          rw [e1, e2]) fuel32 0 (0, 0) (Nat.zero_mod _)
      (by rw [fuel32_eq]; omega) (by rw [fuel32_eq]; omega) ⟨Nat.le_refl 0, by simp [total]⟩ with
    ⟨⟨s', i', e, _⟩, hq⟩ | ⟨hne, j, _, h1, h2, h3⟩
  · constructor
    · intro _ i h1 h2; exact hq i (Nat.zero_le i) h1 h2
    · intro _
      show (stepLoop cur.length (stepOf cur.length) _ fuel32 0 (0, 0) >>= _) = ok ()
      rw [e, ok_bind]
  · constructor
    · intro h
      obtain ⟨s', e, _⟩ := bind_ok h
      exact absurd e (hne s')
    · intro h; exact absurd (h j h1 h2) h3

theorem nodeSumPhase_iff {cur : List Nat} (hT : total cur cur.length < W64) (sum : Nat → Outcome Nat) :
    nodeSumPhase (arrayOf cur) sum = ok () ↔ ∀ i, i < cur.length → sum i = ok (total cur (i + 1)) := by
  have key : ∀ (m a : Nat), a + m = cur.length →
      ((∃ e', forFrom a m (fun i expected => do
        let got ← sum i
        let a ← (arrayOf cur).get i
        let expected := add64 expected a
        requireMsg (decide (got = expected))
        ok expected) (total cur a) = ok e') ↔
        ∀ i, a ≤ i → i < cur.length → sum i = ok (total cur (i + 1))) := by
    intro m
    induction m with
    | zero => intro a h; exact ⟨fun _ i h1 h2 => absurd h2 (by omega), fun _ => ⟨_, rfl⟩⟩
    | succ m ih =>
      intro a h
      have h4 := total_mono cur (a := a + 1) (b := cur.length) (by omega)
      have h3 := total_succ cur a
      constructor
      · rintro ⟨e', e⟩
        obtain ⟨t, e1, e2⟩ := forFrom_succ_ok e
        obtain ⟨g, eg, e1⟩ := bind_ok e1
        rw [get_arrayOf (by omega), ok_bind] at e1
        obtain ⟨⟨⟩, er, e1⟩ := bind_ok e1
        rw [requireMsg_iff, add64_ok (by omega), ← h3] at er
        rw [add64_ok (by omega), ← h3] at e1
        rw [← Outcome.ok.inj e1] at e2
        have := (ih (a + 1) (by omega)).1 ⟨e', e2⟩
        intro i h1 h2
        by_cases hi : i = a
        · subst hi; rw [eg, er]
        · exact this i (by omega) h2
      · intro hq
        obtain ⟨e', e⟩ := (ih (a + 1) (by omega)).2 fun i h1 h2 => hq i (by omega) h2
        refine ⟨e', ?_⟩
        show ((sum a >>= _) >>= _) = _
        rw [hq a (Nat.le_refl a) (by omega), ok_bind, get_arrayOf (by omega), ok_bind]
        simp only
        rw [add64_ok (by omega), ← h3, requireMsg_iff.2 rfl, ok_bind, ok_bind]
        exact e
  have h0 := key cur.length 0 (by omega)
  have ht0 : total cur 0 = 0 := by simp [total]
  rw [ht0] at h0
  unfold nodeSumPhase forN
  constructor
  · intro h
    obtain ⟨e', e, _⟩ := bind_ok h
    intro i hi
    exact h0.1 ⟨e', e⟩ i (Nat.zero_le i) hi
  · intro h
    obtain ⟨e', e⟩ := h0.2 fun i _ hi => h i hi
    show (forFrom 0 cur.length _ 0 >>= _) = _
    rw [e, ok_bind]

/-! ## Updates -/

/-- An object that holds an array of counters up to `M`. -/
structure Holds {σ : Type} (n M : Nat) (sum : σ → Nat → Outcome Nat)
    (update : σ → Nat → Bool → Outcome σ) (R : List Nat → σ → Prop) : Prop where
  len : ∀ {cur s}, R cur s → cur.length = n
  sum : ∀ {cur s i}, R cur s → i < n → sum s i = ok (total cur (i + 1))
  update : ∀ {cur s i sign}, R cur s → i < n → (sign = true → 1 ≤ arr cur i) →
    (sign = false → arr cur i + 1 ≤ M) → (∀ j, arr (Spec.bump cur i sign) j ≤ M) →
    ∃ s', update s i sign = ok s' ∧ R (Spec.bump cur i sign) s'

/-- How much an updated entry has grown after `r` updates in this phase. -/
def grown (sign : Bool) (r : Nat) : Nat := if sign then 100 - r else r

/-- The counters in run `r` at position `i`: every `step`-th entry is updated. -/
def Mid (vals : List Nat) (step : Nat) (sign : Bool) (r i : Nat) (cur : List Nat) : Prop :=
  cur.length = vals.length ∧ ∀ j, j < vals.length →
    arr cur j = arr vals j + if j % step = 0 then grown sign (if j < i then r + 1 else r) else 0

section
variable {σ : Type} {n M K : Nat} {sum : σ → Nat → Outcome Nat} {update : σ → Nat → Bool → Outcome σ}
  {R : List Nat → σ → Prop} {vals : List Nat} {step : Nat} {sign : Bool}

theorem Mid.le {r i : Nat} {cur : List Nat} (h : Mid vals step sign r i cur) (hr : r < 100)
    (hM : ∀ j, arr vals j + 100 ≤ M) (j : Nat) : arr cur j ≤ M := by
  have := hM j
  by_cases hj : j < vals.length
  · rw [h.2 j hj]
    unfold grown
    split <;> cases sign <;> simp <;> (try split) <;> omega
  · rw [arr_ge (by have := h.1; omega)]; omega

theorem Mid.next {r i : Nat} {cur : List Nat} (h : Mid vals step sign r i cur) (hr : r < 100)
    (hi : i < vals.length) (hm : i % step = 0) :
    Mid vals step sign r (i + step) (Spec.bump cur i sign) ∨ step = 0 := by
  by_cases h0 : step = 0
  · exact Or.inr h0
  refine Or.inl ⟨by rw [bump_length]; exact h.1, fun j hj => ?_⟩
  rw [arr_bump (by have := h.1; omega)]
  unfold updA
  by_cases hji : j = i
  · subst hji
    rw [if_pos rfl, if_pos hm, if_pos (show j < j + step by omega), h.2 j hj, if_pos hm,
      if_neg (Nat.lt_irrefl j)]
    unfold grown
    cases sign <;> simp <;> omega
  · rw [if_neg hji, h.2 j hj]
    by_cases hjm : j % step = 0
    · rw [if_pos hjm, if_pos hjm]
      by_cases hlt : j < i
      · rw [if_pos hlt, if_pos (show j < i + step by omega)]
      · rw [if_neg hlt, if_neg (fun hl => step_gap hm hjm (by omega) hl)]
    · rw [if_neg hjm, if_neg hjm]

/-- One update and the query that follows it. -/
theorem Holds.one (H : Holds n M sum update R) {r i : Nat} {cur : List Nat} {s : σ}
    (hR : R cur s) (h : Mid vals step sign r i cur) (hs : 0 < step) (hr : r < 100)
    (hi : i < vals.length) (hm : i % step = 0) (hM : ∀ j, arr vals j + 100 ≤ M) (hK : M + 1 < K) :
    ∃ s' cur', update s i sign = ok s' ∧ sum s' i = ok (total cur' (i + 1)) ∧
      (arrayOf cur).get i = ok (arr cur i) ∧
      (arrayOf cur).set i (addDelta K (arr cur i) sign) = ok (arrayOf cur') ∧ R cur' s' ∧
      Mid vals step sign r (i + step) cur' ∧ (∀ k, k ≤ i → total cur' k = total cur k) ∧
      cur'.length = cur.length := by
  have hlen := H.len hR
  have hl := h.1
  have hnext := (h.next hr hi hm).resolve_right (by omega)
  have hval := h.2 i hi
  rw [if_pos hm, if_neg (by omega)] at hval
  have hp : sign = true → 1 ≤ arr cur i := by
    rintro rfl; unfold grown at hval; simp only [if_true] at hval; omega
  have hq : sign = false → arr cur i + 1 ≤ M := by
    rintro rfl; unfold grown at hval; simp only [Bool.false_eq_true, if_false] at hval
    have := hM i; omega
  obtain ⟨s', e, hR'⟩ := H.update hR (i := i) (by omega) hp hq (hnext.le hr hM)
  refine ⟨s', Spec.bump cur i sign, e, H.sum hR' (by omega), get_arrayOf (by omega),
    set_arrayOf (by omega) hp ?_, hR', hnext, fun k hk => ?_, bump_length _ _ _⟩
  · have := h.le hr hM i; omega
  · rw [total_bump (by omega) hp]
    unfold bumpS
    rw [if_neg (by omega)]

/-- The state between two runs. -/
def Between (R : List Nat → σ → Prop) (vals : List Nat) (step : Nat) (sign : Bool) (r : Nat)
    (s : σ × Vec Nat) : Prop :=
  ∃ cur, s.2 = arrayOf cur ∧ R cur s.1 ∧ Mid vals step sign r 0 cur

theorem Mid.done {r i : Nat} {cur : List Nat} (h : Mid vals step sign r i cur) (hi : vals.length ≤ i) :
    Mid vals step sign (r + 1) 0 cur :=
  ⟨h.1, fun j hj => by rw [h.2 j hj, if_pos (show j < i by omega), if_neg (Nat.not_lt_zero j)]⟩

theorem treeUpdateRun_ok (H : Holds n M sum update R) {r : Nat} {s : σ × Vec Nat} (hl : vals.length = n)
    (hn : n < 2 ^ 31) (hnM : n * M < W64) (hr : r < 100) (hM : ∀ j, arr vals j + 100 ≤ M)
    (hK : M + 1 < 65536) (h : Between R vals (stepOf n) sign r s) :
    ∃ s', treeUpdateRun n sum update sign s = ok s' ∧ Between R vals (stepOf n) sign (r + 1) s' := by
  obtain ⟨cur, hs2, hR, hmid⟩ := h
  have hstep := stepOf_le n
  have hpos := stepOf_pos n
  unfold treeUpdateRun
  rcases stepLoop_iff (n := n) (step := stepOf n) hpos (by simp only [W32]; omega)
      (body := fun i (r : (σ × Vec Nat) × Nat × Nat) => do
        let s ← update r.1.1 i sign
        let got ← sum s i
        let a ← r.1.2.get i
        let A ← r.1.2.set i (addDelta 65536 a sign)
        let e ← accTo A ((i + 1) % W32) fuel32 r.2.1 r.2.2
        requireMsg (decide (got = e.2))
        ok ((s, A), e))
      (I := fun i q => ∃ cur, q.1.2 = arrayOf cur ∧ R cur q.1.1 ∧ Mid vals (stepOf n) sign r i cur ∧
        q.2.1 ≤ i ∧ q.2.2 = total cur q.2.1) (Q := fun _ => True)
      (by
        rintro i ⟨⟨t, A⟩, k, e⟩ hi hm ⟨cur, hA, hR, hmid, hk, he⟩
        obtain rfl : A = arrayOf cur := hA
        obtain rfl : e = total cur k := he
        obtain ⟨s', cur', e1, e2, e3, e4, hR', hmid', ht, hlen⟩ :=
          H.one hR hmid hpos hr (by omega) hm hM hK
        have hk : k ≤ i := hk
        refine Or.inl ⟨trivial, ((s', arrayOf cur'), (i + 1, total cur' (i + 1))), ?_, cur', rfl, hR',
          hmid', ?_, rfl⟩
        · have hb := total_bound (hmid'.le hr hM) cur'.length
          have hl' := H.len hR'
          have hacc := accTo_fuel (cur := cur') (i := i) (k := k) (by rw [hl'] at hb ⊢; omega)
            (by simp only [W32]; omega) (by omega) (by omega)
          rw [e1, ok_bind, e2, ok_bind, e3, ok_bind, e4, ok_bind, ← ht k hk, hacc, ok_bind,
            requireMsg_iff.2 rfl, ok_bind]
        · show i + 1 ≤ i + _
          omega)
      fuel32 0 (s, 0, 0) (Nat.zero_mod _) (by rw [fuel32_eq]; omega) (by rw [fuel32_eq]; omega)
      ⟨cur, hs2, hR, hmid, Nat.le_refl 0, by simp [total]⟩ with
    ⟨⟨⟨s', q⟩, i', e, hi', _, cur', h1, h2, h3, _⟩, _⟩ | ⟨_, j, _, _, _, hj⟩
  · refine ⟨s', ?_, cur', h1, h2, h3.done (by omega)⟩
    rw [e, ok_bind]
  · exact absurd trivial hj

theorem treeUpdatePhase_ok (H : Holds n M sum update R) {s : σ × Vec Nat} (hl : vals.length = n)
    (hn : n < 2 ^ 31) (hnM : n * M < W64) (hM : ∀ j, arr vals j + 100 ≤ M)
    (hK : M + 1 < 65536) (h : Between R vals (stepOf n) sign 0 s) :
    ∃ s', treeUpdatePhase n sum update sign s = ok s' ∧ Between R vals (stepOf n) sign 100 s' := by
  unfold treeUpdatePhase
  exact forN_inv (P := fun r s => Between R vals (stepOf n) sign r s) _ _ h
    (fun r s hr hb => treeUpdateRun_ok H hl hn hnM hr hM hK hb)

theorem nodeUpdateRun_ok (H : Holds n M sum update R) {r : Nat} {s : σ × Vec Nat} (hl : vals.length = n)
    (hnM : n * M < W64) (hr : r < 100) (hM : ∀ j, arr vals j + 100 ≤ M)
    (hK : M + 1 < K) (h : Between R vals 1 sign r s) :
    ∃ s', nodeUpdateRun K n sum update sign s = ok s' ∧ Between R vals 1 sign (r + 1) s' := by
  obtain ⟨cur, hs2, hR, hmid⟩ := h
  unfold nodeUpdateRun
  obtain ⟨⟨s', q⟩, e, cur', h1, h2, h3, _⟩ := forN_inv
    (P := fun i (q : (σ × Vec Nat) × Nat) => ∃ cur, q.1.2 = arrayOf cur ∧ R cur q.1.1 ∧
      Mid vals 1 sign r i cur ∧ q.2 = total cur i)
    (body := fun i (r : (σ × Vec Nat) × Nat) => do
      let s ← update r.1.1 i sign
      let got ← sum s i
      let a ← r.1.2.get i
      let A ← r.1.2.set i (addDelta K a sign)
      let a ← A.get i
      let expected := add64 r.2 a
      requireMsg (decide (got = expected))
      ok ((s, A), expected))
    n (s, 0) ⟨cur, hs2, hR, hmid, by simp [total]⟩
    (by
      rintro i ⟨⟨t, A⟩, e⟩ hi ⟨cur, hA, hR, hmid, he⟩
      obtain rfl : A = arrayOf cur := hA
      obtain rfl : e = total cur i := he
      obtain ⟨s', cur', e1, e2, e3, e4, hR', hmid', ht, hlen⟩ :=
        H.one hR hmid (Nat.one_pos) hr (by omega) (Nat.mod_one i) hM hK
      refine ⟨((s', arrayOf cur'), total cur' (i + 1)), ?_, cur', rfl, hR', hmid', rfl⟩
      have hb := total_bound (hmid'.le hr hM) cur'.length
      have hl' := H.len hR'
      have hs := total_succ cur' i
      have hmn := total_mono cur' (a := i + 1) (b := cur'.length) (by omega)
      rw [hl'] at hb
      simp only
      rw [e1, ok_bind, e2, ok_bind, e3, ok_bind, e4, ok_bind, get_arrayOf (by omega), ok_bind,
        ← ht i (Nat.le_refl i), add64_ok (by rw [hl'] at hmn; omega), ← hs, requireMsg_iff.2 rfl, ok_bind])
  refine ⟨s', ?_, cur', h1, h2, h3.done (by omega)⟩
  rw [e, ok_bind]

theorem nodeUpdatePhase_ok (H : Holds n M sum update R) {s : σ × Vec Nat} (hl : vals.length = n)
    (hnM : n * M < W64) (hM : ∀ j, arr vals j + 100 ≤ M)
    (hK : M + 1 < K) (h : Between R vals 1 sign 0 s) :
    ∃ s', nodeUpdatePhase K n sum update sign s = ok s' ∧ Between R vals 1 sign 100 s' := by
  unfold nodeUpdatePhase
  exact forN_inv (P := fun r s => Between R vals 1 sign r s) _ _ h
    (fun r s hr hb => nodeUpdateRun_ok H hl hnM hr hM hK hb)

theorem Between.start {s : σ} (h : R vals s) :
    Between R vals step false 0 (s, arrayOf vals) :=
  ⟨vals, rfl, h, rfl, fun j _ => by simp [grown]⟩

theorem Between.turn {s : σ × Vec Nat} (h : Between R vals step false 100 s) :
    Between R vals step true 0 s := by
  obtain ⟨cur, h1, h2, h3, h4⟩ := h
  exact ⟨cur, h1, h2, h3, fun j hj => by rw [h4 j hj]; simp [grown]⟩

/-- After both phases the object holds the array it was built from. -/
theorem Between.finish {s : σ × Vec Nat} (h : Between R vals step true 100 s) : R vals s.1 := by
  obtain ⟨cur, _, h2, h3, h4⟩ := h
  have : cur = vals := by
    apply List.ext_getElem h3
    intro j h5 h6
    have := h4 j h6
    rw [arr_lt h5, arr_lt h6] at this
    simpa [grown] using this
  rw [← this]; exact h2

end

end MRS.Test
