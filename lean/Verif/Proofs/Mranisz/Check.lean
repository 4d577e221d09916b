import Verif.Model.Mranisz.Check
import Verif.Proofs.Mranisz.SelStd

/-!
# What the self-checks print
-/

set_option autoImplicit false

namespace MRS.Mran
open Outcome Spec

theorem forFrom_some {σ : Type} {body : Nat → σ → Outcome σ} (I : Nat → σ → Prop) (G : Fault → Prop) :
    ∀ n a s, I a s →
    (∀ k s, a ≤ k → k < a + n → I k s → (∃ s', body k s = ok s' ∧ I (k + 1) s') ∨
      ∃ f, body k s = ub f ∧ G f) →
    (∃ s', forFrom a n body s = ok s' ∧ I (a + n) s') ∨ ∃ f, forFrom a n body s = ub f ∧ G f := by
  intro n
  induction n with
  | zero => intro a s h _; exact Or.inl ⟨s, rfl, h⟩
  | succ n ih =>
    intro a s h hb
    unfold forFrom
    rcases hb a s (Nat.le_refl _) (by omega) h with ⟨s', e, h'⟩ | ⟨f, e, g⟩
    · rw [e, ok_bind]
      rcases ih (a + 1) s' h' (fun k s h1 h2 => hb k s (by omega) (by omega)) with ⟨s2, e2, h2⟩ | ⟨f, e2, g⟩
      · exact Or.inl ⟨s2, e2, by rw [show a + (n + 1) = a + 1 + n by omega]; exact h2⟩
      · exact Or.inr ⟨f, e2, g⟩
    · rw [e]; exact Or.inr ⟨f, rfl, g⟩

/-- What is reported for query `q` with expected answer `want`. -/
def report (query : Nat → Outcome Nat) (q want : Nat) : Option (Nat × Nat × Nat) :=
  match query q with
  | ok r => if want = r then none else some (q, want, r)
  | _ => none

/-- The reports for the bits before `n`; `Q p` is the query at bit `p` and its answer. -/
def reports (query : Nat → Outcome Nat) (Q : Nat → Option (Nat × Nat)) (n : Nat) : List (Nat × Nat × Nat) :=
  (List.range n).filterMap fun p => (Q p).bind fun a => report query a.1 a.2

theorem reports_succ (query : Nat → Outcome Nat) (Q : Nat → Option (Nat × Nat)) (n : Nat) :
    reports query Q (n + 1) = reports query Q n ++ ((Q n).bind fun a => report query a.1 a.2).toList := by
  unfold reports
  rw [List.range_succ, List.filterMap_append]
  cases h : ((Q n).bind fun a => report query a.1 a.2) <;> simp [h]

theorem compare_ok {query : Nat → Outcome Nat} {q want r : Nat} (h : query q = ok r) (s : Checked) :
    compare1 query q want s = ok ⟨s.cnt, s.out ++ (report query q want).toList⟩ := by
  unfold compare1 report
  rw [h, ok_bind]
  by_cases e : want = r
  · rw [if_neg (fun h => h e)]
    simp [e]
  · rw [if_pos e, ok_bind]
    simp [e]

theorem compare_ub {query : Nat → Outcome Nat} {q want : Nat} {f : Fault} (h : query q = ub f) (s : Checked) :
    compare1 query q want s = ub f := by
  unfold compare1
  rw [h]
  rfl

/-- The query at bit `p` in `testRank`. -/
def rankQ (t : Vec Byte) (p : Nat) : Option (Nat × Nat) := some (p + 1, T t (p + 1))

/-- The query at bit `p` in `testSelect`. -/
def selQ (t : Vec Byte) (p : Nat) : Option (Nat × Nat) := if tbit t p then some (T t (p + 1), p) else none

/-- After the bits before `p`. -/
def Done (t : Vec Byte) (query : Nat → Outcome Nat) (Q : Nat → Option (Nat × Nat)) (p : Nat) (s : Checked) : Prop :=
  s = ⟨T t p, reports query Q p⟩ ∧ ∀ k, k < p → ∀ a, Q k = some a → ∃ r, query a.1 = ok r

theorem tbit_at {t : Vec Byte} {i j : Nat} (hi : i < t.len) (hj : j < 8) :
    (((t.f i >>> (7 - j)) &&& 1#8) == 1#8) = tbit t (8 * i + j) := by
  have := bitAt_ok (t := t) (p := 8 * i + j) (by omega)
  unfold bitAt at this
  rw [show (8 * i + j) / 8 = i by omega, show (8 * i + j) % 8 = j by omega, Vec.get_ok hi, ok_bind] at this
  exact Outcome.ok.inj this

theorem done_next {t : Vec Byte} {query : Nat → Outcome Nat} {Q : Nat → Option (Nat × Nat)} {p : Nat} {q want : Nat}
    (hQ : Q p = some (q, want)) {s : Checked} (hd : Done t query Q p s)
    (hq : (∃ r, query q = ok r) ∨ ∃ f, query q = ub f) :
    (∃ s', compare1 query q want ⟨T t (p + 1), s.out⟩ = ok s' ∧ Done t query Q (p + 1) s') ∨
      ∃ f, compare1 query q want ⟨T t (p + 1), s.out⟩ = ub f ∧ query q = ub f := by
  rcases hq with ⟨r, h⟩ | ⟨f, h⟩
  · left
    refine ⟨_, compare_ok h _, ?_, fun k hk a ha => ?_⟩
    · rw [reports_succ, hQ, hd.1]; rfl
    · by_cases e : k = p
      · subst e
        rw [hQ] at ha
        injection ha with ha
        subst ha
        exact ⟨r, h⟩
      · exact hd.2 k (by omega) a ha
  · exact Or.inr ⟨f, compare_ub h _, h⟩

variable {W : Nat} {t : Vec Byte} {query : Nat → Outcome Nat}

theorem cnt_next {p : Nat} (hp : 8 * t.len < W) (h : p < 8 * t.len) (ht : tbit t p = true) : (T t p + 1) % W = T t (p + 1) := by
  have := T_le t (p + 1)
  rw [T_succ, ht] at *
  rw [Nat.mod_eq_of_lt] <;> simp at * <;> omega

theorem cnt_same {p : Nat} (ht : ¬ tbit t p = true) : T t p = T t (p + 1) := by
  rw [T_succ]
  cases h : tbit t p with
  | true => exact absurd h ht
  | false => rfl

theorem testRank_spec (hW : 8 * t.len < W)
    (hq : ∀ i, 1 ≤ i → i ≤ 8 * t.len → (∃ r, query i = ok r) ∨ ∃ f, query i = ub f) :
    (∃ s, testRank W query t = ok s ∧ Done t query (rankQ t) (8 * t.len) s) ∨
      ∃ f, testRank W query t = ub f ∧ ∃ i, 1 ≤ i ∧ i ≤ 8 * t.len ∧ query i = ub f := by
  unfold testRank
  have := forFrom_some (fun i s => Done t query (rankQ t) (8 * i) s)
    (fun f => ∃ i, 1 ≤ i ∧ i ≤ 8 * t.len ∧ query i = ub f) t.len 0 ⟨0, []⟩
    (body := fun i s => do
    let bits ← t.get i
    forN 8 (fun j s => do
      let s := if ((bits >>> (7 - j)) &&& 1#8) == 1#8 then ⟨(s.cnt + 1) % W, s.out⟩ else s
      compare1 query ((8 * i + j + 1) % W) s.cnt s) s)
    ⟨by rw [Nat.mul_zero, T_zero]; rfl, fun k hk => by omega⟩ (fun i s _ hi hd => ?_)
  · rw [Nat.zero_add] at this
    exact this
  · rw [Nat.zero_add] at hi
    rw [Vec.get_ok hi, ok_bind]
    have inner := forFrom_some (fun j s => Done t query (rankQ t) (8 * i + j) s)
      (fun f => ∃ i, 1 ≤ i ∧ i ≤ 8 * t.len ∧ query i = ub f) 8 0 s
      (body := fun j s => do
      let s := if ((t.f i >>> (7 - j)) &&& 1#8) == 1#8 then ⟨(s.cnt + 1) % W, s.out⟩ else s
      compare1 query ((8 * i + j + 1) % W) s.cnt s) hd (fun j s _ hj hd => ?_)
    · exact inner
    · have hs : (if ((t.f i >>> (7 - j)) &&& 1#8) == 1#8 then ⟨(s.cnt + 1) % W, s.out⟩ else s : Checked) =
          ⟨T t (8 * i + j + 1), s.out⟩ := by
        rw [tbit_at hi (by omega)]
        by_cases hb : tbit t (8 * i + j) = true
        · rw [if_pos hb, hd.1, cnt_next hW (by omega) hb]
        · rw [if_neg hb, hd.1, ← cnt_same hb]
      rw [hs, Nat.mod_eq_of_lt (by omega)]
      rcases done_next (Q := rankQ t) rfl hd (hq _ (by omega) (by omega)) with h | ⟨f, h1, h2⟩
      · exact Or.inl h
      · exact Or.inr ⟨f, h1, _, by omega, by omega, h2⟩

theorem testSelect_spec (hW : 8 * t.len < W)
    (hq : ∀ i, 1 ≤ i → i ≤ T t (8 * t.len) → (∃ r, query i = ok r) ∨ ∃ f, query i = ub f) :
    (∃ s, testSelect W query t = ok s ∧ Done t query (selQ t) (8 * t.len) s) ∨
      ∃ f, testSelect W query t = ub f ∧ ∃ i, 1 ≤ i ∧ i ≤ T t (8 * t.len) ∧ query i = ub f := by
  unfold testSelect
  have := forFrom_some (fun i s => Done t query (selQ t) (8 * i) s)
    (fun f => ∃ i, 1 ≤ i ∧ i ≤ T t (8 * t.len) ∧ query i = ub f) t.len 0 ⟨0, []⟩
    (body := fun i s =>
    forN 8 (fun j s => do
      let c ← t.get i
      if ((c >>> (7 - j)) &&& 1#8) == 1#8 then do
        let s : Checked := ⟨(s.cnt + 1) % W, s.out⟩
        compare1 query s.cnt ((8 * i + j) % W) s
      else ok s) s)
    ⟨by rw [Nat.mul_zero, T_zero]; rfl, fun k hk => by omega⟩ (fun i s _ hi hd => ?_)
  · rw [Nat.zero_add] at this
    exact this
  · rw [Nat.zero_add] at hi
    have inner := forFrom_some (fun j s => Done t query (selQ t) (8 * i + j) s)
      (fun f => ∃ i, 1 ≤ i ∧ i ≤ T t (8 * t.len) ∧ query i = ub f) 8 0 s
      (body := fun j s => do
      let c ← t.get i
      if ((c >>> (7 - j)) &&& 1#8) == 1#8 then do
        let s : Checked := ⟨(s.cnt + 1) % W, s.out⟩
        compare1 query s.cnt ((8 * i + j) % W) s
      else ok s) hd (fun j s _ hj hd => ?_)
    · exact inner
    · rw [Vec.get_ok hi, ok_bind, tbit_at hi (by omega)]
      by_cases hb : tbit t (8 * i + j) = true
      · rw [if_pos hb]
        have hc : (s.cnt + 1) % W = T t (8 * i + j + 1) := by
          rw [hd.1]; exact cnt_next hW (by omega) hb
        have hpos : 1 ≤ T t (8 * i + j + 1) := by rw [T_succ, hb]; exact Nat.le_add_left 1 _
        show (∃ s', compare1 query ((s.cnt + 1) % W) ((8 * i + j) % W) ⟨(s.cnt + 1) % W, s.out⟩ = ok s' ∧ _) ∨
          ∃ f, compare1 query ((s.cnt + 1) % W) ((8 * i + j) % W) ⟨(s.cnt + 1) % W, s.out⟩ = ub f ∧ _
        rw [hc, Nat.mod_eq_of_lt (show 8 * i + j < W by omega)]
        have hle := T_mono t (show 8 * i + j + 1 ≤ 8 * t.len by omega)
        rcases done_next (Q := selQ t) (if_pos hb) hd (hq _ hpos hle) with h | ⟨f, h1, h2⟩
        · exact Or.inl h
        · exact Or.inr ⟨f, h1, _, hpos, hle, h2⟩
      · rw [if_neg hb]
        refine Or.inl ⟨s, rfl, ?_, fun k hk a ha => ?_⟩
        · have e : selQ t (8 * i + j) = none := if_neg hb
          show s = ⟨T t (8 * i + j + 1), reports query (selQ t) (8 * i + j + 1)⟩
          rw [reports_succ, e, ← cnt_same hb, hd.1]
          simp
        · by_cases e : k = 8 * i + j
          · subst e
            rw [show selQ t (8 * i + j) = none from if_neg hb] at ha
            cases ha
          · exact hd.2 k (by omega) a ha

end MRS.Mran
