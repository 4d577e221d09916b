import Verif.Model.BenchStructs
import Verif.Proofs.Bench
import Verif.Proofs.History
import Verif.Proofs.TreeSpec

/-!
# Facts about the benchmarks of whole structures
-/

set_option autoImplicit false

namespace MRS.Bench
open Outcome Spec

/-- Query `j`. -/
def draw (seed : Word) (M j : Nat) : Nat := (smNth seed j).toNat % M

theorem map_range_shift {α : Type} (f : Nat → α) (m t : Nat) :
    (List.range (m + 1)).map (fun j => f (t + j)) =
      f t :: (List.range m).map fun j => f (t + 1 + j) := by
  rw [List.range_succ_eq_map, List.map_cons, List.map_map, Nat.add_zero]
  refine congrArg (List.cons _) (List.map_congr_left fun j _ => ?_)
  show f (t + (j + 1)) = _
  rw [show t + (j + 1) = t + 1 + j by omega]

theorem drawBelow_ok {M : Nat} (hM : 0 < M) (seed : Word) (m : Nat) : ∀ t,
    drawBelow M seed m t = ok ((List.range m).map fun j => draw seed M (t + j)) := by
  induction m with
  | zero => intro t; rfl
  | succ m ih =>
    intro t
    have e : mod64 (smNth seed t).toNat M = ok (draw seed M t) := by
      unfold mod64 draw; rw [if_neg (by omega)]
    have e2 := map_range_shift (draw seed M) m t
    rw [e2]
    unfold drawBelow
    rw [e, ok_bind, ih, ok_bind]

/-- No query can be drawn from an empty range. -/
theorem drawBelow_zero (seed : Word) (m t : Nat) : drawBelow 0 seed (m + 1) t = ub .divZero := rfl

theorem calls_ok {σ : Type} {f : Nat → σ → Outcome (Nat × σ)} {P : σ → Prop} {v : Nat}
    (h : ∀ k s, P s → ∃ s', f k s = ok (v, s') ∧ P s') (m : Nat) : ∀ k s, P s →
    ∃ s', calls f m k s = ok (List.replicate m v, s') ∧ P s' := by
  induction m with
  | zero => intro k s hs; exact ⟨s, rfl, hs⟩
  | succ m ih =>
    intro k s hs
    obtain ⟨s1, e1, h1⟩ := h k s hs
    obtain ⟨s2, e2, h2⟩ := ih (k + 1) s1 h1
    refine ⟨s2, ?_, h2⟩
    unfold calls
    rw [e1, ok_bind]
    show (calls f m (k + 1) s1 >>= fun rs => ok (v :: rs.1, rs.2)) = _
    rw [e2, ok_bind]
    rfl

theorem forty_ok {σ : Type} {f : Nat → σ → Outcome (Nat × σ)} {P : σ → Prop} {v : Nat}
    (h : ∀ k s, P s → ∃ s', f k s = ok (v, s') ∧ P s') {s : σ} (hs : P s) :
    ∃ s', forty f s = ok (List.replicate 40 v, s') ∧ P s' := calls_ok h 40 0 s hs

theorem forty_ub {σ : Type} {f : Nat → σ → Outcome (Nat × σ)} {s : σ} {e : Fault}
    (h : f 0 s = ub e) : forty f s = ub e := by
  have : ∀ m, calls f (m + 1) 0 s = ub e := fun m => by unfold calls; rw [h]; rfl
  exact this 39

/-- Queries of which some are undefined behaviour. -/
theorem runQueries_ub {α : Type} {f : Nat → α → Outcome Nat} {e : Fault} (qs : List α)
    (h : ∀ i, ∀ q ∈ qs, (∃ v, f i q = ok v) ∨ f i q = ub e) (hb : ∃ q ∈ qs, ∀ i, f i q = ub e) :
    ∀ i tmp, runQueries f qs i tmp = ub e := by
  induction qs with
  | nil => obtain ⟨q, hq, _⟩ := hb; cases hq
  | cons q qs ih =>
    intro i tmp
    unfold runQueries
    rcases h i q List.mem_cons_self with ⟨v, hv⟩ | hv
    · rw [hv, ok_bind]
      refine ih (fun i q hq => h i q (List.mem_cons_of_mem _ hq)) ?_ _ _
      obtain ⟨q', hq', hb'⟩ := hb
      rcases List.mem_cons.1 hq' with rfl | hq'
      · rw [hb' i] at hv; cases hv
      · exact ⟨q', hq', hb'⟩
    · rw [hv]; rfl

theorem forN_ub {σ : Type} {body : Nat → σ → Outcome σ} {n : Nat} {s : σ} {e : Fault}
    (h : body 0 s = ub e) : forN (n + 1) body s = ub e := by
  unfold forN forFrom
  rw [h]; rfl

theorem measure_ub {α : Type} {f : Nat → Nat → α → Outcome Nat} {e : Fault} {qs : List α}
    (h : ∀ i, ∀ q ∈ qs, (∃ v, f 0 i q = ok v) ∨ f 0 i q = ub e) (hb : ∃ q ∈ qs, ∀ i, f 0 i q = ub e) :
    measure f qs = ub e := by
  have e0 := runQueries_ub qs h hb 0 0
  exact forN_ub (body := fun run tmp => runQueries (f run) qs 0 tmp) (n := 99) e0

/-! ## Bitmaps -/

theorem flipAll_ok {c : Config} (qs : List Nat) : ∀ {bm : Bitmap} {B : List Bool}, Alive c bm B →
    (∀ q ∈ qs, q < B.length) → ∃ bm', flipAll c qs bm = ok bm' ∧ Alive c bm' (flips B qs) := by
  induction qs with
  | nil => intro bm B h _; exact ⟨bm, rfl, h⟩
  | cons q qs ih =>
    intro bm B h hq
    obtain ⟨bm1, e1, h1⟩ := h.flip (hq q List.mem_cons_self)
    obtain ⟨bm2, e2, h2⟩ := ih h1 fun r hr => by
      rw [flip_length]; exact hq r (List.mem_cons_of_mem _ hr)
    exact ⟨bm2, by unfold flipAll; rw [e1, ok_bind, e2], h2⟩

theorem flipLoop_ok {c : Config} {qs : List Nat} {B : List Bool} (hq : ∀ q ∈ qs, q < B.length)
    (h2 : flips (flips B qs) qs = B) {bm : Bitmap} (h : Alive c bm B) :
    ∃ bm', forN 100 (fun _ bm => flipAll c qs bm) bm = ok bm' ∧ Alive c bm' B := by
  obtain ⟨s, e, hs⟩ := forN_inv (body := fun _ bm => flipAll c qs bm)
    (fun r bm => Alive c bm (if r % 2 = 0 then B else flips B qs)) 100 bm
    (by rw [if_pos (by decide)]; exact h) (by
      intro i s _ hs
      by_cases hi : i % 2 = 0
      · rw [if_pos hi] at hs
        rw [if_neg (by omega)]
        exact flipAll_ok qs hs hq
      · rw [if_neg hi] at hs
        rw [if_pos (by omega)]
        obtain ⟨s', e', h'⟩ := flipAll_ok qs hs (by rw [flips_length]; exact hq)
        rw [h2] at h'
        exact ⟨s', e', h'⟩)
  rw [if_pos (by decide)] at hs
  exact ⟨s, e, hs⟩

/-! ## The report -/

theorem sizeAt_ok {sizes : List Nat} {I : Nat} (h : I < sizes.length) :
    sizeAt sizes I = ok (sizes.getD I 0) := by
  unfold sizeAt
  rw [if_pos ⟨by omega, by omega⟩]
  rfl

/-- Text of the times for the sizes run, separated and followed by commas. -/
theorem testRuns_ok {sizes : List Nat} {i : Int} {run : Nat → Outcome (List Char)}
    {tt : Nat → List Char} (hr : ∀ n ∈ sizes, run n = ok (tt n)) (m : Nat) : ∀ I json,
    I + m = sizes.length → testRuns sizes i run m I json =
      ok (json ++ ((List.range' I m).filter fun I : Nat => i = -1 ∨ i = (I : Int)).flatMap
        fun I => tt (sizes.getD I 0) ++ [',']) := by
  induction m with
  | zero => intro I json _; show ok json = _; rw [List.range'_zero, List.filter_nil, List.flatMap_nil, List.append_nil]
  | succ m ih =>
    intro I json hI
    have hlt : I < sizes.length := by omega
    unfold testRuns
    rw [List.range'_succ]
    by_cases h : i = -1 ∨ i = (I : Int)
    · have hmem : sizes.getD I 0 ∈ sizes := by
        rw [List.getD_eq_getElem?_getD, List.getElem?_eq_getElem hlt]; exact List.getElem_mem hlt
      rw [if_pos h, sizeAt_ok hlt, ok_bind, hr _ hmem, ok_bind, ih _ _ (by omega),
        List.filter_cons_of_pos (by exact decide_eq_true h), List.flatMap_cons]
      simp only [List.append_assoc]
    · rw [if_neg h, ih _ _ (by omega), List.filter_cons_of_neg (by simpa using h)]

end MRS.Bench
