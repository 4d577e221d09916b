import Verif.Proofs.Mranisz.Check
import Verif.Props.Mranisz
import Verif.Props.MraniszSelect

/-!
# C102: the self-checks `testRank` and `testSelect`

First what they print for any queries whatsoever, then what they print for objects built from the text.
-/

set_option autoImplicit false
set_option maxRecDepth 8192

namespace MRS.Props
open MRS.Mran Outcome Spec

variable {X : List (BitVec 8)} {W : Nat} {query : Nat → Outcome Nat}

/-- A query that is answered or undefined; it does not end the program. -/
def Returns (query : Nat → Outcome Nat) (i : Nat) : Prop := (∃ r, query i = ok r) ∨ ∃ f, query i = ub f

/-- The wrong answers to `rank(1)` to `rank(n)` in this order: query, right answer, answer. -/
def wrongRanks (B : List Bool) (query : Nat → Outcome Nat) (n : Nat) : List (Nat × Nat × Nat) :=
  (List.range n).filterMap fun p => match query (p + 1) with
    | ok r => if ones B (p + 1) = r then none else some (p + 1, ones B (p + 1), r)
    | _ => none

/-- The wrong answers to `select` of the ones before position `n`, in this order: query, right answer, answer. -/
def wrongSelects (B : List Bool) (query : Nat → Outcome Nat) (n : Nat) : List (Nat × Nat × Nat) :=
  (List.range n).filterMap fun p => if B[p]? = some true then
    match query (ones B p + 1) with
    | ok r => if p = r then none else some (ones B p + 1, p, r)
    | _ => none
    else none

theorem done_ranks {s : Checked} (h : Done (textOf X) query (rankQ (textOf X)) (8 * X.length) s) :
    s.out = wrongRanks (Text.bits X) query (8 * X.length) := by
  rw [h.1]
  show reports _ _ _ = _
  unfold reports wrongRanks
  refine congrArg (fun f => List.filterMap f _) (funext fun p => ?_)
  show report query (p + 1) (T (textOf X) (p + 1)) = _
  rw [← ones_T]
  rfl

theorem filterMap_eq {α β : Type} {f g : α → Option β} : ∀ {l : List α}, (∀ a ∈ l, f a = g a) → l.filterMap f = l.filterMap g
  | [], _ => rfl
  | a :: l, h => by
    rw [List.filterMap_cons, List.filterMap_cons, h a (List.mem_cons_self ..),
      filterMap_eq fun b hb => h b (List.mem_cons_of_mem _ hb)]

theorem done_selects {s : Checked} (h : Done (textOf X) query (selQ (textOf X)) (8 * X.length) s) :
    s.out = wrongSelects (Text.bits X) query (8 * X.length) := by
  rw [h.1]
  show reports _ _ _ = _
  unfold reports wrongSelects
  refine filterMap_eq fun p hp => ?_
  rw [List.mem_range] at hp
  rw [bits_get X p hp]
  unfold selQ
  by_cases hb : tbit (textOf X) p = true
  · rw [if_pos hb, if_pos (by rw [hb])]
    show report query (T (textOf X) (p + 1)) p = _
    rw [T_succ, hb, ones_T]
    rfl
  · rw [if_neg hb, if_neg (fun h => hb (Option.some.inj h))]
    rfl

/-! ## Any queries -/

/-- `testRank` prints the wrong answers among `rank(1)` to `rank(8 * textLen)`, and nothing else; it is undefined
just when one of these queries is. -/
theorem C102_rank_prints (hW : 8 * X.length < W) (hq : ∀ i, 1 ≤ i → i ≤ 8 * X.length → Returns query i) :
    ((∀ i, 1 ≤ i → i ≤ 8 * X.length → ∃ r, query i = ok r) →
      ∃ s, testRank W query (textOf X) = ok s ∧ s.out = wrongRanks (Text.bits X) query (8 * X.length)) ∧
    ((∃ i f, 1 ≤ i ∧ i ≤ 8 * X.length ∧ query i = ub f) → ∃ f, testRank W query (textOf X) = ub f) := by
  rcases testRank_spec (t := textOf X) hW hq with ⟨s, e, hd⟩ | ⟨f, e, i, h1, h2, hf⟩
  · refine ⟨fun _ => ⟨s, e, done_ranks hd⟩, ?_⟩
    rintro ⟨i, f, h1, h2, hf⟩
    obtain ⟨r, hr⟩ := hd.2 (i - 1) (by show i - 1 < 8 * X.length; omega) _ rfl
    rw [show i - 1 + 1 = i by omega, hf] at hr
    cases hr
  · refine ⟨fun h => ?_, fun _ => ⟨f, e⟩⟩
    obtain ⟨r, hr⟩ := h i h1 h2
    rw [hf] at hr
    cases hr

theorem wrongRanks_nil {B : List Bool} {n : Nat} (h : ∀ i, 1 ≤ i → i ≤ n → ∃ r, query i = ok r) :
    wrongRanks B query n = [] ↔ ∀ i, 1 ≤ i → i ≤ n → query i = ok (ones B i) := by
  unfold wrongRanks
  rw [List.filterMap_eq_nil_iff]
  constructor
  · intro hn i h1 h2
    obtain ⟨r, hr⟩ := h i h1 h2
    have := hn (i - 1) (List.mem_range.2 (by omega))
    rw [show i - 1 + 1 = i by omega, hr] at this
    by_cases e : ones B i = r
    · rw [hr, e]
    · exact absurd ((if_neg e).symm.trans this) (by simp)
  · intro hn p hp
    rw [List.mem_range] at hp
    rw [hn (p + 1) (by omega) (by omega)]
    exact if_pos rfl

/-- `testRank` ends and prints nothing just when all these answers are right. -/
theorem C102_rank_silent (hW : 8 * X.length < W) (hq : ∀ i, 1 ≤ i → i ≤ 8 * X.length → Returns query i) :
    (∃ s, testRank W query (textOf X) = ok s ∧ s.out = []) ↔
      ∀ i, 1 ≤ i → i ≤ 8 * X.length → query i = ok (ones (Text.bits X) i) := by
  have h := C102_rank_prints hW hq
  constructor
  · rintro ⟨s, e, h0⟩
    have hall : ∀ i, 1 ≤ i → i ≤ 8 * X.length → ∃ r, query i = ok r := fun i h1 h2 => by
      rcases hq i h1 h2 with h3 | ⟨f, hf⟩
      · exact h3
      · obtain ⟨g, hg⟩ := h.2 ⟨i, f, h1, h2, hf⟩
        rw [e] at hg
        cases hg
    obtain ⟨s', e', hs'⟩ := h.1 hall
    rw [e] at e'
    injection e' with e'
    subst e'
    rw [h0] at hs'
    exact (wrongRanks_nil hall).1 hs'.symm
  · intro hr
    have hall : ∀ i, 1 ≤ i → i ≤ 8 * X.length → ∃ r, query i = ok r := fun i h1 h2 => ⟨_, hr i h1 h2⟩
    obtain ⟨s, e, hs⟩ := h.1 hall
    exact ⟨s, e, by rw [hs]; exact (wrongRanks_nil hall).2 hr⟩

/-- A query that counts one too many from position 5 on: the last four answers are printed. -/
example : ∃ s, testRank (2 ^ 32) (fun i => ok (ones (Text.bits [0x35#8]) i + if 5 ≤ i then 1 else 0))
    (textOf [0x35#8]) = ok s ∧ s.out = [(5, 2, 3), (6, 3, 4), (7, 3, 4), (8, 4, 5)] := by
  obtain ⟨s, e, h⟩ := (C102_rank_prints (X := [0x35#8]) (W := 2 ^ 32)
    (query := fun i => ok (ones (Text.bits [0x35#8]) i + if 5 ≤ i then 1 else 0)) (by decide)
    (fun i _ _ => Or.inl ⟨_, rfl⟩)).1 (fun i _ _ => ⟨_, rfl⟩)
  exact ⟨s, e, by rw [h]; decide +kernel⟩

/-- `testSelect` prints the wrong answers among `select(1)` to `select` of the last one, and nothing else; it is
undefined just when one of these queries is. -/
theorem C102_select_prints (hW : 8 * X.length < W)
    (hq : ∀ i, 1 ≤ i → i ≤ (Text.bits X).count true → Returns query i) :
    ((∀ i, 1 ≤ i → i ≤ (Text.bits X).count true → ∃ r, query i = ok r) →
      ∃ s, testSelect W query (textOf X) = ok s ∧ s.out = wrongSelects (Text.bits X) query (8 * X.length)) ∧
    ((∃ i f, 1 ≤ i ∧ i ≤ (Text.bits X).count true ∧ query i = ub f) → ∃ f, testSelect W query (textOf X) = ub f) := by
  rw [← tot_count] at *
  rcases testSelect_spec (t := textOf X) hW hq with ⟨s, e, hd⟩ | ⟨f, e, i, h1, h2, hf⟩
  · refine ⟨fun _ => ⟨s, e, done_selects hd⟩, ?_⟩
    rintro ⟨i, f, h1, h2, hf⟩
    obtain ⟨a, b, c⟩ := sel_spec h1 h2
    obtain ⟨r, hr⟩ := hd.2 (sel (textOf X) i) a (i, sel (textOf X) i) (by
      unfold selQ
      rw [if_pos b, T_succ, b]
      exact congrArg (fun k => some (k, _)) c)
    rw [hf] at hr
    cases hr
  · refine ⟨fun h => ?_, fun _ => ⟨f, e⟩⟩
    obtain ⟨r, hr⟩ := h i h1 h2
    rw [hf] at hr
    cases hr

theorem wrongSelects_nil (h : ∀ i, 1 ≤ i → i ≤ (Text.bits X).count true → ∃ r, query i = ok r) :
    wrongSelects (Text.bits X) query (8 * X.length) = [] ↔
      ∀ i, 1 ≤ i → i ≤ (Text.bits X).count true → ∃ p, query i = ok p ∧ IsSelect (Text.bits X) (i - 1) p := by
  unfold wrongSelects
  rw [List.filterMap_eq_nil_iff]
  constructor
  · intro hn i h1 h2
    obtain ⟨r, hr⟩ := h i h1 h2
    refine ⟨r, hr, ?_⟩
    rw [← tot_count] at h2
    have hs := (isSelect_sel X h1 h2).2 rfl
    have hlt := (sel_spec h1 h2).1
    have := hn (sel (textOf X) i) (List.mem_range.2 hlt)
    rw [if_pos hs.1, hs.2, show i - 1 + 1 = i by omega, hr] at this
    by_cases e : sel (textOf X) i = r
    · rw [← e]; exact hs
    · exact absurd ((if_neg e).symm.trans this) (by simp)
  · intro hn p hp
    by_cases hb : (Text.bits X)[p]? = some true
    · rw [if_pos hb]
      have hs : IsSelect (Text.bits X) (ones (Text.bits X) p + 1 - 1) p := ⟨hb, rfl⟩
      have hle : ones (Text.bits X) p + 1 ≤ (Text.bits X).count true := by
        obtain ⟨a, b, c⟩ := (isSelect_iff X).1 hs
        rw [← tot_count]
        have := T_mono (textOf X) (show p + 1 ≤ 8 * (textOf X).len from a)
        rw [T_succ, b, c] at this
        exact this
      obtain ⟨r, hr, hs'⟩ := hn _ (by omega) hle
      rw [hr]
      refine if_pos ?_
      rw [isSelect_sel X (by omega) (by rw [tot_count]; exact hle)] at hs hs'
      rw [hs, hs']
    · exact if_neg hb

/-- `testSelect` ends and prints nothing just when the answers for all ones are right. -/
theorem C102_select_silent (hW : 8 * X.length < W)
    (hq : ∀ i, 1 ≤ i → i ≤ (Text.bits X).count true → Returns query i) :
    (∃ s, testSelect W query (textOf X) = ok s ∧ s.out = []) ↔
      ∀ i, 1 ≤ i → i ≤ (Text.bits X).count true → ∃ p, query i = ok p ∧ IsSelect (Text.bits X) (i - 1) p := by
  have h := C102_select_prints hW hq
  constructor
  · rintro ⟨s, e, h0⟩
    have hall : ∀ i, 1 ≤ i → i ≤ (Text.bits X).count true → ∃ r, query i = ok r := fun i h1 h2 => by
      rcases hq i h1 h2 with h3 | ⟨f, hf⟩
      · exact h3
      · obtain ⟨g, hg⟩ := h.2 ⟨i, f, h1, h2, hf⟩
        rw [e] at hg
        cases hg
    obtain ⟨s', e', hs'⟩ := h.1 hall
    rw [e] at e'
    injection e' with e'
    subst e'
    rw [h0] at hs'
    exact (wrongSelects_nil hall).1 hs'.symm
  · intro hr
    have hall : ∀ i, 1 ≤ i → i ≤ (Text.bits X).count true → ∃ r, query i = ok r := fun i h1 h2 => by
      obtain ⟨p, hp, -⟩ := hr i h1 h2
      exact ⟨p, hp⟩
    obtain ⟨s, e, hs⟩ := h.1 hall
    exact ⟨s, e, by rw [hs]; exact (wrongSelects_nil hall).2 hr⟩

example : ∃ s, testSelect (2 ^ 64) (fun i => ok (2 * i)) (textOf [0x2A#8, 0x01#8]) = ok s ∧ s.out = [(4, 15, 8)] := by
  have hc : (Text.bits [0x2A#8, 0x01#8]).count true = 4 := by decide +kernel
  obtain ⟨s, e, h⟩ := (C102_select_prints (X := [0x2A#8, 0x01#8]) (W := 2 ^ 64) (query := fun i => ok (2 * i)) (by decide)
    (fun i _ _ => Or.inl ⟨_, rfl⟩)).1 (fun i _ _ => ⟨_, rfl⟩)
  exact ⟨s, e, by rw [h]; decide +kernel⟩

/-! ## Objects that were built from the text -/

theorem whole_blocks (h64 : X.length % 64 = 0) : 8 * X.length = 512 * Text.blocks X := by
  unfold Text.blocks; omega

theorem short_blocks (h64 : X.length % 64 ≠ 0) : 8 * X.length < 512 * Text.blocks X := by
  unfold Text.blocks; omega

/-- The check of an object whose answers are right except perhaps at the end of a text of whole blocks. -/
theorem check_blocks (hW : 8 * X.length < W) (h0 : X ≠ [])
    (hr : ∀ i, i < 512 * Text.blocks X → query i = ok (ones (Text.bits X) i)) :
    (X.length % 64 ≠ 0 → ∃ s, testRank W query (textOf X) = ok s ∧ s.out = []) ∧
    (X.length % 64 = 0 → query (8 * X.length) = ok ((Text.bits X).count true) →
      ∃ s, testRank W query (textOf X) = ok s ∧ s.out = []) ∧
    (X.length % 64 = 0 → (∃ f, query (8 * X.length) = ub f) → ∃ f, testRank W query (textOf X) = ub f) := by
  have hpos : 0 < X.length := List.length_pos_iff.2 h0
  refine ⟨fun h64 => ?_, fun h64 he => ?_, fun h64 ⟨f, he⟩ => ?_⟩
  · have hb := short_blocks h64
    have : ∀ i, 1 ≤ i → i ≤ 8 * X.length → query i = ok (ones (Text.bits X) i) := fun i _ h => hr i (by omega)
    exact (C102_rank_silent hW fun i h1 h2 => Or.inl ⟨_, this i h1 h2⟩).2 this
  · have hb := whole_blocks h64
    have : ∀ i, 1 ≤ i → i ≤ 8 * X.length → query i = ok (ones (Text.bits X) i) := fun i _ h => by
      by_cases e : i = 8 * X.length
      · rw [e, he]
        unfold ones
        rw [List.take_of_length_le (by rw [bits_length]; exact Nat.le_refl _)]
      · exact hr i (by omega)
    exact (C102_rank_silent hW fun i h1 h2 => Or.inl ⟨_, this i h1 h2⟩).2 this
  · have hb := whole_blocks h64
    refine (C102_rank_prints hW fun i h1 h2 => ?_).2 ⟨_, f, by omega, Nat.le_refl _, he⟩
    by_cases e : i = 8 * X.length
    · rw [e]; exact Or.inr ⟨f, he⟩
    · exact Or.inl ⟨_, hr i (by omega)⟩

/-- C102 for the standard rank: silent for texts that end inside a block.  Missing: texts of whole blocks, for which the
self-check itself is undefined (it makes the query of `C66_basic_end`). -/
theorem C102_rank_std_partial (h0 : X ≠ []) (hlen : X.length < 2 ^ 60) (aB aR : Nat) :
    ∃ x, buildStd aB aR (textOf X) = ok x ∧
      (X.length % 64 ≠ 0 → ∃ s, testRank (2 ^ 64) (rankStd x) (textOf X) = ok s ∧ s.out = []) ∧
      (X.length % 64 = 0 → ∃ f, testRank (2 ^ 64) (rankStd x) (textOf X) = ub f) := by
  obtain ⟨x, e, hr⟩ := C66_basic_rank_partial hlen aB aR
  obtain ⟨h1, -, h3⟩ := check_blocks (W := 2 ^ 64) (by omega) h0 hr
  refine ⟨x, e, h1, fun h64 => h3 h64 ?_⟩
  obtain ⟨x', e', hf⟩ := C66_basic_end h64 aB aR
  rw [e] at e'
  injection e' with e'
  subst e'
  exact hf

example : ∃ x, buildStd 64 64 (textOf sampleText) = ok x ∧
    ∃ s, testRank (2 ^ 64) (rankStd x) (textOf sampleText) = ok s ∧ s.out = [] := by
  obtain ⟨x, e, h, -⟩ := C102_rank_std_partial (X := sampleText) (by decide) (by decide) 64 64
  exact ⟨x, e, h (by decide)⟩

/-- With compressed headers: silent also for those texts of whole blocks whose end is answered (`C67_bch_end`),
undefined for the others. -/
theorem C102_rank_bch_partial (h0 : X ≠ []) (hlen : X.length < 2 ^ 60) (aB aR : Nat) (g : Nat → Bool) :
    ∃ x, buildBch (some g) aB aR (textOf X) = ok x ∧
      (X.length % 64 ≠ 0 ∨ Text.blocks X % 64 = 0 ∨ Text.blocks X % 64 ≠ 63 ∧ (Text.bits X).count true % 512 = 0 →
        ∃ s, testRank (2 ^ 64) (rankBch x) (textOf X) = ok s ∧ s.out = []) ∧
      (¬ (X.length % 64 ≠ 0 ∨ Text.blocks X % 64 = 0 ∨ Text.blocks X % 64 ≠ 63 ∧ (Text.bits X).count true % 512 = 0) →
        ∃ f, testRank (2 ^ 64) (rankBch x) (textOf X) = ub f) := by
  obtain ⟨x, e, hr⟩ := C67_bch_rank_partial hlen aB aR g
  obtain ⟨x', e', he, hf⟩ := C67_bch_end hlen aB aR g
  rw [e] at e'
  injection e' with e'
  subst e'
  obtain ⟨h1, h2, h3⟩ := check_blocks (W := 2 ^ 64) (by omega) h0 hr
  refine ⟨x, e, fun h => ?_, fun h => ?_⟩
  · by_cases h64 : X.length % 64 = 0
    · refine h2 h64 ?_
      rw [whole_blocks h64]
      exact he (h.resolve_left fun h => h h64)
    · exact h1 h64
  · by_cases h64 : X.length % 64 = 0
    · refine h3 h64 ?_
      rw [whole_blocks h64]
      exact hf fun h' => h (Or.inr h')
    · exact absurd (Or.inl h64) h

example (g : Nat → Bool) : ∃ x, buildBch (some g) 64 64 (textOf (List.replicate 64 0x55#8)) = ok x ∧
    ∃ f, testRank (2 ^ 64) (rankBch x) (textOf (List.replicate 64 0x55#8)) = ub f := by
  obtain ⟨x, e, -, h⟩ := C102_rank_bch_partial (X := List.replicate 64 0x55#8) (by decide) (by decide) 64 64 g
  exact ⟨x, e, h (by decide +kernel)⟩

/-- `RankCF64`, for texts it can be built from: as the standard rank. -/
theorem C102_rank_cf_partial (h0 : X ≠ []) (hlen : X.length < 2 ^ 60) (aB : Nat)
    (h : ∃ q, q < Text.blocks X ∧ ¬ Text.Homog X q) :
    ∃ x, buildCF aB (textOf X) = ok x ∧
      (X.length % 64 ≠ 0 → ∃ s, testRank (2 ^ 64) (rankCF x) (textOf X) = ok s ∧ s.out = []) ∧
      (X.length % 64 = 0 → ∃ f, testRank (2 ^ 64) (rankCF x) (textOf X) = ub f) := by
  obtain ⟨x, e, hr⟩ := C68_cf_rank_partial hlen aB (Or.inr h)
  obtain ⟨h1, -, h3⟩ := check_blocks (W := 2 ^ 64) (by omega) h0 hr
  refine ⟨x, e, h1, fun h64 => h3 h64 ?_⟩
  obtain ⟨x', e', hf⟩ := C68_cf_beyond hlen aB (Or.inr h)
  rw [e] at e'
  injection e' with e'
  subst e'
  exact hf _ (by rw [whole_blocks h64]; exact Nat.le_refl _)

example : ∃ x, buildCF 64 (textOf sampleText) = ok x ∧
    ∃ s, testRank (2 ^ 64) (rankCF x) (textOf sampleText) = ok s ∧ s.out = [] := by
  obtain ⟨x, e, h, -⟩ := C102_rank_cf_partial (X := sampleText) (by decide) (by decide) 64 ⟨2, by decide, by decide +kernel⟩
  exact ⟨x, e, h (by decide)⟩

/-- So the full claim is false: a correctly built object whose self-check is undefined. -/
theorem C102_rank_false : ¬ ∀ (X : List (BitVec 8)) (aB aR : Nat), X.length < 2 ^ 60 → ∀ x,
    buildStd aB aR (textOf X) = ok x → ∃ s, testRank (2 ^ 64) (rankStd x) (textOf X) = ok s ∧ s.out = [] := by
  intro h
  obtain ⟨x, e, -, hf⟩ := C102_rank_std_partial (X := List.replicate 64 0x55#8) (by decide) (by decide) 64 64
  obtain ⟨f, hf⟩ := hf (by decide)
  obtain ⟨s, hs, -⟩ := h _ 64 64 (by decide) x e
  rw [hf] at hs
  cases hs

/-- Standard select: silent, unless the last group of ones is wide; then the check reports it, or is undefined. -/
theorem C102_select_std_partial {L TH : Nat} (hL : 1 ≤ L) (hlen : X.length < 2 ^ 57) (aS aB : Nat)
    (h1 : 1 ≤ (Text.bits X).count true) (ho : ¬ Overflow X L TH aB) :
    ∃ x, buildSel L TH aS aB (textOf X) = ok x ∧
      (¬ Text.LastWide (Text.bits X) L →
        ∃ s, testSelect (2 ^ 64) (selectStd false L TH x) (textOf X) = ok s ∧ s.out = []) ∧
      (Text.LastWide (Text.bits X) L →
        ∃ s, testSelect (2 ^ 64) (selectStd false L TH x) (textOf X) = ok s ∧ s.out ≠ []) := by
  obtain ⟨x, e, hs⟩ := C70_std_select_partial (TH := TH) hL hlen aS aB h1 ho
  refine ⟨x, e, fun hw => ?_, fun hw => ?_⟩
  · have : ∀ i, 1 ≤ i → i ≤ (Text.bits X).count true →
        ∃ p, selectStd false L TH x i = ok p ∧ IsSelect (Text.bits X) (i - 1) p := fun i h2 h3 => hs i h2 h3 fun h => hw h.1
    exact (C102_select_silent (by omega) fun i h2 h3 => by
      obtain ⟨p, hp, -⟩ := this i h2 h3
      exact Or.inl ⟨p, hp⟩).2 this
  · obtain ⟨x', a, e', -, hl, p, hp, hn⟩ := C70_std_last_wrong (TH := TH) hL hlen aS aB h1 ho hw false
    rw [e] at e'
    injection e' with e'
    subst e'
    have hall : ∀ i, 1 ≤ i → i ≤ (Text.bits X).count true → ∃ r, selectStd false L TH x i = ok r := fun i h2 h3 => by
      by_cases hb : (Text.bits X).count true / L * L < i
      · exact ⟨_, hl i hb h3⟩
      · obtain ⟨p, hp, -⟩ := hs i h2 h3 fun h => hb h.2
        exact ⟨p, hp⟩
    obtain ⟨s, es, hs'⟩ := (C102_select_prints (W := 2 ^ 64) (by omega) fun i h2 h3 => Or.inl (hall i h2 h3)).1 hall
    refine ⟨s, es, fun h0 => ?_⟩
    rw [h0] at hs'
    obtain ⟨p', hp', hs2⟩ := (wrongSelects_nil hall).1 hs'.symm _ h1 (Nat.le_refl _)
    rw [hp] at hp'
    injection hp' with hp'
    subst hp'
    exact hn hs2

/-- One one at the end of 128 bits, with groups of 128 ones: reported. -/
example : ∃ x, buildSel 128 4096 64 64 (textOf (List.replicate 15 0#8 ++ [1#8])) = ok x ∧
    ∃ s, testSelect (2 ^ 64) (selectStd false 128 4096 x) (textOf (List.replicate 15 0#8 ++ [1#8])) = ok s ∧ s.out ≠ [] := by
  have hc : (Text.bits (List.replicate 15 0#8 ++ [1#8])).count true = 1 := by decide +kernel
  obtain ⟨x, e, -, h⟩ := C102_select_std_partial (X := List.replicate 15 0#8 ++ [1#8]) (L := 128) (TH := 4096)
    (by decide) (by decide) 64 64 (by rw [hc]; decide) (by unfold Overflow Text.LastAt; rw [hc]; decide +kernel)
  exact ⟨x, e, h ⟨by rw [hc]; decide, 0, by rw [hc]; decide +kernel, by rw [hc]; decide +kernel⟩⟩

/-- Select with compressed headers, for texts whose last group of ones is not wide. -/
theorem C102_select_bch_partial {L TH : Nat} (h : BchOk X L TH) (aS aB : Nat) (h1 : 1 ≤ (Text.bits X).count true)
    (ho : ¬ Overflow X L TH aB) (hw : ¬ Text.LastWide (Text.bits X) L) :
    ∃ x, buildSelBch L TH aS aB (textOf X) = ok x ∧
      ∃ s, testSelect (2 ^ 64) (selectBch false L TH x) (textOf X) = ok s ∧ s.out = [] := by
  obtain ⟨x, e, hs⟩ := C71_bch_select_partial h aS aB h1 ho
  have : ∀ i, 1 ≤ i → i ≤ (Text.bits X).count true →
      ∃ p, selectBch false L TH x i = ok p ∧ IsSelect (Text.bits X) (i - 1) p := fun i h2 h3 => hs i h2 h3 fun h => hw h.1
  refine ⟨x, e, (C102_select_silent (by have := h.len60; have : (textOf X).len = X.length := rfl; omega) fun i h2 h3 => by
    obtain ⟨p, hp, -⟩ := this i h2 h3
    exact Or.inl ⟨p, hp⟩).2 this⟩

end MRS.Props
