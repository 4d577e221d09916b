import Verif.Props.MraniszCheck
import Verif.Props.MraniszMpe32
import Verif.Props.MraniszSelMpe32

/-!
# C102, continued: the self-checks of the 32-bit classes and of the classes that leave out pairs
-/

set_option autoImplicit false
set_option maxRecDepth 8192

namespace MRS.Props
open MRS.Mran Outcome Spec

variable {X : List (BitVec 8)} {W L TH : Nat} {query : Nat → Outcome Nat}

/-! ## Ranks -/

/-- The standard rank of 32 bits: as that of 64 bits. -/
theorem C102_rank_std32_partial (h0 : X ≠ []) (hlen : X.length < 2 ^ 29) (aB aR : Nat) :
    ∃ x, buildStd32 aB aR (textOf X) = ok x ∧
      (X.length % 64 ≠ 0 → ∃ s, testRank (2 ^ 32) (rankStd32 x) (textOf X) = ok s ∧ s.out = []) ∧
      (X.length % 64 = 0 → ∃ f, testRank (2 ^ 32) (rankStd32 x) (textOf X) = ub f) := by
  obtain ⟨x, e, hr⟩ := C83_basic_rank_partial (X := X) (by omega) aB aR
  obtain ⟨h1, -, h3⟩ := check_blocks (W := 2 ^ 32) (by omega) h0
    (fun i hi => hr i hi (by unfold Text.blocks at hi; omega))
  refine ⟨x, e, h1, fun h64 => h3 h64 ?_⟩
  obtain ⟨x', e', hf⟩ := C83_basic_end (X := X) (by omega) h64 aB aR
  rw [e] at e'
  injection e' with e'
  subst e'
  exact hf

example : ∃ x, buildStd32 64 64 (textOf sampleText) = ok x ∧
    ∃ s, testRank (2 ^ 32) (rankStd32 x) (textOf sampleText) = ok s ∧ s.out = [] := by
  obtain ⟨x, e, h, -⟩ := C102_rank_std32_partial (X := sampleText) (by decide) (by decide) 64 64
  exact ⟨x, e, h (by decide)⟩

/-- With compressed headers: silent also for those texts of whole blocks whose end is answered (`C84_bch_end`),
undefined for the others. -/
theorem C102_rank_bch32_partial (h0 : X ≠ []) (hlen : X.length < 2 ^ 29) (aB aR : Nat) (g : Nat → Bool) :
    ∃ x, buildBch32 (some g) aB aR (textOf X) = ok x ∧
      (X.length % 64 ≠ 0 ∨ Text.blocks X % 32 = 0 ∨ Text.blocks X % 32 ≠ 31 ∧ (Text.bits X).count true % 512 = 0 →
        ∃ s, testRank (2 ^ 32) (rankBch32 x) (textOf X) = ok s ∧ s.out = []) ∧
      (¬ (X.length % 64 ≠ 0 ∨ Text.blocks X % 32 = 0 ∨ Text.blocks X % 32 ≠ 31 ∧ (Text.bits X).count true % 512 = 0) →
        ∃ f, testRank (2 ^ 32) (rankBch32 x) (textOf X) = ub f) := by
  obtain ⟨x, e, hr⟩ := C84_bch_rank_partial (X := X) (by omega) aB aR g
  obtain ⟨h1, h2, h3⟩ := check_blocks (W := 2 ^ 32) (by omega) h0
    (fun i hi => hr i hi (by unfold Text.blocks at hi; omega))
  by_cases h64 : X.length % 64 = 0
  · obtain ⟨x', e', he, hf⟩ := C84_bch_end (X := X) (by rw [← whole_blocks h64]; omega) aB aR g
    rw [e] at e'
    injection e' with e'
    subst e'
    rw [← whole_blocks h64] at he hf
    exact ⟨x, e, fun h => h2 h64 (he (h.resolve_left fun h => h h64)), fun h => h3 h64 (hf fun h' => h (Or.inr h'))⟩
  · exact ⟨x, e, fun _ => h1 h64, fun h => absurd (Or.inl h64) h⟩

example (g : Nat → Bool) : ∃ x, buildBch32 (some g) 64 64 (textOf (List.replicate 64 0x55#8)) = ok x ∧
    ∃ f, testRank (2 ^ 32) (rankBch32 x) (textOf (List.replicate 64 0x55#8)) = ub f := by
  obtain ⟨x, e, -, h⟩ := C102_rank_bch32_partial (X := List.replicate 64 0x55#8) (by decide) (by decide) 64 64 g
  exact ⟨x, e, h (by decide +kernel)⟩

/-- `RankCF32`, for texts it can be built from, with loads from multiples of four. -/
theorem C102_rank_cf32_partial (h0 : X ≠ []) (hlen : X.length < 2 ^ 29) (aB : Nat)
    (h : ∃ q, q < Text.blocks X ∧ ¬ Text.Homog X q) :
    ∃ x, buildCF32 aB (textOf X) = ok x ∧
      (X.length % 64 ≠ 0 → ∃ s, testRank (2 ^ 32) (rankCF32 false x) (textOf X) = ok s ∧ s.out = []) ∧
      (X.length % 64 = 0 → ∃ f, testRank (2 ^ 32) (rankCF32 false x) (textOf X) = ub f) := by
  obtain ⟨x, e, hr⟩ := C85_cf_rank_partial (X := X) (by omega) aB (Or.inr h)
  obtain ⟨h1, -, h3⟩ := check_blocks (W := 2 ^ 32) (by omega) h0
    (fun i hi => hr i hi (by unfold Text.blocks at hi; omega))
  refine ⟨x, e, h1, fun h64 => h3 h64 ?_⟩
  obtain ⟨x', e', hf⟩ := C85_cf_beyond (X := X) (by omega) aB (Or.inr h)
  rw [e] at e'
  injection e' with e'
  subst e'
  exact hf _ _ (by rw [whole_blocks h64]; exact Nat.le_refl _)

example : ∃ x, buildCF32 64 (textOf sampleText) = ok x ∧
    ∃ s, testRank (2 ^ 32) (rankCF32 false x) (textOf sampleText) = ok s ∧ s.out = [] := by
  obtain ⟨x, e, h, -⟩ := C102_rank_cf32_partial (X := sampleText) (by decide) (by decide) 64 ⟨2, by decide, by decide +kernel⟩
  exact ⟨x, e, h (by decide)⟩

/-- `RankMPE64` with arrays at multiples of 16: silent for every text that is not empty, whatever memory held.
Missing: memory that may not be read before it is written (C76), and loads that must be aligned. -/
theorem C102_rank_mpe_partial (ty : MpeType) (h0 : X ≠ []) (hlen : X.length < 2 ^ 60) (f b : Nat → BitVec 8)
    (r : Nat → Nat) (aB aR : Nat) (hB : aB % 16 = 0) (hR : aR % 16 = 0) :
    ∃ x, buildMpe ty ⟨some f, some b, some r⟩ aB aR (textOf X) = ok x ∧
      ∃ s, testRank (2 ^ 64) (rankMpe ty false x) (textOf X) = ok s ∧ s.out = [] := by
  obtain ⟨x, e, hr⟩ := C75_mpe_end_partial ty h0 hlen f b r aB aR hB hR
  exact ⟨x, e, (C102_rank_silent (by omega) fun i _ h2 => Or.inl ⟨_, hr i h2⟩).2 fun i _ h2 => hr i h2⟩

/-- Also for a text of whole blocks. -/
example (ty : MpeType) (f b : Nat → BitVec 8) (r : Nat → Nat) :
    ∃ x, buildMpe ty ⟨some f, some b, some r⟩ 64 64 (textOf (List.replicate 128 0x81#8)) = ok x ∧
      ∃ s, testRank (2 ^ 64) (rankMpe ty false x) (textOf (List.replicate 128 0x81#8)) = ok s ∧ s.out = [] :=
  C102_rank_mpe_partial ty (by decide) (by decide) f b r 64 64 (by decide) (by decide)

/-- `RankMPE32`: the same. -/
theorem C102_rank_mpe32_partial (ty : MpeType) (h0 : X ≠ []) (hlen : X.length < 2 ^ 29) (f b : Nat → BitVec 8)
    (r : Nat → Nat) (aB aR : Nat) (hB : aB % 16 = 0) (hR : aR % 16 = 0) :
    ∃ x, buildMpe32 ty ⟨some f, some b, some r⟩ aB aR (textOf X) = ok x ∧
      ∃ s, testRank (2 ^ 32) (rankMpe32 ty false x) (textOf X) = ok s ∧ s.out = [] := by
  obtain ⟨x, e, hr⟩ := C92_mpe_end_partial ty h0 (fitsMpe_of_length ty (by omega)) f b r aB aR hB hR
  exact ⟨x, e, (C102_rank_silent (by omega) fun i _ h2 => Or.inl ⟨_, hr i h2 (by omega)⟩).2
    fun i _ h2 => hr i h2 (by omega)⟩

example (ty : MpeType) (f b : Nat → BitVec 8) (r : Nat → Nat) :
    ∃ x, buildMpe32 ty ⟨some f, some b, some r⟩ 64 64 (textOf (List.replicate 128 0x81#8)) = ok x ∧
      ∃ s, testRank (2 ^ 32) (rankMpe32 ty false x) (textOf (List.replicate 128 0x81#8)) = ok s ∧ s.out = [] :=
  C102_rank_mpe32_partial ty (by decide) (by decide) f b r 64 64 (by decide) (by decide)

/-! ## Selects -/

/-- The check of an object that answers rightly up to the last groups, and there the last one wrongly. -/
theorem check_last {n a : Nat} (hW : 8 * X.length < W) (h1 : 1 ≤ (Text.bits X).count true)
    (hs : ∀ i, 1 ≤ i → i ≤ (Text.bits X).count true → ¬ n < i →
      ∃ p, query i = ok p ∧ IsSelect (Text.bits X) (i - 1) p)
    (hl : ∀ i, n < i → i ≤ (Text.bits X).count true → query i = ok (a + (i - n) - 1))
    (hw : ∃ p, query ((Text.bits X).count true) = ok p ∧ ¬ IsSelect (Text.bits X) ((Text.bits X).count true - 1) p) :
    ∃ s, testSelect W query (textOf X) = ok s ∧ s.out ≠ [] := by
  obtain ⟨p, hp, hn⟩ := hw
  have hall : ∀ i, 1 ≤ i → i ≤ (Text.bits X).count true → ∃ r, query i = ok r := fun i h2 h3 => by
    by_cases hb : n < i
    · exact ⟨_, hl i hb h3⟩
    · obtain ⟨p, hp, -⟩ := hs i h2 h3 hb
      exact ⟨p, hp⟩
  obtain ⟨s, es, hs'⟩ := (C102_select_prints hW fun i h2 h3 => Or.inl (hall i h2 h3)).1 hall
  refine ⟨s, es, fun h0 => ?_⟩
  rw [h0] at hs'
  obtain ⟨p', hp', hs2⟩ := (wrongSelects_nil hall).1 hs'.symm _ h1 (Nat.le_refl _)
  rw [hp] at hp'
  injection hp' with hp'
  subst hp'
  exact hn hs2

/-- The check of an object that answers rightly. -/
theorem check_right (hW : 8 * X.length < W)
    (hs : ∀ i, 1 ≤ i → i ≤ (Text.bits X).count true → ∃ p, query i = ok p ∧ IsSelect (Text.bits X) (i - 1) p) :
    ∃ s, testSelect W query (textOf X) = ok s ∧ s.out = [] :=
  (C102_select_silent hW fun i h2 h3 => by
    obtain ⟨p, hp, -⟩ := hs i h2 h3
    exact Or.inl ⟨p, hp⟩).2 hs

/-- Standard select of 32 bits: silent, unless the last group of ones is wide; then the check reports it. -/
theorem C102_select_std32_partial (h : Sel32Ok X L TH) (aS aB : Nat)
    (h1 : 1 ≤ (Text.bits X).count true) (ho : ¬ Overflow32 X L TH aB) :
    ∃ x, S32.buildSel L TH aS aB (textOf X) = ok x ∧
      (¬ Text.LastWide (Text.bits X) L →
        ∃ s, testSelect (2 ^ 32) (S32.selectStd false L TH x) (textOf X) = ok s ∧ s.out = []) ∧
      (Text.LastWide (Text.bits X) L →
        ∃ s, testSelect (2 ^ 32) (S32.selectStd false L TH x) (textOf X) = ok s ∧ s.out ≠ []) := by
  have hW : 8 * X.length < 2 ^ 32 := by have := h.len; omega
  obtain ⟨x, e, hs⟩ := C88_std_select_partial h aS aB h1 ho
  refine ⟨x, e, fun hw => check_right hW fun i h2 h3 => hs i h2 h3 fun h => hw h.1, fun hw => ?_⟩
  obtain ⟨x', a, e', -, hl, hn⟩ := C88_std_last_wrong h aS aB h1 ho hw false
  rw [e] at e'
  injection e' with e'
  subst e'
  exact check_last hW h1 (fun i h2 h3 hb => hs i h2 h3 fun h => hb h.2) hl hn

/-- One one at the end of 128 bits, with groups of 128 ones: reported. -/
example : ∃ x, S32.buildSel 128 4096 64 64 (textOf farOne) = ok x ∧
    ∃ s, testSelect (2 ^ 32) (S32.selectStd false 128 4096 x) (textOf farOne) = ok s ∧ s.out ≠ [] := by
  obtain ⟨hc, -, hw⟩ := farOne_wide
  obtain ⟨x, e, -, h⟩ := C102_select_std32_partial (sel32_benchmark (X := farOne) (by decide)) 64 64
    (by rw [hc]; decide) (overflow32_none (by decide) 64)
  exact ⟨x, e, h hw⟩

/-- Select of 64 bits with compressed headers, for texts whose last group of ones is wide: reported (for the others
see `C102_select_bch_partial`). -/
theorem C102_select_bch_wide (h : BchOk X L TH) (aS aB : Nat)
    (h1 : 1 ≤ (Text.bits X).count true) (ho : ¬ Overflow X L TH aB) (hw : Text.LastWide (Text.bits X) L) :
    ∃ x, buildSelBch L TH aS aB (textOf X) = ok x ∧
      ∃ s, testSelect (2 ^ 64) (selectBch false L TH x) (textOf X) = ok s ∧ s.out ≠ [] := by
  obtain ⟨x, e, hs⟩ := C71_bch_select_partial h aS aB h1 ho
  obtain ⟨x', a, e', -, hl, hn⟩ := C71_bch_last_wrong h aS aB h1 ho hw false
  rw [e] at e'
  injection e' with e'
  subst e'
  exact ⟨x, e, check_last (by have := h.len60; have : (textOf X).len = X.length := rfl; omega) h1
    (fun i h2 h3 hb => hs i h2 h3 fun h => hb h.2) hl hn⟩

example : ∃ x, buildSelBch 128 4096 64 64 (textOf (List.replicate 15 0#8 ++ [1#8])) = ok x ∧
    ∃ s, testSelect (2 ^ 64) (selectBch false 128 4096 x) (textOf (List.replicate 15 0#8 ++ [1#8])) = ok s ∧ s.out ≠ [] :=
  C102_select_bch_wide wideText.1 64 64 wideText.2.1 wideText.2.2.1 wideText.2.2.2

/-- Select of 32 bits with compressed headers: the same. -/
theorem C102_select_bch32_partial (h : Bch32Ok X L TH) (aS aB : Nat)
    (h1 : 1 ≤ (Text.bits X).count true) (ho : ¬ Overflow32 X L TH aB) :
    ∃ x, S32.buildSelBch L TH aS aB (textOf X) = ok x ∧
      (¬ Text.LastWide (Text.bits X) L →
        ∃ s, testSelect (2 ^ 32) (S32.selectBch false L TH x) (textOf X) = ok s ∧ s.out = []) ∧
      (Text.LastWide (Text.bits X) L →
        ∃ s, testSelect (2 ^ 32) (S32.selectBch false L TH x) (textOf X) = ok s ∧ s.out ≠ []) := by
  have hW : 8 * X.length < 2 ^ 32 := by have := h.len; omega
  obtain ⟨x, e, hs⟩ := C89_bch_select_partial h aS aB h1 ho
  refine ⟨x, e, fun hw => check_right hW fun i h2 h3 => hs i h2 h3 fun h => hw h.1, fun hw => ?_⟩
  obtain ⟨x', a, e', -, hl, hn⟩ := C89_bch_last_wrong h aS aB h1 ho hw false
  rw [e] at e'
  injection e' with e'
  subst e'
  exact check_last hW h1 (fun i h2 h3 hb => hs i h2 h3 fun h => hb h.2) hl hn

example : ∃ x, S32.buildSelBch 128 4096 64 64 (textOf farOne) = ok x ∧
    ∃ s, testSelect (2 ^ 32) (S32.selectBch false 128 4096 x) (textOf farOne) = ok s ∧ s.out ≠ [] := by
  obtain ⟨hc, -, hw⟩ := farOne_wide
  obtain ⟨x, e, -, h⟩ := C102_select_bch32_partial (bch32_benchmark (X := farOne) (by decide)) 64 64
    (by rw [hc]; decide) (overflow32_none (by decide) 64)
  exact ⟨x, e, h hw⟩

theorem flag_quiet {ty : MpeType} {f : Nat → BitVec 8}
    (hf : (Text.bits X).count true % L = 0 → Quiet ty (f ((Text.bits X).count true / L - 1))) (i : Nat) :
    FlagOk ty X L f i := by
  by_cases h : (Text.bits X).count true % L = 0
  · exact Or.inr (Or.inr (Or.inr (hf h)))
  · exact Or.inl (Nat.pos_of_ne_zero h)

/-- `SelectMPE64`, with a quiet flag for a complete last group and memory that may be read: the same. -/
theorem C102_select_mpe_partial {ty : MpeType} (h : SelMpeOk ty X L TH) (aS aB : Nat) (f v : Nat → BitVec 8)
    (h1 : 1 ≤ (Text.bits X).count true) (ho : ¬ Overflow X L TH aB)
    (hf : (Text.bits X).count true % L = 0 → Quiet ty (f ((Text.bits X).count true / L - 1))) :
    ∃ x, buildSelMpe ty L TH aS aB ⟨some f, some v⟩ (textOf X) = ok x ∧
      (¬ Text.LastWide (Text.bits X) L →
        ∃ s, testSelect (2 ^ 64) (selectMpe ty false L TH x) (textOf X) = ok s ∧ s.out = []) ∧
      (Text.LastWide (Text.bits X) L →
        ∃ s, testSelect (2 ^ 64) (selectMpe ty false L TH x) (textOf X) = ok s ∧ s.out ≠ []) := by
  have hW : 8 * X.length < 2 ^ 64 := by have := h.len; omega
  obtain ⟨x, e, hs⟩ := C79_mpe_select_partial h aS aB f v h1 ho
  refine ⟨x, e, fun hw => check_right hW fun i h2 h3 => hs i h2 h3 (fun h => hw h.1) (flag_quiet hf i), fun hw => ?_⟩
  obtain ⟨x', a, e', -, hl, hn⟩ := C79_mpe_last_wrong h aS aB f (some v) h1 ho hw false
  rw [e] at e'
  injection e' with e'
  subst e'
  exact check_last hW h1 (fun i h2 h3 hb => hs i h2 h3 (fun h => hb h.2) (flag_quiet hf i)) hl hn

/-- `SelectMPE32`: the same. -/
theorem C102_select_mpe32_partial {ty : MpeType} (h : SelMpe32Ok ty X L TH) (aS aB : Nat) (f v : Nat → BitVec 8)
    (h1 : 1 ≤ (Text.bits X).count true) (ho : ¬ Overflow32 X L TH aB)
    (hf : (Text.bits X).count true % L = 0 → Quiet ty (f ((Text.bits X).count true / L - 1))) :
    ∃ x, S32.buildSelMpe ty L TH aS aB ⟨some f, some v⟩ (textOf X) = ok x ∧
      (¬ Text.LastWide (Text.bits X) L →
        ∃ s, testSelect (2 ^ 32) (S32.selectMpe ty false L TH x) (textOf X) = ok s ∧ s.out = []) ∧
      (Text.LastWide (Text.bits X) L →
        ∃ s, testSelect (2 ^ 32) (S32.selectMpe ty false L TH x) (textOf X) = ok s ∧ s.out ≠ []) := by
  have hW : 8 * X.length < 2 ^ 32 := by have := h.len; omega
  obtain ⟨x, e, hs⟩ := C96_mpe32_select_partial h aS aB f v h1 ho
  refine ⟨x, e, fun hw => check_right hW fun i h2 h3 => hs i h2 h3 (fun h => hw h.1) (flag_quiet hf i), fun hw => ?_⟩
  obtain ⟨x', a, e', -, hl, hn⟩ := C96_mpe32_last_wrong h aS aB f (some v) h1 ho hw false
  rw [e] at e'
  injection e' with e'
  subst e'
  exact check_last hW h1 (fun i h2 h3 hb => hs i h2 h3 (fun h => hb h.2) (flag_quiet hf i)) hl hn

example (ty : MpeType) (f v : Nat → BitVec 8) : ∃ x, buildSelMpe ty 128 4096 64 64 ⟨some f, some v⟩ (textOf farOne) = ok x ∧
    ∃ s, testSelect (2 ^ 64) (selectMpe ty false 128 4096 x) (textOf farOne) = ok s ∧ s.out ≠ [] := by
  obtain ⟨hc, ho, hw⟩ := farOne_wide
  obtain ⟨x, e, -, h⟩ := C102_select_mpe_partial (selMpe_shipped ty (X := farOne) (by decide)) 64 64 f v
    (by rw [hc]; decide) (ho 64) (by rw [hc]; exact fun h => absurd h (by decide))
  exact ⟨x, e, h hw⟩

example (ty : MpeType) (f v : Nat → BitVec 8) : ∃ x, S32.buildSelMpe ty 128 4096 64 64 ⟨some f, some v⟩ (textOf farOne) = ok x ∧
    ∃ s, testSelect (2 ^ 32) (S32.selectMpe ty false 128 4096 x) (textOf farOne) = ok s ∧ s.out ≠ [] := by
  obtain ⟨hc, -, hw⟩ := farOne_wide
  obtain ⟨x, e, -, h⟩ := C102_select_mpe32_partial (selMpe32_shipped ty (X := farOne) (by decide)) 64 64 f v
    (by rw [hc]; decide) (overflow32_none (by decide) 64) (by rw [hc]; exact fun h => absurd h (by decide))
  exact ⟨x, e, h hw⟩

end MRS.Props
