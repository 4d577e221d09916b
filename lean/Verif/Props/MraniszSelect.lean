import Verif.Proofs.Mranisz.SelLink

/-!
# Properties of the compressed select (include/mranisz, src/perf_compressed_bitmap.cpp), C70-C72

`X` is the text, a list of bytes; `aS`, `aB` are the addresses that `new[]` returns; `L`, `TH` the
template parameters `L`, `THRESHOLD`.  `select` counts from one.  Texts have fewer than `2^57` bytes:
up to 64 bytes are stored for each, and `L < TH` then keeps every counter below `2^64`.
`Overflow` is the case in which `build` writes beyond its array.
-/

set_option autoImplicit false
set_option maxRecDepth 8192

namespace MRS.Props
open MRS.Mran Outcome Spec

variable {X : List (BitVec 8)} {L TH : Nat}

theorem lt57 {n : Nat} (h : n < 2 ^ 57) : n < 2 ^ 60 := by omega

/-- Fewer than `L` ones, the last at position `TH`, and the room after the array is too small for their
positions. -/
def Overflow (X : List (BitVec 8)) (L TH aB : Nat) : Prop :=
  Text.LastAt (Text.bits X) L TH ∧ (TH + 7) / 8 + roomBytes aB < 8 * (Text.bits X).count true

/-- Three groups of four ones: wide, all ones, incomplete. -/
def sampleOnes : List (BitVec 8) := [0x80#8, 0x40#8, 0x20#8, 0x1F#8, 0x12#8]

/-! ## C70: `SelectBasic64<SELECT_BASIC_STANDARD>` -/

/-- Right for every one of a complete group, and of the last group unless it is `LastWide`.  Missing
from the full claim: texts without ones (`C70_std_no_ones`), `Overflow` (`C70_std_overflow`), a wide
last group (`C70_std_last_wrong`). -/
theorem C70_std_select_partial (hL : 1 ≤ L) (hlen : X.length < 2 ^ 57) (aS aB : Nat)
    (h1 : 1 ≤ (Text.bits X).count true) (ho : ¬ Overflow X L TH aB) :
    ∃ x, buildSel L TH aS aB (textOf X) = ok x ∧ ∀ i, 1 ≤ i → i ≤ (Text.bits X).count true →
      ¬ (Text.LastWide (Text.bits X) L ∧ (Text.bits X).count true / L * L < i) →
      ∃ p, selectStd false L TH x i = ok p ∧ IsSelect (Text.bits X) (i - 1) p := by
  unfold Overflow at ho
  simp only [← tot_count] at *
  rw [lastAt_iff hL h1] at ho
  obtain ⟨x, e, hx⟩ := (buildSel_cases (t := textOf X) (TH := TH) hL (lt57 hlen) h1 aS aB).1 ho
  refine ⟨x, e, fun i hi1 hi2 hb => ?_⟩
  rw [lastWide_iff hL h1] at hb
  have := (selectStd_ok hL (lt57 hlen) h1 hx).good false i hi1 hi2 hb
  rw [if_neg (by simp)] at this
  exact ⟨_, this, (isSelect_sel X hi1 hi2).2 rfl⟩

example : ∃ x, buildSel 4 12 64 64 (textOf sampleOnes) = ok x ∧
    ∃ p, selectStd false 4 12 x 9 = ok p ∧ IsSelect (Text.bits sampleOnes) 8 p := by
  have hc : (Text.bits sampleOnes).count true = 10 := by decide +kernel
  obtain ⟨x, e, h⟩ := C70_std_select_partial (X := sampleOnes) (L := 4) (TH := 12) (by decide) (by decide) 64 64
    (by rw [hc]; decide) (by unfold Overflow Text.LastAt; rw [hc]; decide)
  refine ⟨x, e, h 9 (by decide) (by rw [hc]; decide) ?_⟩
  rintro ⟨⟨-, a, h2, h3⟩, -⟩
  have ha := (upTo_iff (X := sampleOnes) (by rw [tot_count, hc]; decide)).1 h2
  rw [hc] at ha
  have : sel (textOf sampleOnes) 8 = 31 := by decide +kernel
  rw [show 10 / 4 * 4 = 8 from rfl, if_neg (by decide), this] at ha
  subst ha
  rw [hc] at h3
  exact absurd h3 (by decide +kernel)

/-- With loads that must be aligned, the same queries give the same answer or a misaligned load. -/
theorem C70_std_select_strict (hL : 1 ≤ L) (hlen : X.length < 2 ^ 57) (aS aB : Nat)
    (h1 : 1 ≤ (Text.bits X).count true) (ho : ¬ Overflow X L TH aB) :
    ∃ x, buildSel L TH aS aB (textOf X) = ok x ∧ ∀ i, 1 ≤ i → i ≤ (Text.bits X).count true →
      ¬ (Text.LastWide (Text.bits X) L ∧ (Text.bits X).count true / L * L < i) →
      selectStd true L TH x i = ub .misaligned ∨
        ∃ p, selectStd true L TH x i = ok p ∧ IsSelect (Text.bits X) (i - 1) p := by
  unfold Overflow at ho
  simp only [← tot_count] at *
  rw [lastAt_iff hL h1] at ho
  obtain ⟨x, e, hx⟩ := (buildSel_cases (t := textOf X) (TH := TH) hL (lt57 hlen) h1 aS aB).1 ho
  refine ⟨x, e, fun i hi1 hi2 hb => ?_⟩
  rw [lastWide_iff hL h1] at hb
  have := (selectStd_ok hL (lt57 hlen) h1 hx).good true i hi1 hi2 hb
  by_cases hc : true = true ∧ i % L ≠ 0 ∧ bl (textOf X) L (i / L) ≠ L ∧ off (textOf X) L TH (i / L) % 8 ≠ 0 ∧
      (bl (textOf X) L (i / L) > TH ∨ bl (textOf X) L (i / L) > 64)
  · rw [if_pos hc] at this
    exact Or.inl this
  · rw [if_neg hc] at this
    exact Or.inr ⟨_, this, (isSelect_sel X hi1 hi2).2 rfl⟩

example : ∃ x, buildSel 4 12 64 64 (textOf sampleOnes) = ok x ∧ (selectStd true 4 12 x 3 = ub .misaligned ∨
    ∃ p, selectStd true 4 12 x 3 = ok p ∧ IsSelect (Text.bits sampleOnes) 2 p) := by
  have hc : (Text.bits sampleOnes).count true = 10 := by decide +kernel
  obtain ⟨x, e, h⟩ := C70_std_select_strict (X := sampleOnes) (L := 4) (TH := 12) (by decide) (by decide) 64 64
    (by rw [hc]; decide) (by unfold Overflow Text.LastAt; rw [hc]; decide)
  refine ⟨x, e, h 3 (by decide) (by rw [hc]; decide) ?_⟩
  rw [hc]
  rintro ⟨-, h⟩
  exact absurd h (by decide)

/-- A misaligned load: a group of two ones in three bits, then a wide one. -/
theorem C70_std_misaligned : ∃ x, buildSel 2 8 64 64 (textOf [0xA0#8, 0#8, 0x60#8]) = ok x ∧
    selectStd true 2 8 x 3 = ub .misaligned ∧ selectStd false 2 8 x 3 = ok 17 := by
  refine ⟨_, rfl, ?_, ?_⟩ <;> decide +kernel

/-- A last group with fewer than `L` ones that takes `L` bits is read as if it were all ones; its last
one is always answered wrongly. -/
theorem C70_std_last_wrong (hL : 1 ≤ L) (hlen : X.length < 2 ^ 57) (aS aB : Nat)
    (h1 : 1 ≤ (Text.bits X).count true) (ho : ¬ Overflow X L TH aB) (hw : Text.LastWide (Text.bits X) L) (s : Bool) :
    ∃ x a, buildSel L TH aS aB (textOf X) = ok x ∧ Text.UpTo (Text.bits X) ((Text.bits X).count true / L * L) a ∧
      (∀ i, (Text.bits X).count true / L * L < i → i ≤ (Text.bits X).count true →
        selectStd s L TH x i = ok (a + (i - (Text.bits X).count true / L * L) - 1)) ∧
      ∃ p, selectStd s L TH x ((Text.bits X).count true) = ok p ∧
        ¬ IsSelect (Text.bits X) ((Text.bits X).count true - 1) p := by
  obtain ⟨hr, a, ha1, ha2⟩ := hw
  have hw : Text.LastWide (Text.bits X) L := ⟨hr, a, ha1, ha2⟩
  unfold Overflow at ho
  simp only [← tot_count] at *
  rw [lastAt_iff hL h1] at ho
  rw [lastWide_iff hL h1] at hw
  obtain ⟨x, e, hx⟩ := (buildSel_cases (t := textOf X) (TH := TH) hL (lt57 hlen) h1 aS aB).1 ho
  have hbad := (selectStd_ok hL (lt57 hlen) h1 hx).bad s
  have hdm := Nat.div_add_mod (tot (textOf X)) L
  have hml := Nat.mod_lt (tot (textOf X)) hL
  rw [Nat.mul_comm] at hdm
  have hae : a = en (textOf X) L (tot (textOf X) / L) := by
    have := upTo_en (X := X) (L := L) (m := tot (textOf X) / L) (e := a) hL h1
    rw [ob_full (Nat.le_refl _)] at this
    exact this.1 ha1
  refine ⟨x, a, e, ha1, fun i hi1 hi2 => ?_, _, hbad _ (Nat.le_refl _) hw (by omega), ?_⟩
  · have := hbad i hi2 hw hi1
    rw [this, hae]
  · rw [isSelect_sel X h1 (Nat.le_refl _), ← hae]
    rw [upTo_iff (Nat.le_refl _), if_neg (by omega)] at ha2
    omega

example : ∃ x a, buildSel 128 4096 64 64 (textOf (List.replicate 15 0#8 ++ [1#8])) = ok x ∧
    Text.UpTo (Text.bits (List.replicate 15 0#8 ++ [1#8])) 0 a ∧ selectStd true 128 4096 x 1 = ok (a + 1 - 1) := by
  have hc : (Text.bits (List.replicate 15 0#8 ++ [1#8])).count true = 1 := by decide +kernel
  obtain ⟨x, a, e, ha, h, -⟩ := C70_std_last_wrong (X := List.replicate 15 0#8 ++ [1#8]) (L := 128) (TH := 4096)
    (by decide) (by decide) 64 64 (by rw [hc]; decide)
    (by unfold Overflow Text.LastAt; rw [hc]; decide +kernel)
    ⟨by rw [hc]; decide, 0, by rw [hc]; decide +kernel, by rw [hc]; decide +kernel⟩ true
  rw [hc] at h ha
  exact ⟨x, a, e, ha, h 1 (by decide) (by decide)⟩

/-- Without a one, `build` reads an entry that was never written. -/
theorem C70_std_no_ones (hL : 1 ≤ L) (hlen : X.length < 2 ^ 57) (aS aB : Nat)
    (h0 : (Text.bits X).count true = 0) : buildSel L TH aS aB (textOf X) = ub .uninit :=
  buildSel_none hL (lt57 hlen) (by rw [tot_count]; exact h0) aS aB

example : buildSel 128 4096 64 64 (textOf [0#8, 0#8]) = ub .uninit :=
  C70_std_no_ones (by decide) (by decide) 64 64 (by decide)

/-- `build` writes beyond its array when the ones are fewer than `L`, the last one is at position `TH`,
and there are too many for the room that the first pass counted. -/
theorem C70_std_overflow (hL : 1 ≤ L) (hlen : X.length < 2 ^ 57) (aS aB : Nat)
    (h1 : 1 ≤ (Text.bits X).count true) (ho : Overflow X L TH aB) : buildSel L TH aS aB (textOf X) = ub .oob := by
  unfold Overflow at ho
  simp only [← tot_count] at *
  rw [lastAt_iff hL h1] at ho
  exact (buildSel_cases (t := textOf X) (TH := TH) hL (lt57 hlen) h1 aS aB).2 ho

/-- 81 ones, the last at 4096, with the array 16 bytes before a multiple of 128 (`new[]` returns
multiples of 16). -/
def overText : List (BitVec 8) := List.replicate 10 0xFF#8 ++ List.replicate 502 0#8 ++ [0x80#8]

theorem overText_over : 1 ≤ (Text.bits overText).count true ∧ Overflow overText 128 4096 16 := by
  have hc : (Text.bits overText).count true = 81 := by decide +kernel
  refine ⟨by rw [hc]; decide, ⟨by rw [hc]; decide, ?_⟩, by rw [hc]; decide⟩
  rw [hc]
  decide +kernel

example : buildSel 128 4096 0 16 (textOf overText) = ub .oob :=
  C70_std_overflow (by decide) (by decide) 0 16 overText_over.1 overText_over.2

/-- `select(0)` is the largest number. -/
theorem C70_std_zero (hL : 1 ≤ L) (hlen : X.length < 2 ^ 57) (aS aB : Nat)
    (h1 : 1 ≤ (Text.bits X).count true) (ho : ¬ Overflow X L TH aB) :
    ∃ x, buildSel L TH aS aB (textOf X) = ok x ∧ ∀ s, selectStd s L TH x 0 = ok (2 ^ 64 - 1) := by
  unfold Overflow at ho
  simp only [← tot_count] at *
  rw [lastAt_iff hL h1] at ho
  obtain ⟨x, e, hx⟩ := (buildSel_cases (t := textOf X) (TH := TH) hL (lt57 hlen) h1 aS aB).1 ho
  exact ⟨x, e, fun s => selectStd_zero hx s⟩

example : ∃ x, buildSel 4 12 64 64 (textOf sampleOnes) = ok x ∧ selectStd true 4 12 x 0 = ok (2 ^ 64 - 1) := by
  have hc : (Text.bits sampleOnes).count true = 10 := by decide +kernel
  obtain ⟨x, e, h⟩ := C70_std_zero (X := sampleOnes) (L := 4) (TH := 12) (by decide) (by decide) 64 64
    (by rw [hc]; decide) (by unfold Overflow Text.LastAt; rw [hc]; decide)
  exact ⟨x, e, h true⟩

/-- So the full claim is false, for the parameters that the benchmark uses. -/
theorem C70_std_select_false : ¬ ∀ (X : List (BitVec 8)) (aS aB : Nat), X.length < 2 ^ 57 →
    1 ≤ (Text.bits X).count true →
    ∃ x, buildSel 128 4096 aS aB (textOf X) = ok x ∧ ∀ i, 1 ≤ i → i ≤ (Text.bits X).count true →
      ∃ p, selectStd false 128 4096 x i = ok p ∧ IsSelect (Text.bits X) (i - 1) p := by
  intro h
  obtain ⟨x, e, -⟩ := h overText 0 16 (by decide) overText_over.1
  rw [C70_std_overflow (by decide) (by decide) 0 16 overText_over.1 overText_over.2] at e
  cases e

/-! ## C71: `SelectBasic64<SELECT_BASIC_COMPRESSED_HEADERS>` -/

/-- Parameters that the constructor accepts (select.hpp lines 1228-1241) and a text whose number of
entries fits `unsigned int` (line 878). -/
structure BchOk (X : List (BitVec 8)) (L TH : Nat) : Prop where
  pos : 1 ≤ L
  lt : L < TH
  small : 8 * (L - 1) ≤ 65535 / 15
  thr : TH - 1 ≤ 8 * (65535 / 15)
  len : X.length < 2 ^ 57
  ent : 2 * (((Text.bits X).count true + (L - 1)) / L) + 2 < 2 ^ 32

theorem BchOk.len60 (h : BchOk X L TH) : X.length < 2 ^ 60 := lt57 h.len

theorem BchOk.nbk (h : BchOk X L TH) : 2 * nbk (textOf X) L + 2 < 2 ^ 32 := by
  rw [nbk_ceil h.pos, tot_count]
  exact h.ent

/-- As `C70_std_select_partial`: fifteen offsets relative to the first of a superblock fit 16 bits each.
Missing: texts of more than `2^31` groups, and the cases below. -/
theorem C71_bch_select_partial (h : BchOk X L TH) (aS aB : Nat)
    (h1 : 1 ≤ (Text.bits X).count true) (ho : ¬ Overflow X L TH aB) :
    ∃ x, buildSelBch L TH aS aB (textOf X) = ok x ∧ ∀ i, 1 ≤ i → i ≤ (Text.bits X).count true →
      ¬ (Text.LastWide (Text.bits X) L ∧ (Text.bits X).count true / L * L < i) →
      ∃ p, selectBch false L TH x i = ok p ∧ IsSelect (Text.bits X) (i - 1) p := by
  have hn := h.nbk
  unfold Overflow at ho
  simp only [← tot_count] at *
  rw [lastAt_iff h.pos h1] at ho
  obtain ⟨x, e, hx⟩ := (buildSelBch_cases (t := textOf X) (TH := TH) h.pos h.len60 h1 hn aS aB).1 ho
  refine ⟨x, e, fun i hi1 hi2 hb => ?_⟩
  rw [lastWide_iff h.pos h1] at hb
  have := (selectBch_ok h.pos h.small h.thr hn h.len60 hx).good false i hi1 hi2 hb
  rw [if_neg (by simp)] at this
  exact ⟨_, this, (isSelect_sel X hi1 hi2).2 rfl⟩

theorem sampleBch : BchOk sampleOnes 4 12 := by
  have hc : (Text.bits sampleOnes).count true = 10 := by decide +kernel
  exact ⟨by decide, by decide, by decide, by decide, by decide, by rw [hc]; decide⟩

example : ∃ x, buildSelBch 4 12 64 64 (textOf sampleOnes) = ok x ∧
    ∃ p, selectBch false 4 12 x 6 = ok p ∧ IsSelect (Text.bits sampleOnes) 5 p := by
  have hc : (Text.bits sampleOnes).count true = 10 := by decide +kernel
  obtain ⟨x, e, h⟩ := C71_bch_select_partial sampleBch 64 64
    (by rw [hc]; decide) (by unfold Overflow Text.LastAt; rw [hc]; decide)
  refine ⟨x, e, h 6 (by decide) (by rw [hc]; decide) ?_⟩
  rw [hc]
  rintro ⟨-, h⟩
  exact absurd h (by decide)

theorem C71_bch_select_strict (h : BchOk X L TH) (aS aB : Nat)
    (h1 : 1 ≤ (Text.bits X).count true) (ho : ¬ Overflow X L TH aB) :
    ∃ x, buildSelBch L TH aS aB (textOf X) = ok x ∧ ∀ i, 1 ≤ i → i ≤ (Text.bits X).count true →
      ¬ (Text.LastWide (Text.bits X) L ∧ (Text.bits X).count true / L * L < i) →
      selectBch true L TH x i = ub .misaligned ∨
        ∃ p, selectBch true L TH x i = ok p ∧ IsSelect (Text.bits X) (i - 1) p := by
  have hn := h.nbk
  unfold Overflow at ho
  simp only [← tot_count] at *
  rw [lastAt_iff h.pos h1] at ho
  obtain ⟨x, e, hx⟩ := (buildSelBch_cases (t := textOf X) (TH := TH) h.pos h.len60 h1 hn aS aB).1 ho
  refine ⟨x, e, fun i hi1 hi2 hb => ?_⟩
  rw [lastWide_iff h.pos h1] at hb
  have := (selectBch_ok h.pos h.small h.thr hn h.len60 hx).good true i hi1 hi2 hb
  by_cases hc : true = true ∧ i % L ≠ 0 ∧ bl (textOf X) L (i / L) ≠ L ∧ off (textOf X) L TH (i / L) % 8 ≠ 0 ∧
      (bl (textOf X) L (i / L) > TH ∨ bl (textOf X) L (i / L) > 64)
  · rw [if_pos hc] at this
    exact Or.inl this
  · rw [if_neg hc] at this
    exact Or.inr ⟨_, this, (isSelect_sel X hi1 hi2).2 rfl⟩

example : ∃ x, buildSelBch 4 12 64 64 (textOf sampleOnes) = ok x ∧ (selectBch true 4 12 x 3 = ub .misaligned ∨
    ∃ p, selectBch true 4 12 x 3 = ok p ∧ IsSelect (Text.bits sampleOnes) 2 p) := by
  have hc : (Text.bits sampleOnes).count true = 10 := by decide +kernel
  obtain ⟨x, e, h⟩ := C71_bch_select_strict sampleBch 64 64
    (by rw [hc]; decide) (by unfold Overflow Text.LastAt; rw [hc]; decide)
  refine ⟨x, e, h 3 (by decide) (by rw [hc]; decide) ?_⟩
  rw [hc]
  rintro ⟨-, h⟩
  exact absurd h (by decide)

/-- The same wrong answers as the standard variant. -/
theorem C71_bch_last_wrong (h : BchOk X L TH) (aS aB : Nat)
    (h1 : 1 ≤ (Text.bits X).count true) (ho : ¬ Overflow X L TH aB) (hw : Text.LastWide (Text.bits X) L) (s : Bool) :
    ∃ x a, buildSelBch L TH aS aB (textOf X) = ok x ∧ Text.UpTo (Text.bits X) ((Text.bits X).count true / L * L) a ∧
      (∀ i, (Text.bits X).count true / L * L < i → i ≤ (Text.bits X).count true →
        selectBch s L TH x i = ok (a + (i - (Text.bits X).count true / L * L) - 1)) ∧
      ∃ p, selectBch s L TH x ((Text.bits X).count true) = ok p ∧
        ¬ IsSelect (Text.bits X) ((Text.bits X).count true - 1) p := by
  have hn := h.nbk
  obtain ⟨hr, a, ha1, ha2⟩ := hw
  have hw : Text.LastWide (Text.bits X) L := ⟨hr, a, ha1, ha2⟩
  unfold Overflow at ho
  simp only [← tot_count] at *
  rw [lastAt_iff h.pos h1] at ho
  rw [lastWide_iff h.pos h1] at hw
  obtain ⟨x, e, hx⟩ := (buildSelBch_cases (t := textOf X) (TH := TH) h.pos h.len60 h1 hn aS aB).1 ho
  have hbad := (selectBch_ok h.pos h.small h.thr hn h.len60 hx).bad s
  have hdm := Nat.div_add_mod (tot (textOf X)) L
  have hml := Nat.mod_lt (tot (textOf X)) h.pos
  rw [Nat.mul_comm] at hdm
  have hae : a = en (textOf X) L (tot (textOf X) / L) := by
    have := upTo_en (X := X) (L := L) (m := tot (textOf X) / L) (e := a) h.pos h1
    rw [ob_full (Nat.le_refl _)] at this
    exact this.1 ha1
  refine ⟨x, a, e, ha1, fun i hi1 hi2 => ?_, _, hbad _ (Nat.le_refl _) hw (by omega), ?_⟩
  · rw [hbad i hi2 hw hi1, hae]
  · rw [isSelect_sel X h1 (Nat.le_refl _), ← hae]
    rw [upTo_iff (Nat.le_refl _), if_neg (by omega)] at ha2
    omega

/-- One one at the end of 16 bytes. -/
theorem wideText : BchOk (List.replicate 15 0#8 ++ [1#8]) 128 4096 ∧
    1 ≤ (Text.bits (List.replicate 15 0#8 ++ [1#8])).count true ∧
    ¬ Overflow (List.replicate 15 0#8 ++ [1#8]) 128 4096 64 ∧
    Text.LastWide (Text.bits (List.replicate 15 0#8 ++ [1#8])) 128 := by
  have hc : (Text.bits (List.replicate 15 0#8 ++ [1#8])).count true = 1 := by decide +kernel
  refine ⟨⟨by decide, by decide, by decide, by decide, by decide, by rw [hc]; decide⟩, by rw [hc]; decide, ?_,
    by rw [hc]; decide, 0, ?_, ?_⟩
  · unfold Overflow Text.LastAt; rw [hc]; decide +kernel
  · rw [hc]; decide +kernel
  · rw [hc]; decide +kernel

example : ∃ x p, buildSelBch 128 4096 64 64 (textOf (List.replicate 15 0#8 ++ [1#8])) = ok x ∧
    selectBch true 128 4096 x 1 = ok p ∧ ¬ IsSelect (Text.bits (List.replicate 15 0#8 ++ [1#8])) 0 p := by
  have hc : (Text.bits (List.replicate 15 0#8 ++ [1#8])).count true = 1 := by decide +kernel
  obtain ⟨w1, w2, w3, w4⟩ := wideText
  obtain ⟨x, -, e, -, -, p, h⟩ := C71_bch_last_wrong w1 64 64 w2 w3 w4 true
  rw [hc] at h
  exact ⟨x, p, e, h⟩

theorem C71_bch_overflow (h : BchOk X L TH) (aS aB : Nat)
    (h1 : 1 ≤ (Text.bits X).count true) (ho : Overflow X L TH aB) : buildSelBch L TH aS aB (textOf X) = ub .oob := by
  have hn := h.nbk
  unfold Overflow at ho
  simp only [← tot_count] at *
  rw [lastAt_iff h.pos h1] at ho
  exact (buildSelBch_cases (t := textOf X) (TH := TH) h.pos h.len60 h1 hn aS aB).2 ho

example : buildSelBch 128 4096 0 16 (textOf overText) = ub .oob := by
  have hc : (Text.bits overText).count true = 81 := by decide +kernel
  exact C71_bch_overflow ⟨by decide, by decide, by decide, by decide, by decide, by rw [hc]; decide⟩ 0 16
    overText_over.1 overText_over.2

/-- Without a one, `build` writes one zero byte less than the text has bytes, though it has counted
none: beyond its array as soon as the text has 130 bytes. -/
theorem C71_bch_no_ones (hL : 1 ≤ L) (hTH : L < TH) (hlen : X.length < 2 ^ 57) (aS aB : Nat)
    (h0 : (Text.bits X).count true = 0) :
    (X.length ≤ roomBytes aB + 1 → ∃ x, buildSelBch L TH aS aB (textOf X) = ok x) ∧
    (roomBytes aB + 1 < X.length → buildSelBch L TH aS aB (textOf X) = ub .oob) :=
  buildSelBch_none hL (show 1 ≤ TH by omega) (lt57 hlen) (by rw [tot_count]; exact h0) aS aB

example (aS aB : Nat) : buildSelBch 128 4096 aS aB (textOf (List.replicate 130 0#8)) = ub .oob :=
  (C71_bch_no_ones (by decide) (by decide) (by decide) aS aB (by decide +kernel)).2
    (by have := roomBytes_pos aB; rw [List.length_replicate]; omega)

theorem C71_bch_zero (h : BchOk X L TH) (aS aB : Nat)
    (h1 : 1 ≤ (Text.bits X).count true) (ho : ¬ Overflow X L TH aB) :
    ∃ x, buildSelBch L TH aS aB (textOf X) = ok x ∧ ∀ s, selectBch s L TH x 0 = ok (2 ^ 64 - 1) := by
  have hn := h.nbk
  unfold Overflow at ho
  simp only [← tot_count] at *
  rw [lastAt_iff h.pos h1] at ho
  obtain ⟨x, e, hx⟩ := (buildSelBch_cases (t := textOf X) (TH := TH) h.pos h.len60 h1 hn aS aB).1 ho
  exact ⟨x, e, fun s => selectBch_zero hx s⟩

example : ∃ x, buildSelBch 4 12 64 64 (textOf sampleOnes) = ok x ∧ selectBch true 4 12 x 0 = ok (2 ^ 64 - 1) := by
  have hc : (Text.bits sampleOnes).count true = 10 := by decide +kernel
  obtain ⟨x, e, h⟩ := C71_bch_zero sampleBch 64 64
    (by rw [hc]; decide) (by unfold Overflow Text.LastAt; rw [hc]; decide)
  exact ⟨x, e, h true⟩

/-- So the full claim is false, for the parameters that the benchmark uses. -/
theorem C71_bch_select_false : ¬ ∀ (X : List (BitVec 8)) (aS aB : Nat), BchOk X 128 4096 →
    1 ≤ (Text.bits X).count true →
    ∃ x, buildSelBch 128 4096 aS aB (textOf X) = ok x ∧ ∀ i, 1 ≤ i → i ≤ (Text.bits X).count true →
      ∃ p, selectBch false 128 4096 x i = ok p ∧ IsSelect (Text.bits X) (i - 1) p := by
  intro h
  obtain ⟨w1, w2, w3, w4⟩ := wideText
  obtain ⟨x, e, hx⟩ := h _ 64 64 w1 w2
  obtain ⟨x', -, e', -, -, p, hp, hn⟩ := C71_bch_last_wrong w1 64 64 w2 w3 w4 false
  rw [e] at e'
  injection e' with e'
  subst e'
  obtain ⟨p', hp', hs⟩ := hx _ w2 (Nat.le_refl _)
  rw [hp] at hp'
  injection hp' with hp'
  subst hp'
  exact hn hs

/-! ## C72: sizes, and the wrapper -/

/-- `getSize()` of the standard variant: 16 bytes for each group of `L` ones, and `bitsLen` bytes.  It is
2088 less than what the object takes, and 2216 less when nothing is stored. -/
theorem C72_std_size (hL : 1 ≤ L) (hlen : X.length < 2 ^ 57) (aS aB : Nat)
    (h1 : 1 ≤ (Text.bits X).count true) (ho : ¬ Overflow X L TH aB) :
    ∃ x, buildSel L TH aS aB (textOf X) = ok x ∧
      x.bytes = 184 + 16 * (((Text.bits X).count true + (L - 1)) / L) + (if x.bitsLen = 0 then 0 else x.bitsLen + 128) ∧
      x.bytes + (if x.bitsLen = 0 then 2216 else 2088) = x.taken ∧
      ∀ c, 1 ≤ c → 64 * (L - 1) ≤ c * TH →
        x.bitsLen ≤ c * X.length + ((Text.bits X).count true + (L - 1)) / L := by
  unfold Overflow at ho
  simp only [← tot_count] at *
  rw [lastAt_iff hL h1] at ho
  obtain ⟨x, e, hx⟩ := (buildSel_cases (t := textOf X) (TH := TH) hL (lt57 hlen) h1 aS aB).1 ho
  refine ⟨x, e, ?_, ?_, fun c hc h => ?_⟩
  · unfold Select.bytes
    rw [hx.selLen, nbk_ceil hL]
    split <;> split <;> split <;> omega
  · unfold Select.bytes Select.taken
    rw [hx.selLen, nbk_ceil hL]
    split <;> split <;> split <;> omega
  · rw [hx.bl, ← nbk_ceil hL]
    exact bitsLen_le hL hc h

/-- The benchmark's parameters: two bytes for each byte of the text. -/
example : ∃ x, buildSel 128 4096 64 64 (textOf sampleOnes) = ok x ∧ x.bitsLen ≤ 11 := by
  have hc : (Text.bits sampleOnes).count true = 10 := by decide +kernel
  obtain ⟨x, e, -, -, h⟩ := C72_std_size (X := sampleOnes) (L := 128) (TH := 4096) (by decide) (by decide) 64 64
    (by rw [hc]; decide) (by rintro ⟨-, h⟩; rw [hc] at h; exact absurd h (by decide))
  refine ⟨x, e, ?_⟩
  have := h 2 (by decide) (by decide)
  rw [hc] at this
  exact this

/-- `getSize()` of the compressed headers: 21 words for each 16 groups. -/
theorem C72_bch_size (h : BchOk X L TH) (aS aB : Nat)
    (h1 : 1 ≤ (Text.bits X).count true) (ho : ¬ Overflow X L TH aB) :
    ∃ x, buildSelBch L TH aS aB (textOf X) = ok x ∧
      x.bytes = 168 + 168 * (((Text.bits X).count true + (L - 1)) / L / 16 + 1) +
        (if x.bitsLen = 0 then 0 else x.bitsLen + 128) ∧
      x.bytes + (if x.bitsLen = 0 then 2216 else 2088) = x.taken ∧
      ∀ c, 1 ≤ c → 64 * (L - 1) ≤ c * TH →
        x.bitsLen ≤ c * X.length + ((Text.bits X).count true + (L - 1)) / L := by
  have hn := h.nbk
  unfold Overflow at ho
  simp only [← tot_count] at *
  rw [lastAt_iff h.pos h1] at ho
  obtain ⟨x, e, hx⟩ := (buildSelBch_cases (t := textOf X) (TH := TH) h.pos h.len60 h1 hn aS aB).1 ho
  refine ⟨x, e, ?_, ?_, fun c hc h' => ?_⟩
  · unfold Select.bytes
    rw [hx.selLen, nbk_ceil h.pos]
    generalize (tot (textOf X) + (L - 1)) / L = k
    split <;> split <;> split <;> omega
  · unfold Select.bytes Select.taken
    rw [hx.selLen, nbk_ceil h.pos]
    generalize (tot (textOf X) + (L - 1)) / L = k
    split <;> split <;> split <;> omega
  · rw [hx.bl, ← nbk_ceil h.pos]
    exact bitsLen_le h.pos hc h'

example : ∃ x, buildSelBch 4 12 64 64 (textOf sampleOnes) = ok x ∧ x.bitsLen ≤ 83 := by
  have hc : (Text.bits sampleOnes).count true = 10 := by decide +kernel
  obtain ⟨x, e, -, -, h⟩ := C72_bch_size sampleBch 64 64
    (by rw [hc]; decide) (by unfold Overflow Text.LastAt; rw [hc]; decide)
  refine ⟨x, e, ?_⟩
  have := h 16 (by decide) (by decide)
  rw [hc] at this
  exact this

/-- The wrapper's `select(q)`, `q ≥ 1`, is in the byte of the one that the library calls `q - 1`. -/
theorem C72_wrapper_select_partial (ws : List (BitVec 64)) (hL : 1 ≤ L) (hlen : ws.length < 2 ^ 54) (aS aB : Nat)
    (h1 : 1 ≤ (Text.bits (Text.bytesOf ws)).count true) (ho : ¬ Overflow (Text.bytesOf ws) L TH aB)
    (hw : ¬ Text.LastWide (Text.bits (Text.bytesOf ws)) L) :
    ∃ x, buildSel L TH aS aB (wordBytes (Vec.ofList ws)) = ok x ∧ ∀ q p', 1 ≤ q → IsSelect (bitsOf ws) (q - 1) p' →
      q ≤ (Text.bits (Text.bytesOf ws)).count true →
      ∃ p, selectStd false L TH x q = ok p ∧ p / 8 = p' / 8 := by
  rw [wordBytes_textOf]
  obtain ⟨x, e, h⟩ := C70_std_select_partial (X := Text.bytesOf ws) hL (by rw [bytesOf_length]; omega) aS aB h1 ho
  refine ⟨x, e, fun q p' hq hp' hq2 => ?_⟩
  obtain ⟨p, hp, hs⟩ := h q hq hq2 (fun hh => hw hh.1)
  exact ⟨p, hp, same_byte hs hp'⟩

example : ∃ x, buildSel 2 8 64 64 (wordBytes (Vec.ofList [0x0101#64])) = ok x ∧
    ∃ p, selectStd false 2 8 x 2 = ok p ∧ p / 8 = 1 := by
  have hc : (Text.bits (Text.bytesOf [0x0101#64])).count true = 2 := by decide +kernel
  obtain ⟨x, e, h⟩ := C72_wrapper_select_partial [0x0101#64] (L := 2) (TH := 8) (by decide) (by decide) 64 64
    (by rw [hc]; decide) (by unfold Overflow Text.LastAt; rw [hc]; decide) (by unfold Text.LastWide; rw [hc]; simp)
  exact ⟨x, e, h 2 8 (by decide) ⟨by decide +kernel, by decide +kernel⟩ (by rw [hc]; decide)⟩

/-- It is not what the library's `select` answers, which counts from zero and from the least significant
bit: for the word 1 the library says 0, the wrapper `2^64 - 1` for 0 and 7 for 1. -/
theorem C72_wrapper_select_false : ∃ x, buildSel 128 4096 64 64 (wordBytes (Vec.ofList [1#64])) = ok x ∧
    IsSelect (bitsOf [1#64]) 0 0 ∧ selectStd false 128 4096 x 0 = ok (2 ^ 64 - 1) ∧ selectStd false 128 4096 x 1 = ok 7 := by
  refine ⟨_, rfl, ⟨?_, ?_⟩, ?_, ?_⟩ <;> decide +kernel

end MRS.Props
