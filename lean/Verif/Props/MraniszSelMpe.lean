import Verif.Proofs.Mranisz.SelMpeLink
import Verif.Props.MraniszFile

/-!
# Properties of the compressed select that leaves out pairs (`SelectMPE64`), C79-C82

`X` is the text, `ty` one of `SELECT_MPE1`, `SELECT_MPE2`, `SELECT_MPE3` (the types of the rank are used for them);
`aS`, `aB` are the addresses that `new[]` returns; `L`, `TH` the template parameters `L`, `THRESHOLD`.  `build` and
`select` read memory that was never written: `blockToCompress` beyond the blocks that it has values for, and the
byte after the last one of `bits`.  `⟨some f, some h⟩` says that these reads give the values `f`, `h`; with `none` they
are undefined.  The argument of `selectMpe` after the type says whether reading eight bytes at an address that is not
a multiple of 8 is undefined.
-/

set_option autoImplicit false
set_option maxRecDepth 8192

namespace MRS.Props
open MRS.Mran Outcome Spec

variable {X : List (BitVec 8)} {ty : MpeType} {L TH : Nat}

/-- Parameters that the constructor accepts, select.hpp lines 4356-4381. -/
def MpeAccepts (ty : MpeType) (L TH : Nat) : Prop :=
  L < TH ∧ if ty = .mpe1 then 8 * (L - 1) ≤ 32767 / 15 ∧ TH - 1 ≤ 8 * (32767 / 15)
    else 8 * (L - 1) ≤ 16383 / 15 ∧ TH - 1 ≤ 8 * (16383 / 15)

/-- Parameters for which the positions of four groups fit the twelve bits that `SELECT_MPE2` and `SELECT_MPE3` read for
the fifth. -/
def MpeNarrow (ty : MpeType) (L : Nat) : Prop := ty = .mpe1 ∨ L ≤ 128

instance (ty : MpeType) (L TH : Nat) : Decidable (MpeAccepts ty L TH) := by unfold MpeAccepts; infer_instance

instance (ty : MpeType) (L : Nat) : Decidable (MpeNarrow ty L) := by unfold MpeNarrow; infer_instance

structure SelMpeOk (ty : MpeType) (X : List (BitVec 8)) (L TH : Nat) : Prop where
  pos : 1 ≤ L
  acc : MpeAccepts ty L TH
  nar : MpeNarrow ty L
  len : X.length < 2 ^ 57

theorem SelMpeOk.lt (h : SelMpeOk ty X L TH) : L < TH := h.acc.1

theorem SelMpeOk.fits (h : SelMpeOk ty X L TH) : FitsS ty (textOf X) L TH := by
  refine fitsS h.pos ?_
  obtain ⟨h1, h2⟩ := h.acc
  unfold FitsPar lim
  by_cases h4 : ty = .mpe1
  · rw [if_pos h4] at h2 ⊢
    omega
  · have := h.nar.resolve_left h4
    rw [if_neg h4] at h2 ⊢
    omega

/-- The parameters that the benchmark uses. -/
theorem selMpe_shipped (ty : MpeType) (h : X.length < 2 ^ 57) : SelMpeOk ty X 128 4096 := by
  refine ⟨by decide, ?_, ?_, h⟩ <;> cases ty <;> decide

/-- A byte of `blockToCompress` that means a block without pairs left out. -/
def Quiet (ty : MpeType) (b : BitVec 8) : Prop := if ty = .mpe1 then b = 0#8 else b.toNat % 4 = 0

instance (ty : MpeType) (b : BitVec 8) : Decidable (Quiet ty b) := by unfold Quiet; infer_instance

theorem quiet_kq {b : BitVec 8} (h : Quiet ty b) : kq ty b = 0 := by
  unfold Quiet at h
  unfold kq
  by_cases hty : ty = .mpe1
  · rw [if_pos hty] at h ⊢
    rw [if_neg (fun hh => hh h)]
  · rw [if_neg hty] at h ⊢
    exact h

/-- The query does not depend on the value `f` found in `blockToCompress` for a complete last group. -/
def FlagOk (ty : MpeType) (X : List (BitVec 8)) (L : Nat) (f : Nat → BitVec 8) (i : Nat) : Prop :=
  (Text.bits X).count true % L > 0 ∨ i + L ≤ (Text.bits X).count true ∨ i % L = 0 ∨
    Quiet ty (f ((Text.bits X).count true / L - 1))

theorem flagOk {f : Nat → BitVec 8} {i : Nat} (hL : 1 ≤ L) (hit : i ≤ tot (textOf X)) (h : FlagOk ty X L f i) (hi : i % L ≠ 0) :
    FlagRight ty (textOf X) L TH f (i / L) := by
  unfold FlagOk at h
  rw [← tot_count] at h
  have hb := (block_of hL hi hit).1
  apply flagRight
  by_cases h2 : i / L + 1 < nbk (textOf X) L
  · exact Or.inl h2
  · have h3 : i / L + 1 = nbk (textOf X) L := by omega
    right
    refine ⟨h3, ?_⟩
    rcases h with h | h | h | h
    · exact Or.inl h
    · exfalso
      have h4 : i / L + 1 ≤ tot (textOf X) / L := by
        rw [Nat.le_div_iff_mul_le hL, Nat.add_mul, Nat.one_mul]
        have := Nat.div_mul_le_self i L
        omega
      have h5 : tot (textOf X) % L = 0 := by
        refine Nat.eq_zero_of_not_pos (fun hp => ?_)
        have : nbk (textOf X) L = tot (textOf X) / L + 1 := by unfold nbk; rw [if_pos hp]
        omega
      have h6 : nbk (textOf X) L = tot (textOf X) / L := by unfold nbk; rw [if_neg (by omega), Nat.add_zero]
      have h7 := Nat.div_add_mod (tot (textOf X)) L
      have h8 := Nat.div_add_mod i L
      rw [Nat.mul_comm, h5, ← h6, ← h3, Nat.add_mul, Nat.one_mul] at h7
      rw [Nat.mul_comm] at h8
      omega
    · exact absurd h hi
    · by_cases hr : tot (textOf X) % L > 0
      · exact Or.inl hr
      · right
        have h6 : nbk (textOf X) L = tot (textOf X) / L := by unfold nbk; rw [if_neg hr, Nat.add_zero]
        rw [h6] at h3
        rw [← h3, Nat.add_sub_cancel] at h
        exact quiet_kq h

theorem short_of (hL : 1 ≤ L) (h1 : 1 ≤ tot (textOf X)) {aB : Nat} : Overflow X L TH aB ↔ Short (textOf X) L TH aB := by
  unfold Overflow Short
  rw [lastAt_iff hL h1, tot_count]

/-- 32 zero bytes and two groups of two ones, with `L = 2`. -/
def pairText : List (BitVec 8) := List.replicate 32 0#8 ++ [0x10#8] ++ List.replicate 5 0#8 ++ [0xE0#8]

theorem pair_count : (Text.bits pairText).count true = 4 := by decide +kernel

theorem pair_ok (ty : MpeType) : SelMpeOk ty pairText 2 512 := by
  refine ⟨by decide, ?_, ?_, by decide⟩ <;> cases ty <;> decide

theorem pair_over (aB : Nat) : ¬ Overflow pairText 2 512 aB := by
  rintro ⟨⟨h, -⟩, -⟩
  rw [pair_count] at h
  exact absurd h (by decide)

/-! ## C79: answers -/

/-- Right for every one of a complete group, and of the last group unless it is `LastWide`, if memory has a quiet value
for the flag of a complete last group.  Missing from the full claim: texts without ones (`C80_mpe_no_ones`), `Overflow`
(`C80_mpe_overflow`), a wide last group (`C79_mpe_last_wrong`), another value of that flag (`C79_mpe_flag_wrong`),
memory that may not be read before it is written (C80), and larger parameters that the constructor accepts
(`C81_mpe_narrow`). -/
theorem C79_mpe_select_partial (h : SelMpeOk ty X L TH) (aS aB : Nat) (f v : Nat → BitVec 8)
    (h1 : 1 ≤ (Text.bits X).count true) (ho : ¬ Overflow X L TH aB) :
    ∃ x, buildSelMpe ty L TH aS aB ⟨some f, some v⟩ (textOf X) = ok x ∧ ∀ i, 1 ≤ i → i ≤ (Text.bits X).count true →
      ¬ (Text.LastWide (Text.bits X) L ∧ (Text.bits X).count true / L * L < i) → FlagOk ty X L f i →
      ∃ p, selectMpe ty false L TH x i = ok p ∧ IsSelect (Text.bits X) (i - 1) p := by
  rw [← tot_count] at *
  rw [short_of h.pos h1] at ho
  obtain ⟨x, e, hx⟩ := (buildSelMpe_cases ty (TH := TH) h.pos h.len h1 aS aB ⟨some f, some v⟩).1 f rfl ho
  refine ⟨x, e, fun i hi1 hi2 hb hf => ?_⟩
  rw [lastWide_iff h.pos h1] at hb
  have := (selectMpe_ok h.pos h.len hx h.fits false hi1 hi2).1 hb (flagOk h.pos hi2 hf)
  rw [outS_known h.pos hx] at this
  exact ⟨_, this, (isSelect_sel X hi1 hi2).2 rfl⟩

example (ty : MpeType) (f v : Nat → BitVec 8) :
    ∃ x, buildSelMpe ty 2 512 64 64 ⟨some f, some v⟩ (textOf pairText) = ok x ∧ selectMpe ty false 2 512 x 1 = ok 259 := by
  obtain ⟨x, e, h⟩ := C79_mpe_select_partial (pair_ok ty) 64 64 f v (by rw [pair_count]; decide) (pair_over 64)
  obtain ⟨p, hp, hs⟩ := h 1 (by decide) (by rw [pair_count]; decide)
    (by rw [pair_count]; rintro ⟨-, h⟩; exact absurd h (by decide)) (Or.inr (Or.inl (by rw [pair_count]; decide)))
  rw [isSelect_sel pairText (i := 1) (by decide) (by rw [tot_count, pair_count]; decide)] at hs
  refine ⟨x, e, ?_⟩
  rw [hp, hs]
  exact congrArg ok (by decide +kernel)

/-- With loads that must be aligned, the same queries give the same answer or a misaligned load. -/
theorem C79_mpe_select_strict (h : SelMpeOk ty X L TH) (aS aB : Nat) (f v : Nat → BitVec 8)
    (h1 : 1 ≤ (Text.bits X).count true) (ho : ¬ Overflow X L TH aB) :
    ∃ x, buildSelMpe ty L TH aS aB ⟨some f, some v⟩ (textOf X) = ok x ∧ ∀ i, 1 ≤ i → i ≤ (Text.bits X).count true →
      ¬ (Text.LastWide (Text.bits X) L ∧ (Text.bits X).count true / L * L < i) → FlagOk ty X L f i →
      selectMpe ty true L TH x i = ub .misaligned ∨
        ∃ p, selectMpe ty true L TH x i = ok p ∧ IsSelect (Text.bits X) (i - 1) p := by
  rw [← tot_count] at *
  rw [short_of h.pos h1] at ho
  obtain ⟨x, e, hx⟩ := (buildSelMpe_cases ty (TH := TH) h.pos h.len h1 aS aB ⟨some f, some v⟩).1 f rfl ho
  refine ⟨x, e, fun i hi1 hi2 hb hf => ?_⟩
  rw [lastWide_iff h.pos h1] at hb
  have := (selectMpe_ok h.pos h.len hx h.fits true hi1 hi2).1 hb (flagOk h.pos hi2 hf)
  rcases outS_cases h.pos hx true (i := i) with hc | ⟨-, hc⟩ | ⟨hc, -⟩
  · rw [hc] at this
    exact Or.inr ⟨_, this, (isSelect_sel X hi1 hi2).2 rfl⟩
  · rw [hc] at this
    exact Or.inl this
  · cases hc

example (ty : MpeType) (f v : Nat → BitVec 8) : ∃ x, buildSelMpe ty 2 512 64 64 ⟨some f, some v⟩ (textOf pairText) = ok x ∧
    (selectMpe ty true 2 512 x 1 = ub .misaligned ∨
      ∃ p, selectMpe ty true 2 512 x 1 = ok p ∧ IsSelect (Text.bits pairText) 0 p) := by
  obtain ⟨x, e, h⟩ := C79_mpe_select_strict (pair_ok ty) 64 64 f v (by rw [pair_count]; decide) (pair_over 64)
  exact ⟨x, e, h 1 (by decide) (by rw [pair_count]; decide)
    (by rw [pair_count]; rintro ⟨-, h⟩; exact absurd h (by decide)) (Or.inr (Or.inl (by rw [pair_count]; decide)))⟩

/-- Both cases occur: a wide group after a block of one byte, and the second one of a text. -/
theorem C79_mpe_misaligned (ty : MpeType) : ∃ x, buildSelMpe ty 2 8 64 64 ⟨some (fun _ => 0#8), none⟩
      (textOf [0xA0#8, 0#8, 0x60#8]) = ok x ∧
    selectMpe ty true 2 8 x 3 = ub .misaligned ∧ selectMpe ty false 2 8 x 3 = ok 17 ∧ selectMpe ty true 2 8 x 1 = ok 0 := by
  cases ty <;> refine ⟨_, rfl, ?_, ?_, ?_⟩ <;> decide +kernel

/-- A last group with fewer than `L` ones that takes `L` bits is read as if it were all ones; its last
one is always answered wrongly. -/
theorem C79_mpe_last_wrong (h : SelMpeOk ty X L TH) (aS aB : Nat) (f : Nat → BitVec 8) (v : Option (Nat → BitVec 8))
    (h1 : 1 ≤ (Text.bits X).count true) (ho : ¬ Overflow X L TH aB) (hw : Text.LastWide (Text.bits X) L) (s : Bool) :
    ∃ x a, buildSelMpe ty L TH aS aB ⟨some f, v⟩ (textOf X) = ok x ∧
      Text.UpTo (Text.bits X) ((Text.bits X).count true / L * L) a ∧
      (∀ i, (Text.bits X).count true / L * L < i → i ≤ (Text.bits X).count true →
        selectMpe ty s L TH x i = ok (a + (i - (Text.bits X).count true / L * L) - 1)) ∧
      ∃ p, selectMpe ty s L TH x ((Text.bits X).count true) = ok p ∧
        ¬ IsSelect (Text.bits X) ((Text.bits X).count true - 1) p := by
  have hL := h.pos
  obtain ⟨hr, a, ha1, ha2⟩ := hw
  have hw : Text.LastWide (Text.bits X) L := ⟨hr, a, ha1, ha2⟩
  simp only [← tot_count] at *
  rw [short_of hL h1] at ho
  rw [lastWide_iff hL h1] at hw
  obtain ⟨x, e, hx⟩ := (buildSelMpe_cases ty (TH := TH) h.pos h.len h1 aS aB ⟨some f, v⟩).1 f rfl ho
  have hbad := fun i h2 h3 => (selectMpe_ok h.pos h.len hx h.fits s (i := i) h2 h3).2 hw
  have hdm := Nat.div_add_mod (tot (textOf X)) L
  have hml := Nat.mod_lt (tot (textOf X)) hL
  rw [Nat.mul_comm] at hdm
  have hae : a = en (textOf X) L (tot (textOf X) / L) := by
    have := upTo_en (X := X) (L := L) (m := tot (textOf X) / L) (e := a) hL h1
    rw [ob_full (Nat.le_refl _)] at this
    exact this.1 ha1
  refine ⟨x, a, e, ha1, fun i hi1 hi2 => ?_, _, hbad _ h1 (Nat.le_refl _) (by omega), ?_⟩
  · rw [hbad i (by omega) hi2 hi1, hae]
  · rw [isSelect_sel X h1 (Nat.le_refl _), ← hae]
    rw [upTo_iff (Nat.le_refl _), if_neg (by omega)] at ha2
    omega

/-- A single one at position 127. -/
def farOne : List (BitVec 8) := List.replicate 15 0#8 ++ [1#8]

theorem farOne_wide : (Text.bits farOne).count true = 1 ∧ (∀ aB, ¬ Overflow farOne 128 4096 aB) ∧
    Text.LastWide (Text.bits farOne) 128 := by
  have hc : (Text.bits farOne).count true = 1 := by decide +kernel
  refine ⟨hc, ?_, by rw [hc]; decide, 0, by rw [hc]; decide +kernel, by rw [hc]; decide +kernel⟩
  rintro aB ⟨⟨-, h⟩, -⟩
  rw [hc] at h
  exact absurd h (by decide +kernel)

example (ty : MpeType) (f : Nat → BitVec 8) : ∃ x, buildSelMpe ty 128 4096 64 64 ⟨some f, none⟩ (textOf farOne) = ok x ∧
    selectMpe ty true 128 4096 x 1 = ok 0 := by
  obtain ⟨hc, ho, hw⟩ := farOne_wide
  obtain ⟨x, a, e, ha, h, -⟩ := C79_mpe_last_wrong (selMpe_shipped ty (X := farOne) (by decide)) 64 64 f none
    (by rw [hc]; decide) (ho 64) hw true
  rw [hc] at h ha
  rw [upTo_iff (by rw [tot_count, hc]; decide), if_pos rfl] at ha
  refine ⟨x, e, ?_⟩
  rw [h 1 (by decide) (by decide), ha]

/-- What was in memory before `build` can decide how a complete last group is read: two ones in a byte, and
`select(1)` is not 1 but 0. -/
theorem C79_mpe_flag_wrong (ty : MpeType) : ∃ x, buildSelMpe ty 2 64 64 64 ⟨some (fun _ => 3#8), some (fun _ => 255#8)⟩
      (textOf [0x41#8]) = ok x ∧
    selectMpe ty false 2 64 x 1 = ok 0 ∧ IsSelect (Text.bits [0x41#8]) 0 1 := by
  cases ty <;> refine ⟨_, rfl, ?_, ⟨?_, ?_⟩⟩ <;> decide +kernel

/-- `select(0)` is the largest number. -/
theorem C79_mpe_zero (h : SelMpeOk ty X L TH) (aS aB : Nat) (f : Nat → BitVec 8) (v : Option (Nat → BitVec 8))
    (h1 : 1 ≤ (Text.bits X).count true) (ho : ¬ Overflow X L TH aB) :
    ∃ x, buildSelMpe ty L TH aS aB ⟨some f, v⟩ (textOf X) = ok x ∧ ∀ s, selectMpe ty s L TH x 0 = ok (2 ^ 64 - 1) := by
  rw [← tot_count] at *
  rw [short_of h.pos h1] at ho
  obtain ⟨x, e, hx⟩ := (buildSelMpe_cases ty (TH := TH) h.pos h.len h1 aS aB ⟨some f, v⟩).1 f rfl ho
  exact ⟨x, e, fun s => selectMpe_zero h.pos h.len hx s⟩

example (ty : MpeType) (f : Nat → BitVec 8) : ∃ x, buildSelMpe ty 2 512 64 64 ⟨some f, none⟩ (textOf pairText) = ok x ∧
    selectMpe ty true 2 512 x 0 = ok (2 ^ 64 - 1) := by
  obtain ⟨x, e, h⟩ := C79_mpe_zero (pair_ok ty) 64 64 f none (by rw [pair_count]; decide) (pair_over 64)
  exact ⟨x, e, h true⟩

/-- So the full claim is false, for the parameters that the benchmark uses and whatever memory holds. -/
theorem C79_mpe_select_false (ty : MpeType) (f v : Nat → BitVec 8) : ¬ ∀ (X : List (BitVec 8)) (aS aB : Nat),
    X.length < 2 ^ 57 → 1 ≤ (Text.bits X).count true →
    ∃ x, buildSelMpe ty 128 4096 aS aB ⟨some f, some v⟩ (textOf X) = ok x ∧ ∀ i, 1 ≤ i → i ≤ (Text.bits X).count true →
      ∃ p, selectMpe ty false 128 4096 x i = ok p ∧ IsSelect (Text.bits X) (i - 1) p := by
  intro h
  obtain ⟨hc, ho, hw⟩ := farOne_wide
  obtain ⟨x, e, hx⟩ := h farOne 64 64 (by decide) (by rw [hc]; decide)
  obtain ⟨x', a, e', -, -, p, hp, hn⟩ := C79_mpe_last_wrong (selMpe_shipped ty (X := farOne) (by decide)) 64 64 f (some v)
    (by rw [hc]; decide) (ho 64) hw false
  rw [e] at e'
  injection e' with e'
  subst e'
  obtain ⟨p', hp', hs⟩ := hx _ (by rw [hc]; decide) (Nat.le_refl _)
  rw [hp] at hp'
  injection hp' with hp'
  subst hp'
  exact hn hs

/-! ## C80: memory that was not written -/

/-- `build` reads flags that were not written, for every text with ones that fits: the flag of a complete last group,
or a flag of a block that does not exist. -/
theorem C80_mpe_build_unwritten (ty : MpeType) (hL : 1 ≤ L) (hlen : X.length < 2 ^ 57) (aS aB : Nat)
    (v : Option (Nat → BitVec 8)) (h1 : 1 ≤ (Text.bits X).count true) :
    buildSelMpe ty L TH aS aB ⟨none, v⟩ (textOf X) = ub (if (Text.bits X).count true % L = 0 then .uninit else .oob) := by
  rw [← tot_count] at *
  exact (buildSelMpe_cases ty (TH := TH) hL hlen h1 aS aB ⟨none, v⟩).2.2 rfl

example (ty : MpeType) : buildSelMpe ty 2 512 64 64 ⟨none, none⟩ (textOf pairText) = ub .uninit :=
  (C80_mpe_build_unwritten ty (by decide) (by decide) 64 64 none (by rw [pair_count]; decide)).trans
    (congrArg ub (by rw [pair_count]; decide))

/-- Without a one, `blockToCompress` has no entries and its first is read or written. -/
theorem C80_mpe_no_ones (ty : MpeType) (hL : 1 ≤ L) (hlen : X.length < 2 ^ 57) (aS aB : Nat) (g : JunkS)
    (h0 : (Text.bits X).count true = 0) : buildSelMpe ty L TH aS aB g (textOf X) = ub .oob :=
  buildSelMpe_none ty hL (lt57 hlen) (by rw [tot_count]; exact h0) aS aB g

example (ty : MpeType) (g : JunkS) : buildSelMpe ty 128 4096 64 64 g (textOf [0#8, 0#8]) = ub .oob :=
  C80_mpe_no_ones ty (by decide) (by decide) 64 64 g (by decide)

/-- `build` writes beyond its array in the same case as `SelectBasic64` (C70). -/
theorem C80_mpe_overflow (ty : MpeType) (hL : 1 ≤ L) (hlen : X.length < 2 ^ 57) (aS aB : Nat) (g : JunkS)
    (h1 : 1 ≤ (Text.bits X).count true) (ho : Overflow X L TH aB) : buildSelMpe ty L TH aS aB g (textOf X) = ub .oob := by
  rw [← tot_count] at *
  rw [short_of hL h1] at ho
  exact (buildSelMpe_cases ty (TH := TH) hL hlen h1 aS aB g).2.1 ho

example (ty : MpeType) (g : JunkS) : buildSelMpe ty 128 4096 0 16 g (textOf overText) = ub .oob :=
  C80_mpe_overflow ty (by decide) (by decide) 0 16 g overText_over.1 overText_over.2

/-- If the flags can be read, queries need only bytes that were written, unless the last group takes `L` bits and so
has no bytes.  Missing: such texts (`C80_mpe_unwritten`). -/
theorem C80_mpe_written_partial (h : SelMpeOk ty X L TH) (hL : 2 ≤ L) (aS aB : Nat) (f : Nat → BitVec 8)
    (v : Option (Nat → BitVec 8)) (h1 : 1 ≤ (Text.bits X).count true) (ho : ¬ Overflow X L TH aB)
    (ht : ¬ Text.LastTight (Text.bits X) L) :
    ∃ x, buildSelMpe ty L TH aS aB ⟨some f, v⟩ (textOf X) = ok x ∧ ∀ i, 1 ≤ i → i ≤ (Text.bits X).count true →
      FlagOk ty X L f i →
      ∃ p, selectMpe ty false L TH x i = ok p ∧ IsSelect (Text.bits X) (i - 1) p := by
  rw [← tot_count] at *
  rw [short_of h.pos h1] at ho
  rw [tight_iff h.pos h1] at ht
  obtain ⟨x, e, hx⟩ := (buildSelMpe_cases ty (TH := TH) h.pos h.len h1 aS aB ⟨some f, v⟩).1 f rfl ho
  refine ⟨x, e, fun i hi1 hi2 hf => ?_⟩
  have hb : ¬ (Bad (textOf X) L ∧ tot (textOf X) / L * L < i) := by
    rintro ⟨⟨hr, hb⟩, -⟩
    apply ht
    unfold Tight
    have : nbk (textOf X) L - 1 = tot (textOf X) / L := by unfold nbk; rw [if_pos hr, Nat.add_sub_cancel]
    rw [this]
    exact hb
  have := (selectMpe_ok h.pos h.len hx h.fits false hi1 hi2).1 hb (flagOk h.pos hi2 hf)
  rw [outS_written hL h1 hx ht] at this
  exact ⟨_, this, (isSelect_sel X hi1 hi2).2 rfl⟩

/-- As `pairText`, with a last group of three bits. -/
def pairText2 : List (BitVec 8) := List.replicate 32 0#8 ++ [0x10#8] ++ List.replicate 5 0#8 ++ [0xD0#8]

example (ty : MpeType) : ∃ x, buildSelMpe ty 2 512 64 64 ⟨some (fun _ => 0#8), none⟩ (textOf pairText2) = ok x ∧
    selectMpe ty false 2 512 x 1 = ok 259 ∧ selectMpe ty false 2 512 x 3 = ok 305 := by
  have hc : (Text.bits pairText2).count true = 4 := by decide +kernel
  obtain ⟨x, e, h⟩ := C80_mpe_written_partial (X := pairText2) (ty := ty) (L := 2) (TH := 512)
    (by refine ⟨by decide, ?_, ?_, by decide⟩ <;> cases ty <;> decide) (by decide) 64 64 (fun _ => 0#8) none
    (by rw [hc]; decide) (by rintro ⟨⟨h, -⟩, -⟩; rw [hc] at h; exact absurd h (by decide))
    (by
      rintro ⟨a, h2, h3⟩
      rw [hc] at h2 h3
      have ha := (upTo_iff (X := pairText2) (by rw [tot_count, hc]; decide)).1 h2
      have : sel (textOf pairText2) 2 = 304 := by decide +kernel
      rw [if_neg (by decide), show (4 + (2 - 1)) / 2 * 2 - 2 = 2 from rfl, this] at ha
      subst ha
      exact absurd h3 (by decide +kernel))
  have hq : ∀ i, FlagOk ty pairText2 2 (fun _ => 0#8) i := fun i =>
    Or.inr (Or.inr (Or.inr (by cases ty <;> decide)))
  refine ⟨x, e, ?_, ?_⟩
  · obtain ⟨p, hp, hs⟩ := h 1 (by decide) (by rw [hc]; decide) (hq 1)
    rw [isSelect_sel pairText2 (i := 1) (by decide) (by rw [tot_count, hc]; decide)] at hs
    rw [hp, hs]
    exact congrArg ok (by decide +kernel)
  · obtain ⟨p, hp, hs⟩ := h 3 (by decide) (by rw [hc]; decide) (hq 3)
    rw [isSelect_sel pairText2 (i := 3) (by decide) (by rw [tot_count, hc]; decide)] at hs
    rw [hp, hs]
    exact congrArg ok (by decide +kernel)

/-- The byte after the last one is copied: undefined, if it may not be read (its value is not used). -/
theorem C80_mpe_unwritten (ty : MpeType) : ∃ x, buildSelMpe ty 2 512 64 64 ⟨some (fun _ => 0#8), none⟩ (textOf pairText) = ok x ∧
    selectMpe ty false 2 512 x 1 = ub .uninit ∧ IsSelect (Text.bits pairText) 0 259 := by
  cases ty <;> refine ⟨_, rfl, ?_, ⟨?_, ?_⟩⟩ <;> decide +kernel

/-! ## C81: parameters and sizes -/

/-- `SELECT_MPE2`, `SELECT_MPE3` with `129 ≤ L ≤ 137`: four groups of positions take more than the twelve bits that a
query reads, so for the fifth group of a superblock it answers with a one of the first. -/
theorem C81_mpe_narrow (hty : ty ≠ .mpe1) (hL : 129 ≤ L) (hL2 : L ≤ 137) (hTH : L < TH) (hlen : X.length < 2 ^ 57)
    (aS aB : Nat) (f : Nat → BitVec 8) (v : Option (Nat → BitVec 8))
    (hw : ∀ k, k < 5 → Text.GroupWide (Text.bits X) L TH k) (hn : 5 * L < (Text.bits X).count true) :
    ∃ x, buildSelMpe ty L TH aS aB ⟨some f, v⟩ (textOf X) = ok x ∧ ∀ s r, 1 ≤ r → 4 * (L - 129) + r < L →
      ∃ p, selectMpe ty s L TH x (4 * L + r) = ok p ∧ IsSelect (Text.bits X) (4 * (L - 129) + r - 1) p ∧
        ¬ IsSelect (Text.bits X) (4 * L + r - 1) p := by
  rw [← tot_count] at *
  have h1 : 1 ≤ tot (textOf X) := by omega
  have hfull : 5 ≤ tot (textOf X) / L := (Nat.le_div_iff_mul_le (by omega)).2 (by omega)
  have hnb : 5 < nbk (textOf X) L := by
    rw [nbk_ceil (by omega)]
    exact (Nat.le_div_iff_mul_le (by omega)).2 (by omega)
  have ho : ¬ Short (textOf X) L TH aB := fun h => by have := h.1.1; omega
  obtain ⟨x, e, hx⟩ := (buildSelMpe_cases ty (TH := TH) (by omega) hlen h1 aS aB ⟨some f, v⟩).1 f rfl ho
  refine ⟨x, e, fun s r hr hr2 => ⟨_, narrow hty hL hL2 (Nat.le_of_lt hTH) hlen hx
    (fun k hk => groupWide (by omega) h1 (by omega) (hw k hk)) hnb s hr hr2, ?_, ?_⟩⟩
  · exact (isSelect_sel X (by omega) (by omega)).2 rfl
  · intro hs
    have h2 := (isSelect_sel X (i := 4 * (L - 129) + r) (p := sel (textOf X) (4 * (L - 129) + r)) (by omega) (by omega)).2 rfl
    have := h2.2.symm.trans hs.2
    omega

/-- 700 ones, seven in each byte. -/
def wideGroups : List (BitVec 8) := List.replicate 100 0xFE#8

theorem wideGroups_wide : (Text.bits wideGroups).count true = 700 ∧
    ∀ k, k < 5 → Text.GroupWide (Text.bits wideGroups) 129 130 k := by
  refine ⟨by decide +kernel, fun k hk => ?_⟩
  have hk : k = 0 ∨ k = 1 ∨ k = 2 ∨ k = 3 ∨ k = 4 := by omega
  rcases hk with rfl | rfl | rfl | rfl | rfl
  · exact ⟨0, 147, by decide +kernel, by decide +kernel, by decide⟩
  · exact ⟨147, 294, by decide +kernel, by decide +kernel, by decide⟩
  · exact ⟨294, 442, by decide +kernel, by decide +kernel, by decide⟩
  · exact ⟨442, 589, by decide +kernel, by decide +kernel, by decide⟩
  · exact ⟨589, 737, by decide +kernel, by decide +kernel, by decide⟩

/-- The constructor accepts the parameters; `select(517)` gives the position of the first one. -/
example (f : Nat → BitVec 8) : MpeAccepts .mpe2 129 130 ∧
    ∃ x, buildSelMpe .mpe2 129 130 64 64 ⟨some f, none⟩ (textOf wideGroups) = ok x ∧
      selectMpe .mpe2 false 129 130 x 517 = ok 0 := by
  obtain ⟨hc, hw⟩ := wideGroups_wide
  obtain ⟨x, e, h⟩ := C81_mpe_narrow (ty := .mpe2) (X := wideGroups) (L := 129) (TH := 130) (by decide) (by decide) (by decide)
    (by decide) (by decide) 64 64 f none hw (by rw [hc]; decide)
  obtain ⟨p, hp, hs, -⟩ := h false 1 (by decide) (by decide)
  refine ⟨by decide, x, e, ?_⟩
  rw [isSelect_sel wideGroups (i := 1) (by decide) (by rw [tot_count, hc]; decide)] at hs
  rw [show 517 = 4 * 129 + 1 from rfl, hp, hs]
  exact congrArg ok (by decide +kernel)

/-- `getSize()`: 21 words for each 16 groups, and `bitsLen` bytes.  It is 2104 less than what the object takes, and 2232
less when nothing is stored.  `bitsLen` is at most that of `SelectBasic64`, with `SELECT_MPE3` at most
`2 * ((TH - 1) / 128 + 1) - 40` more for each group but the last; no type has less than `SELECT_MPE2`. -/
theorem C81_mpe_size (ty : MpeType) (hL : 1 ≤ L) (hlen : X.length < 2 ^ 57) (aS aB : Nat) (f : Nat → BitVec 8)
    (v : Option (Nat → BitVec 8)) (h1 : 1 ≤ (Text.bits X).count true) (ho : ¬ Overflow X L TH aB) :
    ∃ x x2 y, buildSelMpe ty L TH aS aB ⟨some f, v⟩ (textOf X) = ok x ∧
      buildSelMpe .mpe2 L TH aS aB ⟨some f, v⟩ (textOf X) = ok x2 ∧ buildSel L TH aS aB (textOf X) = ok y ∧
      x.bytesMpe = 320 + 168 * (((Text.bits X).count true + (L - 1)) / L / 16 + 1) +
        (if x.bitsLen = 0 then 0 else x.bitsLen + 128) ∧
      x.bytesMpe + (if x.bitsLen = 0 then 2232 else 2104) = x.takenMpe ∧
      x2.bitsLen ≤ x.bitsLen ∧
      x.bitsLen ≤ y.bitsLen + (if ty = .mpe3 then 2 * ((TH - 1) / 128 + 1) - 40 else 0) *
        (((Text.bits X).count true + (L - 1)) / L - 1) := by
  have ho' := ho
  unfold Overflow at ho'
  simp only [← tot_count] at *
  rw [lastAt_iff hL h1] at ho'
  rw [short_of hL h1] at ho
  obtain ⟨y, ey, hy⟩ := (buildSel_cases (t := textOf X) (TH := TH) hL (lt57 hlen) h1 aS aB).1 ho'
  obtain ⟨x, e, hx⟩ := (buildSelMpe_cases ty (TH := TH) hL hlen h1 aS aB ⟨some f, v⟩).1 f rfl ho
  obtain ⟨x2, e2, hx2⟩ := (buildSelMpe_cases .mpe2 (TH := TH) hL hlen h1 aS aB ⟨some f, v⟩).1 f rfl ho
  refine ⟨x, x2, y, e, e2, ey, ?_, ?_, ?_, ?_⟩
  · unfold Select.bytesMpe
    rw [hx.selLen, nbk_ceil hL]
    generalize (tot (textOf X) + (L - 1)) / L = k
    split <;> split <;> split <;> omega
  · unfold Select.bytesMpe Select.takenMpe
    rw [hx.selLen, nbk_ceil hL]
    generalize (tot (textOf X) + (L - 1)) / L = k
    split <;> split <;> split <;> omega
  · have h2 := hx.bl
    have h3 := hx2.bl
    have h4 := psum_best (t := textOf X) (L := L) (TH := TH) ty (nbk (textOf X) L)
    omega
  · have h2 := hx.bl
    have h3 := hy.bl
    have h4 := psum_grow (t := textOf X) (TH := TH) ty hL h1
    unfold grow at h4
    rw [nbk_ceil hL] at *
    omega

example : ∃ x y, buildSelMpe .mpe1 2 512 64 64 ⟨some (fun _ => 0#8), none⟩ (textOf pairText) = ok x ∧
    buildSel 2 512 64 64 (textOf pairText) = ok y ∧ x.bitsLen ≤ y.bitsLen ∧ x.bitsLen = 9 ∧ y.bitsLen = 39 := by
  obtain ⟨x, x2, y, e, -, ey, -, -, -, h⟩ := C81_mpe_size (X := pairText) (L := 2) (TH := 512) .mpe1 (by decide) (by decide)
    64 64 (fun _ => 0#8) none (by rw [pair_count]; decide) (pair_over 64)
  rw [if_neg (by decide), Nat.zero_mul, Nat.add_zero] at h
  refine ⟨x, y, e, ey, h, ?_, ?_⟩
  · have : ∃ z, buildSelMpe .mpe1 2 512 64 64 ⟨some (fun _ => 0#8), none⟩ (textOf pairText) = ok z ∧ z.bitsLen = 9 :=
      ⟨_, rfl, by decide +kernel⟩
    obtain ⟨z, ez, hz⟩ := this
    rw [e] at ez
    injection ez with ez
    rw [ez]; exact hz
  · have : ∃ z, buildSel 2 512 64 64 (textOf pairText) = ok z ∧ z.bitsLen = 39 := ⟨_, rfl, by decide +kernel⟩
    obtain ⟨z, ez, hz⟩ := this
    rw [ey] at ez
    injection ez with ez
    rw [ez]; exact hz

/-! ## C82: files -/

/-- The saved object and the one that is read back give the same result for every one, or the second is undefined; the
same if the last group does not take `L` bits.  If part of the only group was not saved, the last one cannot be
found any more.  A file that was cut is rejected. -/
theorem C82_mpe_file_partial (h : SelMpeOk ty X L TH) (aS aB : Nat) (f v : Nat → BitVec 8)
    (h1 : 1 ≤ (Text.bits X).count true) (ho : ¬ Overflow X L TH aB) :
    ∃ x, buildSelMpe ty L TH aS aB ⟨some f, some v⟩ (textOf X) = ok x ∧ ∃ F : File, (∀ w, x.save w = ok (w ++ F)) ∧ ∀ bS bB,
      (∃ y, (∀ w, Select.load bS bB (F ++ w) = ok (y, w)) ∧ y.textLen = X.length ∧ y.bytesMpe = x.bytesMpe ∧
        (¬ Unsaved X L TH → ∀ s i, 1 ≤ i → i ≤ (Text.bits X).count true → FlagOk ty X L f i →
          (selectMpe ty s L TH y i = selectMpe ty s L TH x i ∨ ∃ e, selectMpe ty s L TH y i = ub e) ∧
          (2 ≤ L → ¬ Text.LastTight (Text.bits X) L → selectMpe ty s L TH y i = selectMpe ty s L TH x i)) ∧
        (Unsaved X L TH → ∀ s, ∃ e, selectMpe ty s L TH y ((Text.bits X).count true) = ub e)) ∧
      ∀ k, k < F.length → Select.load bS bB (F.take k) = abort := by
  have hL := h.pos
  have hlen := h.len
  rw [← tot_count] at *
  rw [unsaved_iff hL h1, tight_iff hL h1]
  rw [short_of hL h1] at ho
  obtain ⟨x, e, hx⟩ := (buildSelMpe_cases ty (TH := TH) hL hlen h1 aS aB ⟨some f, some v⟩).1 f rfl ho
  have htl : x.textLen < W64 := by
    rw [hx.text]
    show X.length < W64
    simp only [W64]
    omega
  refine ⟨x, e, x.file, Select.save_ok hx.slen hx.blen, fun bS bB => ?_⟩
  have hld := sel_load htl (selMpe_fits hL hlen hx) (selMpe_bits hL hlen hx) bS bB
  refine ⟨⟨x.back bS bB, hld.1, hx.text, rfl, fun hl s i hi1 hi2 hf => ?_, fun hl s =>
    selMpe_lost hL (Nat.le_of_lt h.lt) hlen h1 hx hl bS bB s⟩, hld.2⟩
  have hy := selMpe_back hL h1 hx hl bS bB
  have hqx := selectMpe_ok hL hlen hx h.fits s hi1 hi2
  have hqy := selectMpe_ok hL hlen hy h.fits s hi1 hi2
  by_cases hb : Bad (textOf X) L ∧ tot (textOf X) / L * L < i
  · rw [hqx.2 hb.1 hb.2, hqy.2 hb.1 hb.2]
    exact ⟨Or.inl rfl, fun _ _ => rfl⟩
  · rw [hqx.1 hb (flagOk hL hi2 hf), hqy.1 hb (flagOk hL hi2 hf)]
    exact outS_same hL h1 hx hy s i

/-- Nothing is lost from a text with at least `L` ones whose last group does not take `L` bits. -/
theorem C82_mpe_many (h : SelMpeOk ty X L TH) (hL2 : 2 ≤ L) (aS aB bS bB : Nat) (f v : Nat → BitVec 8)
    (hm : L ≤ (Text.bits X).count true) (ht : ¬ Text.LastTight (Text.bits X) L) :
    ∃ x F y, buildSelMpe ty L TH aS aB ⟨some f, some v⟩ (textOf X) = ok x ∧ x.save [] = ok F ∧
      Select.load bS bB F = ok (y, []) ∧ ∀ s i, 1 ≤ i → i ≤ (Text.bits X).count true → FlagOk ty X L f i →
        selectMpe ty s L TH y i = selectMpe ty s L TH x i := by
  have hL := h.pos
  obtain ⟨x, e, F, h2, h3⟩ := C82_mpe_file_partial h aS aB f v (by omega) (fun h => by have := h.1.1; omega)
  obtain ⟨y, h4, -, -, h5, -⟩ := (h3 bS bB).1
  refine ⟨x, F, y, e, h2 [], ?_, fun s i hi1 hi2 hf => (h5 ?_ s i hi1 hi2 hf).2 hL2 ht⟩
  · have := h4 []
    rw [List.append_nil] at this
    exact this
  · rintro ⟨p, h, -⟩
    have := h.1
    omega

theorem pair2_loose : (Text.bits pairText2).count true = 4 ∧ ¬ Text.LastTight (Text.bits pairText2) 2 := by
  have hc : (Text.bits pairText2).count true = 4 := by decide +kernel
  refine ⟨hc, ?_⟩
  rintro ⟨a, h2, h3⟩
  rw [hc] at h2 h3
  have ha := (upTo_iff (X := pairText2) (by rw [tot_count, hc]; decide)).1 h2
  have : sel (textOf pairText2) 2 = 304 := by decide +kernel
  rw [if_neg (by decide), show (4 + (2 - 1)) / 2 * 2 - 2 = 2 from rfl, this] at ha
  subst ha
  exact absurd h3 (by decide +kernel)

theorem pair2_ok (ty : MpeType) : SelMpeOk ty pairText2 2 512 := by
  refine ⟨by decide, ?_, ?_, by decide⟩ <;> cases ty <;> decide

example (ty : MpeType) (f v : Nat → BitVec 8) :
    ∃ x F y, buildSelMpe ty 2 512 64 64 ⟨some f, some v⟩ (textOf pairText2) = ok x ∧ x.save [] = ok F ∧
      Select.load 16 32 F = ok (y, []) ∧ ∀ s, selectMpe ty s 2 512 y 1 = selectMpe ty s 2 512 x 1 := by
  obtain ⟨hc, ht⟩ := pair2_loose
  obtain ⟨x, F, y, e, h2, h3, h4⟩ := C82_mpe_many (pair2_ok ty) (by decide) 64 64 16 32 f v (by rw [hc]; decide) ht
  exact ⟨x, F, y, e, h2, h3, fun s => h4 s 1 (by decide) (by rw [hc]; decide) (Or.inr (Or.inl (by rw [hc]; decide)))⟩

/-- A single one in the first bit is found before saving, and not after. -/
theorem C82_mpe_lost (ty : MpeType) (f v : Nat → BitVec 8) :
    ∃ x F y, buildSelMpe ty 128 4096 64 64 ⟨some f, some v⟩ (textOf [0x80#8]) = ok x ∧ x.save [] = ok F ∧
      Select.load 64 64 F = ok (y, []) ∧ selectMpe ty false 128 4096 x 1 = ok 0 ∧
      ∃ e, selectMpe ty false 128 4096 y 1 = ub e := by
  obtain ⟨hc, ho, hu⟩ := unsaved_one
  have hs := selMpe_shipped ty (X := [0x80#8]) (by decide)
  obtain ⟨x, e, F, h2, h3⟩ := C82_mpe_file_partial hs 64 64 f v (by rw [hc]; decide) ho
  obtain ⟨y, h4, -, -, -, h5⟩ := (h3 64 64).1
  obtain ⟨x', e', h⟩ := C79_mpe_select_partial hs 64 64 f v (by rw [hc]; decide) ho
  rw [e] at e'
  injection e' with e'
  subst e'
  have h4 := h4 []
  rw [List.append_nil] at h4
  refine ⟨x, F, y, e, h2 [], h4, ?_, ?_⟩
  · obtain ⟨p, hp, hs⟩ := h 1 (by decide) (by rw [hc]; decide) (by
      rintro ⟨⟨-, a, h2, h3⟩, -⟩
      have ha := (upTo_iff (X := [0x80#8]) (by rw [tot_count, hc]; decide)).1 h2
      rw [hc, if_pos (by decide)] at ha
      subst ha
      rw [hc] at h3
      exact absurd h3 (by decide +kernel)) (Or.inl (by rw [hc]; decide))
    rw [isSelect_sel [0x80#8] (i := 1) (by decide) (by rw [tot_count, hc]; decide)] at hs
    rw [hp, hs]
    exact congrArg ok (by decide +kernel)
  · have := h5 hu false
    rw [hc] at this
    exact this

/-- As `pairText`, after a group of two bits. -/
def pairText3 : List (BitVec 8) := [0xC0#8] ++ List.replicate 31 0#8 ++ [0x04#8] ++ List.replicate 5 0#8 ++ [0x38#8]

/-- With a last group of `L` bits, the byte that a query reads behind the saved ones has no value after `load`. -/
theorem C82_mpe_unwritten (ty : MpeType) :
    ∃ x F y, buildSelMpe ty 2 512 64 64 ⟨some (fun _ => 0#8), some (fun _ => 0#8)⟩ (textOf pairText3) = ok x ∧
      x.save [] = ok F ∧ Select.load 64 64 F = ok (y, []) ∧ selectMpe ty false 2 512 x 3 = ok 261 ∧
      selectMpe ty false 2 512 y 3 = ub .uninit := by
  cases ty <;> refine ⟨_, _, _, rfl, rfl, rfl, ?_, ?_⟩ <;> decide +kernel

/-- So the full claim is false. -/
theorem C82_mpe_file_false (ty : MpeType) (f v : Nat → BitVec 8) : ¬ ∀ (X : List (BitVec 8)) (aS aB bS bB : Nat),
    X.length < 2 ^ 57 → 1 ≤ (Text.bits X).count true → ∀ x F y,
    buildSelMpe ty 128 4096 aS aB ⟨some f, some v⟩ (textOf X) = ok x → x.save [] = ok F →
    Select.load bS bB F = ok (y, []) → ∀ i p, 1 ≤ i → i ≤ (Text.bits X).count true →
      selectMpe ty false 128 4096 x i = ok p → selectMpe ty false 128 4096 y i = ok p := by
  intro h
  obtain ⟨x, F, y, h1, h2, h3, h4, e, h5⟩ := C82_mpe_lost ty f v
  have := h [0x80#8] 64 64 64 64 (by decide) (by decide +kernel) x F y h1 h2 h3 1 0 (by decide) (by decide +kernel) h4
  rw [h5] at this
  cases this

end MRS.Props
