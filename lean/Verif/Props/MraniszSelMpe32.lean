import Verif.Proofs.Mranisz.S32mLink
import Verif.Props.MraniszSelMpe
import Verif.Props.MraniszSelect32

/-!
# Properties of the 32-bit compressed select that leaves out pairs (`SelectMPE32`), C96-C99

`X` is the text, `ty` one of `SELECT_MPE1`, `SELECT_MPE2`, `SELECT_MPE3`; `aS`, `aB` are the addresses that `new[]`
returns; `L`, `TH` the template parameters `L`, `THRESHOLD`.  `⟨some f, some h⟩` says what reads of memory that was never
written give (the flags, the bytes of `bits`), as for `SelectMPE64` (C79); with `none` they are undefined.  Positions are
`unsigned int`, so texts have fewer than `2^29` bytes.
-/

set_option autoImplicit false
set_option maxRecDepth 8192

namespace MRS.Props
open MRS.Mran Outcome Spec

variable {X : List (BitVec 8)} {ty : MpeType} {L TH : Nat}

/-- Parameters that the constructor accepts, select.hpp lines 2719-2743. -/
def MpeAccepts32 (ty : MpeType) (L TH : Nat) : Prop :=
  L < TH ∧ if ty = .mpe1 then 4 * (L - 1) ≤ 32767 / 15 ∧ TH - 1 ≤ 8 * (32767 / 15)
    else 4 * (L - 1) ≤ 16383 / 15 ∧ TH - 1 ≤ 8 * (16383 / 15)

instance (ty : MpeType) (L TH : Nat) : Decidable (MpeAccepts32 ty L TH) := by unfold MpeAccepts32; infer_instance

/-- Bytes by which `SELECT_MPE3` may store a group larger than its bits. -/
def surplus (ty : MpeType) (TH : Nat) : Nat := if ty = .mpe3 then 2 * ((TH - 1) / 128 + 1) - 40 else 0

/-- Parameters that the constructor accepts, a text whose positions and entries fit `unsigned int`, and room for `c`
bytes for each byte of the text. -/
structure SelMpe32Ok (ty : MpeType) (X : List (BitVec 8)) (L TH : Nat) : Prop where
  pos : 1 ≤ L
  acc : MpeAccepts32 ty L TH
  len : X.length < 2 ^ 29
  ent : 2 * groups X L + 2 + 32 ≤ 2 ^ 32
  fit : ∃ c, 1 ≤ c ∧ 32 * (L - 1) ≤ c * TH ∧ c * X.length + groups X L + surplus ty TH * (groups X L - 1) + 128 < 2 ^ 32

theorem SelMpe32Ok.lt (h : SelMpe32Ok ty X L TH) : L < TH := h.acc.1

theorem SelMpe32Ok.nbk (h : SelMpe32Ok ty X L TH) : 2 * nbk (textOf X) L + 2 + 32 ≤ 2 ^ 32 := by
  rw [nbk_ceil h.pos, tot_count]
  exact h.ent

/-- All parameters that the constructor accepts are such that offsets fit. -/
theorem SelMpe32Ok.fits (h : SelMpe32Ok ty X L TH) : S32.FitsS ty (textOf X) L TH := by
  refine S32.fitsS h.pos ?_
  obtain ⟨h1, h2⟩ := h.acc
  unfold S32.FitsPar S32.lim
  by_cases h4 : ty = .mpe1
  · rw [if_pos h4] at h2 ⊢
    omega
  · rw [if_neg h4] at h2 ⊢
    omega

theorem bs_le (ty : MpeType) (hL : 1 ≤ L) (h1 : 1 ≤ tot (textOf X)) {c : Nat} (hc : 1 ≤ c) (hcl : 32 * (L - 1) ≤ c * TH) :
    S32.BS ty (textOf X) L TH ≤ c * X.length + groups X L + surplus ty TH * (groups X L - 1) := by
  have h2 := S32.bytes_le (t := textOf X) hL hc hcl
  have h3 := S32.BS_eq (TH := TH) ty hL h1
  have h4 := psum_grow (t := textOf X) (TH := TH) ty hL h1
  rw [nbk_ceil hL, tot_count] at *
  change _ ≤ c * X.length + groups X L at h2
  change _ ≤ _ + surplus ty TH * (groups X L - 1) at h4
  omega

theorem SelMpe32Ok.room (h : SelMpe32Ok ty X L TH) (h1 : 1 ≤ tot (textOf X)) : S32.BS ty (textOf X) L TH + 128 < 2 ^ 32 := by
  obtain ⟨c, h3, h4, h5⟩ := h.fit
  have := bs_le ty h.pos h1 h3 h4
  omega

/-- With the benchmark's parameters every text of fewer than `2^29` bytes will do. -/
theorem selMpe32_shipped (ty : MpeType) (h : X.length < 2 ^ 29) : SelMpe32Ok ty X 128 4096 := by
  have h1 : (Text.bits X).count true ≤ 8 * X.length := by
    have := tot_le (textOf X)
    rw [tot_count] at this
    exact this
  have h2 : groups X 128 ≤ X.length / 16 + 1 := by unfold groups; omega
  have h3 : surplus ty 4096 ≤ 24 := by cases ty <;> decide
  have h4 : surplus ty 4096 * (groups X 128 - 1) ≤ 24 * (X.length / 16) := Nat.mul_le_mul h3 (by omega)
  exact ⟨by decide, by cases ty <;> decide, h, by omega, 1, by decide, by decide, by omega⟩

theorem shortS_iff (h : SelMpe32Ok ty X L TH) (h1 : 1 ≤ tot (textOf X)) (aB : Nat) :
    S32.ShortS ty (textOf X) L TH aB ↔ Overflow32 X L TH aB := by
  have hr := h.room h1
  unfold S32.ShortS Overflow32
  rw [lastAt_iff h.pos h1, tot_count]
  exact ⟨fun h => h.elim id (fun h => absurd h (by omega)), Or.inl⟩

theorem SelMpe32Ok.built (h : SelMpe32Ok ty X L TH) (aS aB : Nat) (f : Nat → BitVec 8) (v : Option (Nat → BitVec 8))
    (h1 : 1 ≤ tot (textOf X)) (ho : ¬ Overflow32 X L TH aB) :
    ∃ x, S32.buildSelMpe ty L TH aS aB ⟨some f, v⟩ (textOf X) = ok x ∧ S32.BuiltMpeS ty (textOf X) L TH f v x := by
  rw [← shortS_iff h h1] at ho
  exact (S32.buildSelMpe_cases ty (TH := TH) h.pos h.len h1 h.nbk aS aB ⟨some f, v⟩).1 f rfl ho

theorem pair32_ok (ty : MpeType) : SelMpe32Ok ty pairText 2 512 := by
  refine ⟨by decide, by cases ty <;> decide, by decide, by unfold groups; rw [pair_count]; decide, 1, by decide, by decide, ?_⟩
  unfold groups
  rw [pair_count]
  cases ty <;> decide

theorem pair32_over (aB : Nat) : ¬ Overflow32 pairText 2 512 aB := overflow32_none (by decide) aB

theorem over32_mpe (ty : MpeType) : SelMpe32Ok ty overText32 128 200 := by
  have hc : (Text.bits overText32).count true = 17 := by decide +kernel
  refine ⟨by decide, by cases ty <;> decide, by decide, by unfold groups; rw [hc]; decide, 21, by decide, by decide, ?_⟩
  unfold groups
  rw [hc]
  cases ty <;> decide

/-! ## C96: answers -/

/-- Right for every one of a complete group, and of the last group unless it is `LastWide`, if memory has a quiet value
for the flag of a complete last group.  Missing from the full claim: texts without ones (`C97_mpe32_no_ones`), `Overflow`
(`C97_mpe32_overflow`), a wide last group (`C96_mpe32_last_wrong`), another value of that flag (`C96_mpe32_flag_wrong`),
memory that may not be read before it is written (C97), and texts whose entries or bytes do not fit (`C97_mpe32_entries`,
`C97_mpe32_bytes`) or that have ones from `2^32` on (`C96_mpe32_beyond`). -/
theorem C96_mpe32_select_partial (h : SelMpe32Ok ty X L TH) (aS aB : Nat) (f v : Nat → BitVec 8)
    (h1 : 1 ≤ (Text.bits X).count true) (ho : ¬ Overflow32 X L TH aB) :
    ∃ x, S32.buildSelMpe ty L TH aS aB ⟨some f, some v⟩ (textOf X) = ok x ∧ ∀ i, 1 ≤ i → i ≤ (Text.bits X).count true →
      ¬ (Text.LastWide (Text.bits X) L ∧ (Text.bits X).count true / L * L < i) → FlagOk ty X L f i →
      ∃ p, S32.selectMpe ty false L TH x i = ok p ∧ IsSelect (Text.bits X) (i - 1) p := by
  have h1 := ones_pos h1
  rw [← tot_count]
  obtain ⟨x, e, hx⟩ := h.built aS aB f (some v) h1 ho
  refine ⟨x, e, fun i hi1 hi2 hb hf => ?_⟩
  rw [lastWide_iff h.pos h1] at hb
  have := (S32.selectMpe_ok h.pos h.len h.nbk hx h.fits false hi1 hi2).1 hb (flagOk h.pos hi2 hf)
  rw [S32.outS_known h.pos h1 hx] at this
  exact ⟨_, this, (isSelect_sel X hi1 hi2).2 rfl⟩

example (ty : MpeType) (f v : Nat → BitVec 8) :
    ∃ x, S32.buildSelMpe ty 2 512 64 64 ⟨some f, some v⟩ (textOf pairText) = ok x ∧ S32.selectMpe ty false 2 512 x 1 = ok 259 := by
  obtain ⟨x, e, h⟩ := C96_mpe32_select_partial (pair32_ok ty) 64 64 f v (by rw [pair_count]; decide) (pair32_over 64)
  obtain ⟨p, hp, hs⟩ := h 1 (by decide) (by rw [pair_count]; decide)
    (by rw [pair_count]; rintro ⟨-, h⟩; exact absurd h (by decide)) (Or.inr (Or.inl (by rw [pair_count]; decide)))
  rw [isSelect_sel pairText (i := 1) (by decide) (by rw [tot_count, pair_count]; decide)] at hs
  refine ⟨x, e, ?_⟩
  rw [hp, hs]
  exact congrArg ok (by decide +kernel)

/-- With the benchmark's parameters only the wide last group and the flag of a complete last group remain. -/
theorem C96_mpe32_benchmark (ty : MpeType) (hlen : X.length < 2 ^ 29) (aS aB : Nat) (f v : Nat → BitVec 8)
    (h1 : 1 ≤ (Text.bits X).count true) :
    ∃ x, S32.buildSelMpe ty 128 4096 aS aB ⟨some f, some v⟩ (textOf X) = ok x ∧ ∀ i, 1 ≤ i → i ≤ (Text.bits X).count true →
      ¬ (Text.LastWide (Text.bits X) 128 ∧ (Text.bits X).count true / 128 * 128 < i) → FlagOk ty X 128 f i →
      ∃ p, S32.selectMpe ty false 128 4096 x i = ok p ∧ IsSelect (Text.bits X) (i - 1) p :=
  C96_mpe32_select_partial (selMpe32_shipped ty hlen) aS aB f v h1 (overflow32_none (by decide) aB)

example (ty : MpeType) (f v : Nat → BitVec 8) :
    ∃ x, S32.buildSelMpe ty 128 4096 0 16 ⟨some f, some v⟩ (textOf overText) = ok x := by
  obtain ⟨x, e, -⟩ := C96_mpe32_benchmark (X := overText) ty (by decide) 0 16 f v overText_over.1
  exact ⟨x, e⟩

/-- With loads that must be aligned, the same queries give the same answer or a misaligned load. -/
theorem C96_mpe32_select_strict (h : SelMpe32Ok ty X L TH) (aS aB : Nat) (f v : Nat → BitVec 8)
    (h1 : 1 ≤ (Text.bits X).count true) (ho : ¬ Overflow32 X L TH aB) :
    ∃ x, S32.buildSelMpe ty L TH aS aB ⟨some f, some v⟩ (textOf X) = ok x ∧ ∀ i, 1 ≤ i → i ≤ (Text.bits X).count true →
      ¬ (Text.LastWide (Text.bits X) L ∧ (Text.bits X).count true / L * L < i) → FlagOk ty X L f i →
      S32.selectMpe ty true L TH x i = ub .misaligned ∨
        ∃ p, S32.selectMpe ty true L TH x i = ok p ∧ IsSelect (Text.bits X) (i - 1) p := by
  have h1 := ones_pos h1
  rw [← tot_count]
  obtain ⟨x, e, hx⟩ := h.built aS aB f (some v) h1 ho
  refine ⟨x, e, fun i hi1 hi2 hb hf => ?_⟩
  rw [lastWide_iff h.pos h1] at hb
  have := (S32.selectMpe_ok h.pos h.len h.nbk hx h.fits true hi1 hi2).1 hb (flagOk h.pos hi2 hf)
  rcases S32.outS_cases h.pos h1 hx true (i := i) with hc | ⟨-, hc⟩ | ⟨hc, -⟩
  · rw [hc] at this
    exact Or.inr ⟨_, this, (isSelect_sel X hi1 hi2).2 rfl⟩
  · rw [hc] at this
    exact Or.inl this
  · cases hc

example (ty : MpeType) (f v : Nat → BitVec 8) : ∃ x, S32.buildSelMpe ty 2 512 64 64 ⟨some f, some v⟩ (textOf pairText) = ok x ∧
    (S32.selectMpe ty true 2 512 x 1 = ub .misaligned ∨
      ∃ p, S32.selectMpe ty true 2 512 x 1 = ok p ∧ IsSelect (Text.bits pairText) 0 p) := by
  obtain ⟨x, e, h⟩ := C96_mpe32_select_strict (pair32_ok ty) 64 64 f v (by rw [pair_count]; decide) (pair32_over 64)
  exact ⟨x, e, h 1 (by decide) (by rw [pair_count]; decide)
    (by rw [pair_count]; rintro ⟨-, h⟩; exact absurd h (by decide)) (Or.inr (Or.inl (by rw [pair_count]; decide)))⟩

/-- Both cases occur: a wide group after a block of one byte, and the second one of a text. -/
theorem C96_mpe32_misaligned (ty : MpeType) : ∃ x, S32.buildSelMpe ty 2 8 64 64 ⟨some (fun _ => 0#8), none⟩
      (textOf [0xA0#8, 0#8, 0x60#8]) = ok x ∧
    S32.selectMpe ty true 2 8 x 3 = ub .misaligned ∧ S32.selectMpe ty false 2 8 x 3 = ok 17 ∧ S32.selectMpe ty true 2 8 x 1 = ok 0 := by
  cases ty <;> refine ⟨_, rfl, ?_, ?_, ?_⟩ <;> decide +kernel

/-- A last group with fewer than `L` ones that takes `L` bits is read as if it were all ones; its last
one is always answered wrongly. -/
theorem C96_mpe32_last_wrong (h : SelMpe32Ok ty X L TH) (aS aB : Nat) (f : Nat → BitVec 8) (v : Option (Nat → BitVec 8))
    (h1 : 1 ≤ (Text.bits X).count true) (ho : ¬ Overflow32 X L TH aB) (hw : Text.LastWide (Text.bits X) L) (s : Bool) :
    ∃ x a, S32.buildSelMpe ty L TH aS aB ⟨some f, v⟩ (textOf X) = ok x ∧
      Text.UpTo (Text.bits X) ((Text.bits X).count true / L * L) a ∧
      (∀ i, (Text.bits X).count true / L * L < i → i ≤ (Text.bits X).count true →
        S32.selectMpe ty s L TH x i = ok (a + (i - (Text.bits X).count true / L * L) - 1)) ∧
      ∃ p, S32.selectMpe ty s L TH x ((Text.bits X).count true) = ok p ∧
        ¬ IsSelect (Text.bits X) ((Text.bits X).count true - 1) p := by
  have hL := h.pos
  obtain ⟨hr, a, ha1, ha2⟩ := hw
  have hw : Text.LastWide (Text.bits X) L := ⟨hr, a, ha1, ha2⟩
  have h1 := ones_pos h1
  simp only [← tot_count] at hr ha1 ha2 hw ⊢
  rw [lastWide_iff hL h1] at hw
  obtain ⟨x, e, hx⟩ := h.built aS aB f v h1 ho
  have hbad := fun i h2 h3 => (S32.selectMpe_ok h.pos h.len h.nbk hx h.fits s (i := i) h2 h3).2 hw
  have hdm := Nat.div_add_mod (tot (textOf X)) L
  have hml := Nat.mod_lt (tot (textOf X)) hL
  rw [Nat.mul_comm] at hdm
  have hae : a = en (textOf X) L (tot (textOf X) / L) := by
    have := upTo_en (X := X) (L := L) (m := tot (textOf X) / L) (e := a) hL h1
    rw [ob_full (Nat.le_refl _)] at this
    exact this.1 ha1
  refine ⟨x, a, e, ha1, fun i hi1 hi2 => ?_, _, hbad _ h1 (Nat.le_refl _) (by omega), ?_⟩
  · rw [hbad i (by omega) hi2 hi1, hae]
  · rw [isSelect_sel X h1 (Nat.le_refl _), ← hae]
    rw [upTo_iff (Nat.le_refl _), if_neg (by omega)] at ha2
    omega

example (ty : MpeType) (f : Nat → BitVec 8) : ∃ x, S32.buildSelMpe ty 128 4096 64 64 ⟨some f, none⟩ (textOf farOne) = ok x ∧
    S32.selectMpe ty true 128 4096 x 1 = ok 0 := by
  obtain ⟨hc, -, hw⟩ := farOne_wide
  obtain ⟨x, a, e, ha, h, -⟩ := C96_mpe32_last_wrong (selMpe32_shipped ty (X := farOne) (by decide)) 64 64 f none
    (by rw [hc]; decide) (overflow32_none (by decide) 64) hw true
  rw [hc] at h ha
  rw [upTo_iff (by rw [tot_count, hc]; decide), if_pos rfl] at ha
  refine ⟨x, e, ?_⟩
  rw [h 1 (by decide) (by decide), ha]

/-- What was in memory before `build` can decide how a complete last group is read: two ones in a byte, and
`select(1)` is not 1 but 0. -/
theorem C96_mpe32_flag_wrong (ty : MpeType) : ∃ x, S32.buildSelMpe ty 2 64 64 64 ⟨some (fun _ => 3#8), some (fun _ => 255#8)⟩
      (textOf [0x41#8]) = ok x ∧
    S32.selectMpe ty false 2 64 x 1 = ok 0 ∧ IsSelect (Text.bits [0x41#8]) 0 1 := by
  cases ty <;> refine ⟨_, rfl, ?_, ⟨?_, ?_⟩⟩ <;> decide +kernel

/-- `select(0)` is the largest number. -/
theorem C96_mpe32_zero (h : SelMpe32Ok ty X L TH) (aS aB : Nat) (f : Nat → BitVec 8) (v : Option (Nat → BitVec 8))
    (h1 : 1 ≤ (Text.bits X).count true) (ho : ¬ Overflow32 X L TH aB) :
    ∃ x, S32.buildSelMpe ty L TH aS aB ⟨some f, v⟩ (textOf X) = ok x ∧ ∀ s, S32.selectMpe ty s L TH x 0 = ok (2 ^ 32 - 1) := by
  have h1 := ones_pos h1
  obtain ⟨x, e, hx⟩ := h.built aS aB f v h1 ho
  exact ⟨x, e, fun s => S32.selectMpe_zero h.pos h.len h.nbk hx s⟩

example (ty : MpeType) (f : Nat → BitVec 8) : ∃ x, S32.buildSelMpe ty 2 512 64 64 ⟨some f, none⟩ (textOf pairText) = ok x ∧
    S32.selectMpe ty true 2 512 x 0 = ok (2 ^ 32 - 1) := by
  obtain ⟨x, e, h⟩ := C96_mpe32_zero (pair32_ok ty) 64 64 f none (by rw [pair_count]; decide) (pair32_over 64)
  exact ⟨x, e, h true⟩

/-- So the full claim is false, for the parameters that the benchmark uses and whatever memory holds. -/
theorem C96_mpe32_select_false (ty : MpeType) (f v : Nat → BitVec 8) : ¬ ∀ (X : List (BitVec 8)) (aS aB : Nat),
    X.length < 2 ^ 29 → 1 ≤ (Text.bits X).count true →
    ∃ x, S32.buildSelMpe ty 128 4096 aS aB ⟨some f, some v⟩ (textOf X) = ok x ∧ ∀ i, 1 ≤ i → i ≤ (Text.bits X).count true →
      ∃ p, S32.selectMpe ty false 128 4096 x i = ok p ∧ IsSelect (Text.bits X) (i - 1) p := by
  intro h
  obtain ⟨hc, -, hw⟩ := farOne_wide
  obtain ⟨x, e, hx⟩ := h farOne 64 64 (by decide) (by rw [hc]; decide)
  obtain ⟨x', a, e', -, -, p, hp, hn⟩ := C96_mpe32_last_wrong (selMpe32_shipped ty (X := farOne) (by decide)) 64 64 f (some v)
    (by rw [hc]; decide) (overflow32_none (by decide) 64) hw false
  rw [e] at e'
  injection e' with e'
  subst e'
  obtain ⟨p', hp', hs⟩ := hx _ (by rw [hc]; decide) (Nat.le_refl _)
  rw [hp] at hp'
  injection hp' with hp'
  subst hp'
  exact hn hs

/-- No object ever answers with a position of `2^32` or more, so texts from `2^29` bytes on are not
answered right if they have a one there. -/
theorem C96_mpe32_beyond (x : Select) (s : Bool) {i p : Nat} (h : IsSelect (Text.bits X) (i - 1) p) (hp : 2 ^ 32 ≤ p) :
    ¬ ∃ p', S32.selectMpe ty s L TH x i = ok p' ∧ IsSelect (Text.bits X) (i - 1) p' := by
  rintro ⟨p', hq, h'⟩
  have := S32.selectMpe_lt hq
  have := C03_select_unique h h'
  omega

/-- `2^29 + 1` bytes 80. -/
example (x : Select) : ∃ X : List (BitVec 8), ∃ i p, IsSelect (Text.bits X) (i - 1) p ∧
    ¬ ∃ p', S32.selectMpe ty false L TH x i = ok p' ∧ IsSelect (Text.bits X) (i - 1) p' := by
  obtain ⟨n, hn⟩ : ∃ n, n = 536870912 := ⟨_, rfl⟩
  have hs := ones_same (b := 0x80#8) (n := n + 1) n (by omega)
  have e1 : ones (Text.bits [0x80#8]) 8 = 1 := by decide
  have hsel : IsSelect (Text.bits (List.replicate (n + 1) 0x80#8)) (n + 1 - 1) (8 * n) := by
    refine ⟨?_, ?_⟩
    · have := hs.2 0 (by decide) (by omega)
      exact this.trans (by decide)
    · rw [hs.1, e1]
      omega
  exact ⟨_, n + 1, 8 * n, hsel, C96_mpe32_beyond x false hsel (by omega)⟩

/-! ## C97: memory that was not written -/

/-- `build` reads flags that were not written, for every text with ones: the flag of a complete last group, or a flag of
a block that does not exist. -/
theorem C97_mpe32_build_unwritten (h : SelMpe32Ok ty X L TH) (aS aB : Nat) (v : Option (Nat → BitVec 8))
    (h1 : 1 ≤ (Text.bits X).count true) (ho : ¬ Overflow32 X L TH aB) :
    S32.buildSelMpe ty L TH aS aB ⟨none, v⟩ (textOf X) = ub (if (Text.bits X).count true % L = 0 then .uninit else .oob) := by
  have h1 := ones_pos h1
  rw [← shortS_iff h h1] at ho
  rw [← tot_count]
  exact (S32.buildSelMpe_cases ty (TH := TH) h.pos h.len h1 h.nbk aS aB ⟨none, v⟩).2.2.1 rfl ho

example (ty : MpeType) : S32.buildSelMpe ty 2 512 64 64 ⟨none, none⟩ (textOf pairText) = ub .uninit :=
  (C97_mpe32_build_unwritten (pair32_ok ty) 64 64 none (by rw [pair_count]; decide) (pair32_over 64)).trans
    (congrArg ub (by rw [pair_count]; decide))

/-- So no text at all can be built without reading memory that was not written. -/
theorem C97_mpe32_never (ty : MpeType) (hL : 1 ≤ L) (hlen : X.length < 2 ^ 29) (aS aB : Nat) (v : Option (Nat → BitVec 8)) :
    ∃ e, S32.buildSelMpe ty L TH aS aB ⟨none, v⟩ (textOf X) = ub e := by
  by_cases h0 : tot (textOf X) = 0
  · exact ⟨_, S32.buildSelMpe_none ty hL hlen h0 aS aB ⟨none, v⟩⟩
  · by_cases hE : 2 * nbk (textOf X) L + 2 + 32 ≤ 2 ^ 32
    · exact (S32.buildSelMpe_cases ty (TH := TH) hL hlen (Nat.pos_of_ne_zero h0) hE aS aB ⟨none, v⟩).2.2.2 rfl
    · exact ⟨_, S32.buildSelMpe_many ty hL hlen (Nat.lt_of_not_le hE) aS aB ⟨none, v⟩⟩

example (ty : MpeType) : ∃ e, S32.buildSelMpe ty 128 4096 64 64 ⟨none, none⟩ (textOf overText) = ub e :=
  C97_mpe32_never ty (by decide) (by decide) 64 64 none

/-- Without a one, `blockToCompress` has no entries and its first is read or written. -/
theorem C97_mpe32_no_ones (ty : MpeType) (hL : 1 ≤ L) (hlen : X.length < 2 ^ 29) (aS aB : Nat) (g : JunkS)
    (h0 : (Text.bits X).count true = 0) : S32.buildSelMpe ty L TH aS aB g (textOf X) = ub .oob :=
  S32.buildSelMpe_none ty hL hlen (by rw [tot_count]; exact h0) aS aB g

example (ty : MpeType) (g : JunkS) : S32.buildSelMpe ty 128 4096 64 64 g (textOf [0#8, 0#8]) = ub .oob :=
  C97_mpe32_no_ones ty (by decide) (by decide) 64 64 g (by decide)

/-- `build` writes beyond its array in the same case as `SelectBasic32` (C88). -/
theorem C97_mpe32_overflow (h : SelMpe32Ok ty X L TH) (aS aB : Nat) (f : Nat → BitVec 8) (v : Option (Nat → BitVec 8))
    (h1 : 1 ≤ (Text.bits X).count true) (ho : Overflow32 X L TH aB) :
    S32.buildSelMpe ty L TH aS aB ⟨some f, v⟩ (textOf X) = ub .oob := by
  have h1 := ones_pos h1
  rw [← shortS_iff h h1] at ho
  exact (S32.buildSelMpe_cases ty (TH := TH) h.pos h.len h1 h.nbk aS aB ⟨some f, v⟩).2.1 f rfl ho

example (ty : MpeType) (f : Nat → BitVec 8) : S32.buildSelMpe ty 128 200 0 16 ⟨some f, none⟩ (textOf overText32) = ub .oob :=
  C97_mpe32_overflow (over32_mpe ty) 0 16 f none over32.2.1 over32.2.2

/-- It also does when the number of entries does not fit `unsigned int`, which needs `L ≤ 2`. -/
theorem C97_mpe32_entries (ty : MpeType) (hL : 1 ≤ L) (hlen : X.length < 2 ^ 29) (aS aB : Nat) (g : JunkS)
    (hE : 2 ^ 32 < 2 * groups X L + 2 + 32) : S32.buildSelMpe ty L TH aS aB g (textOf X) = ub .oob :=
  S32.buildSelMpe_many ty hL hlen (by rw [nbk_ceil hL, tot_count]; exact hE) aS aB g

/-- `2^28` bytes FF and groups of one. -/
example (ty : MpeType) (g : JunkS) : ∃ X : List (BitVec 8), S32.buildSelMpe ty 1 2 64 64 g (textOf X) = ub .oob := by
  obtain ⟨n, hn⟩ : ∃ n, n = 268435456 := ⟨_, rfl⟩
  refine ⟨List.replicate n 0xFF#8, C97_mpe32_entries ty (Nat.le_refl _) (by rw [List.length_replicate]; omega) 64 64 g ?_⟩
  unfold groups
  rw [count_same, show ones (Text.bits [0xFF#8]) 8 = 8 from by decide]
  omega

/-- And when the positions that are stored do not fit: every complete group takes more than `TH` bits, so
its `L - 1` positions take four bytes each. -/
theorem C97_mpe32_bytes (ty : MpeType) (hL : 1 ≤ L) (hlen : X.length < 2 ^ 29) (aS aB : Nat) (f : Nat → BitVec 8)
    (v : Option (Nat → BitVec 8)) (hw : ∀ k, k < (Text.bits X).count true / L → Text.GroupWide (Text.bits X) L TH k)
    (hB : 2 ^ 32 ≤ 4 * (L - 1) * ((Text.bits X).count true / L) + 128) :
    S32.buildSelMpe ty L TH aS aB ⟨some f, v⟩ (textOf X) = ub .oob := by
  rw [← tot_count] at hw hB
  have h1 : 1 ≤ tot (textOf X) := by
    refine Nat.pos_of_ne_zero (fun h => ?_)
    rw [h, Nat.zero_div, Nat.mul_zero] at hB
    omega
  have hr := S32.wide_BS (TH := TH) ty hL h1 hw
  by_cases hE : 2 * nbk (textOf X) L + 2 + 32 ≤ 2 ^ 32
  · exact (S32.buildSelMpe_cases ty (TH := TH) hL hlen h1 hE aS aB ⟨some f, v⟩).2.1 f rfl (Or.inr (by omega))
  · exact S32.buildSelMpe_many ty hL hlen (Nat.lt_of_not_le hE) aS aB ⟨some f, v⟩

/-- `2^28` bytes 3F, `L` 6 and `THRESHOLD` 7. -/
example (ty : MpeType) (f : Nat → BitVec 8) : ∃ X : List (BitVec 8),
    S32.buildSelMpe ty 6 7 64 64 ⟨some f, none⟩ (textOf X) = ub .oob := by
  obtain ⟨n, hn⟩ : ∃ n, n = 268435456 := ⟨_, rfl⟩
  have hs := ones_same (b := 0x3F#8) (n := n)
  have e6 : ones (Text.bits [0x3F#8]) 8 = 6 := by decide
  have hc : (Text.bits (List.replicate n 0x3F#8)).count true = 6 * n := by rw [count_same, e6]
  have hu : ∀ k, k ≤ n → Text.UpTo (Text.bits (List.replicate n 0x3F#8)) (k * 6) (8 * k) := by
    intro k hk
    refine ⟨by rw [(hs k hk).1, e6, Nat.mul_comm], ?_⟩
    by_cases h0 : k = 0
    · left; rw [h0]
    · right
      rw [show 8 * k - 1 = 8 * (k - 1) + 7 by omega, (hs (k - 1) (by omega)).2 7 (by decide) (by omega)]
      decide
  refine ⟨List.replicate n 0x3F#8, C97_mpe32_bytes ty (by decide) (by rw [List.length_replicate]; omega) 64 64 f none ?_ ?_⟩
  · intro k hk
    rw [hc] at hk
    exact ⟨8 * k, 8 * (k + 1), hu k (by omega), hu (k + 1) (by omega), by omega⟩
  · rw [hc]
    omega

/-- If the flags can be read, queries need only bytes that were written, unless the last group takes `L` bits and so
has no bytes.  Missing: such texts (`C97_mpe32_unwritten`). -/
theorem C97_mpe32_written_partial (h : SelMpe32Ok ty X L TH) (hL : 2 ≤ L) (aS aB : Nat) (f : Nat → BitVec 8)
    (v : Option (Nat → BitVec 8)) (h1 : 1 ≤ (Text.bits X).count true) (ho : ¬ Overflow32 X L TH aB)
    (ht : ¬ Text.LastTight (Text.bits X) L) :
    ∃ x, S32.buildSelMpe ty L TH aS aB ⟨some f, v⟩ (textOf X) = ok x ∧ ∀ i, 1 ≤ i → i ≤ (Text.bits X).count true →
      FlagOk ty X L f i →
      ∃ p, S32.selectMpe ty false L TH x i = ok p ∧ IsSelect (Text.bits X) (i - 1) p := by
  have h1 := ones_pos h1
  rw [← tot_count]
  rw [tight_iff h.pos h1] at ht
  obtain ⟨x, e, hx⟩ := h.built aS aB f v h1 ho
  refine ⟨x, e, fun i hi1 hi2 hf => ?_⟩
  have hb : ¬ (Bad (textOf X) L ∧ tot (textOf X) / L * L < i) := by
    rintro ⟨⟨hr, hb⟩, -⟩
    apply ht
    unfold Tight
    have : nbk (textOf X) L - 1 = tot (textOf X) / L := by unfold nbk; rw [if_pos hr, Nat.add_sub_cancel]
    rw [this]
    exact hb
  have := (S32.selectMpe_ok h.pos h.len h.nbk hx h.fits false hi1 hi2).1 hb (flagOk h.pos hi2 hf)
  rw [S32.outS_written hL h1 hx ht] at this
  exact ⟨_, this, (isSelect_sel X hi1 hi2).2 rfl⟩

theorem pair32b_ok (ty : MpeType) : SelMpe32Ok ty pairText2 2 512 := by
  obtain ⟨hc, -⟩ := pair2_loose
  refine ⟨by decide, by cases ty <;> decide, by decide, by unfold groups; rw [hc]; decide, 1, by decide, by decide, ?_⟩
  unfold groups
  rw [hc]
  cases ty <;> decide

example (ty : MpeType) : ∃ x, S32.buildSelMpe ty 2 512 64 64 ⟨some (fun _ => 0#8), none⟩ (textOf pairText2) = ok x ∧
    S32.selectMpe ty false 2 512 x 1 = ok 259 ∧ S32.selectMpe ty false 2 512 x 3 = ok 305 := by
  obtain ⟨hc, ht⟩ := pair2_loose
  obtain ⟨x, e, h⟩ := C97_mpe32_written_partial (pair32b_ok ty) (by decide) 64 64 (fun _ => 0#8) none
    (by rw [hc]; decide) (overflow32_none (by decide) 64) ht
  have hq : ∀ i, FlagOk ty pairText2 2 (fun _ => 0#8) i := fun i =>
    Or.inr (Or.inr (Or.inr (by cases ty <;> decide)))
  refine ⟨x, e, ?_, ?_⟩
  · obtain ⟨p, hp, hs⟩ := h 1 (by decide) (by rw [hc]; decide) (hq 1)
    rw [isSelect_sel pairText2 (i := 1) (by decide) (by rw [tot_count, hc]; decide)] at hs
    rw [hp, hs]
    exact congrArg ok (by decide +kernel)
  · obtain ⟨p, hp, hs⟩ := h 3 (by decide) (by rw [hc]; decide) (hq 3)
    rw [isSelect_sel pairText2 (i := 3) (by decide) (by rw [tot_count, hc]; decide)] at hs
    rw [hp, hs]
    exact congrArg ok (by decide +kernel)

/-- The byte after the last one is copied: undefined, if it may not be read (its value is not used). -/
theorem C97_mpe32_unwritten (ty : MpeType) : ∃ x, S32.buildSelMpe ty 2 512 64 64 ⟨some (fun _ => 0#8), none⟩ (textOf pairText) = ok x ∧
    S32.selectMpe ty false 2 512 x 1 = ub .uninit ∧ IsSelect (Text.bits pairText) 0 259 := by
  cases ty <;> refine ⟨_, rfl, ?_, ⟨?_, ?_⟩⟩ <;> decide +kernel

/-! ## C98: parameters and sizes -/

/-- All parameters that the constructor accepts: groups of `L` ones are stored in so few bytes that fifteen of them fit
the fields of a superblock (with `SelectMPE64` that is not so, `C81_mpe_narrow`). -/
theorem C98_mpe32_params (hL : 1 ≤ L) (ha : MpeAccepts32 ty L TH) (hlen : X.length < 2 ^ 29)
    (hent : 2 * groups X L + 2 + 32 ≤ 2 ^ 32) (aS aB : Nat) (f v : Nat → BitVec 8) (h1 : 1 ≤ (Text.bits X).count true)
    {x : Select} (e : S32.buildSelMpe ty L TH aS aB ⟨some f, some v⟩ (textOf X) = ok x) {i : Nat} (hi1 : 1 ≤ i)
    (hi2 : i ≤ (Text.bits X).count true)
    (hb : ¬ (Text.LastWide (Text.bits X) L ∧ (Text.bits X).count true / L * L < i)) (hf : FlagOk ty X L f i) :
    ∃ p, S32.selectMpe ty false L TH x i = ok p ∧ IsSelect (Text.bits X) (i - 1) p := by
  have h1 := ones_pos h1
  rw [← tot_count] at hi2 hb
  have hE : 2 * nbk (textOf X) L + 2 + 32 ≤ 2 ^ 32 := by rw [nbk_ceil hL, tot_count]; exact hent
  obtain ⟨c1, c2, -⟩ := S32.buildSelMpe_cases ty (t := textOf X) (TH := TH) hL hlen h1 hE aS aB ⟨some f, some v⟩
  by_cases hs : S32.ShortS ty (textOf X) L TH aB
  · rw [c2 f rfl hs] at e; cases e
  · obtain ⟨x', e', hx⟩ := c1 f rfl hs
    rw [e] at e'
    injection e' with e'
    subst e'
    have hfit : S32.FitsS ty (textOf X) L TH := by
      refine S32.fitsS hL ?_
      obtain ⟨h3, h4⟩ := ha
      unfold S32.FitsPar S32.lim
      by_cases h5 : ty = .mpe1
      · rw [if_pos h5] at h4 ⊢
        omega
      · rw [if_neg h5] at h4 ⊢
        omega
    rw [lastWide_iff hL h1] at hb
    have := (S32.selectMpe_ok hL hlen hE hx hfit false hi1 hi2).1 hb (flagOk hL hi2 hf)
    rw [S32.outS_known hL h1 hx] at this
    exact ⟨_, this, (isSelect_sel X hi1 hi2).2 rfl⟩

/-- The text for which `SelectMPE64` answers `select(517)` with the position of the first one, and the largest `L`. -/
example (f v : Nat → BitVec 8) : ∃ x, S32.buildSelMpe .mpe2 129 130 64 64 ⟨some f, some v⟩ (textOf wideGroups) = ok x ∧
    ∃ p, S32.selectMpe .mpe2 false 129 130 x 517 = ok p ∧ IsSelect (Text.bits wideGroups) 516 p := by
  obtain ⟨hc, -⟩ := wideGroups_wide
  have hok : SelMpe32Ok .mpe2 wideGroups 129 130 := ⟨by decide, by decide, by decide, by unfold groups; rw [hc]; decide,
    32, by decide, by decide, by unfold groups; rw [hc]; decide⟩
  have ho : ¬ Overflow32 wideGroups 129 130 64 := by
    rintro ⟨⟨h, -⟩, -⟩
    rw [hc] at h
    exact absurd h (by decide)
  obtain ⟨x, e, -⟩ := hok.built 64 64 f (some v) (ones_pos (by rw [hc]; decide)) ho
  refine ⟨x, e, C98_mpe32_params hok.pos hok.acc hok.len hok.ent 64 64 f v (by rw [hc]; decide) e (by decide)
    (by rw [hc]; decide) (by rw [hc]; rintro ⟨-, h⟩; exact absurd h (by decide)) (Or.inl (by rw [hc]; decide))⟩

/-- `getSize()`: 25 numbers for each 16 groups, and `bitsLen` bytes.  It is 1084 less than what the object takes, and 1212
less when nothing is stored.  `bitsLen` is at most that of `SelectBasic32`, with `SELECT_MPE3` at most `surplus` more for
each group but the last; no type has less than `SELECT_MPE2`. -/
theorem C98_mpe32_size (h : SelMpe32Ok ty X L TH) (aS aB : Nat) (f : Nat → BitVec 8)
    (v : Option (Nat → BitVec 8)) (h1 : 1 ≤ (Text.bits X).count true) (ho : ¬ Overflow32 X L TH aB) :
    ∃ x, S32.buildSelMpe ty L TH aS aB ⟨some f, v⟩ (textOf X) = ok x ∧
      S32.bytesMpe x = 308 + 100 * (groups X L / 16 + 1) + (if x.bitsLen = 0 then 0 else x.bitsLen + 128) ∧
      S32.bytesMpe x + (if x.bitsLen = 0 then 1212 else 1084) = S32.takenMpe x ∧
      (∃ x2, S32.buildSelMpe .mpe2 L TH aS aB ⟨some f, v⟩ (textOf X) = ok x2 ∧ x2.bitsLen ≤ x.bitsLen) ∧
      (∀ y, S32.buildSel L TH aS aB (textOf X) = ok y → x.bitsLen ≤ y.bitsLen + surplus ty TH * (groups X L - 1)) ∧
      ∀ c, 1 ≤ c → 32 * (L - 1) ≤ c * TH →
        x.bitsLen ≤ c * X.length + groups X L + surplus ty TH * (groups X L - 1) := by
  have hn := h.nbk
  have hL := h.pos
  have h1 := ones_pos h1
  have hroom := h.room h1
  obtain ⟨x, e, hx⟩ := h.built aS aB f v h1 ho
  have hbl := hx.bl
  rw [← hbl] at hroom
  have hg : nbk (textOf X) L = groups X L := by rw [nbk_ceil hL, tot_count]
  have hBS := S32.BS_eq (TH := TH) ty hL h1
  have hBS2 := S32.BS_eq (TH := TH) .mpe2 hL h1
  have hbest := psum_best (t := textOf X) (L := L) (TH := TH) ty (nbk (textOf X) L)
  have hsel := hx.selLen
  rw [hg] at hn hsel
  refine ⟨x, e, ?_, ?_, ?_, fun y ey => ?_, fun c hc hcl => ?_⟩
  · unfold S32.bytesMpe add32
    rw [hsel]
    simp only [W32]
    split <;> split <;> split <;> omega
  · unfold S32.bytesMpe S32.takenMpe add32
    rw [hsel]
    simp only [W32]
    split <;> split <;> split <;> omega
  · have hs2 : ¬ S32.ShortS .mpe2 (textOf X) L TH aB := by
      rintro (hs | hs)
      · rw [← shortS_iff h h1] at ho
        exact ho (Or.inl hs)
      · omega
    obtain ⟨x2, e2, hx2⟩ := (S32.buildSelMpe_cases .mpe2 (TH := TH) hL h.len h1 h.nbk aS aB ⟨some f, v⟩).1 f rfl hs2
    have := hx2.bl
    exact ⟨x2, e2, by omega⟩
  · by_cases hE : 2 * nbk (textOf X) L + 2 + 32 < 2 ^ 32
    · obtain ⟨c1, c2⟩ := S32.buildSel_cases (t := textOf X) (TH := TH) hL h.len h1 hE aS aB
      by_cases hs : S32.Short (textOf X) L TH aB
      · rw [c2 hs] at ey; cases ey
      · obtain ⟨y', ey', hy⟩ := c1 hs
        rw [ey] at ey'
        injection ey' with ey'
        subst ey'
        have h2 := psum_grow (t := textOf X) (TH := TH) ty hL h1
        rw [hg] at h2
        change _ ≤ _ + surplus ty TH * (groups X L - 1) at h2
        have h3 : y.bitsLen = S32.B (textOf X) L TH := hy.bl
        rw [hg] at hBS
        omega
    · rw [S32.buildSel_many hL h.len (Nat.le_of_not_lt hE)] at ey
      cases ey
  · rw [hbl]
    exact bs_le ty hL h1 hc hcl

example : ∃ x y, S32.buildSelMpe .mpe1 2 512 64 64 ⟨some (fun _ => 0#8), none⟩ (textOf pairText) = ok x ∧
    S32.buildSel 2 512 64 64 (textOf pairText) = ok y ∧ x.bitsLen ≤ y.bitsLen ∧ x.bitsLen = 9 ∧ y.bitsLen = 39 := by
  obtain ⟨x, e, -, -, -, h, -⟩ := C98_mpe32_size (pair32_ok .mpe1) 64 64 (fun _ => 0#8) none (by rw [pair_count]; decide)
    (pair32_over 64)
  have : ∃ z, S32.buildSelMpe .mpe1 2 512 64 64 ⟨some (fun _ => 0#8), none⟩ (textOf pairText) = ok z ∧ z.bitsLen = 9 :=
    ⟨_, rfl, by decide +kernel⟩
  obtain ⟨z, ez, hz⟩ := this
  have : ∃ z, S32.buildSel 2 512 64 64 (textOf pairText) = ok z ∧ z.bitsLen = 39 := ⟨_, rfl, by decide +kernel⟩
  obtain ⟨y, ey, hy⟩ := this
  rw [e] at ez
  injection ez with ez
  have := h y ey
  rw [show surplus .mpe1 512 = 0 by decide, Nat.zero_mul, Nat.add_zero] at this
  exact ⟨x, y, e, ey, this, by rw [ez]; exact hz, hy⟩

/-! ## C99: files -/

/-- The saved object and the one that is read back give the same result for every one, or the second is undefined; the
same if the last group does not take `L` bits.  If part of the only group was not saved, the last one cannot be
found any more.  A file that was cut is rejected. -/
theorem C99_mpe32_file_partial (h : SelMpe32Ok ty X L TH) (aS aB : Nat) (f v : Nat → BitVec 8)
    (h1 : 1 ≤ (Text.bits X).count true) (ho : ¬ Overflow32 X L TH aB) :
    ∃ x, S32.buildSelMpe ty L TH aS aB ⟨some f, some v⟩ (textOf X) = ok x ∧ ∃ F : File, (∀ w, S32.save x w = ok (w ++ F)) ∧ ∀ bS bB,
      (∃ y, (∀ w, S32.load bS bB (F ++ w) = ok (y, w)) ∧ y.textLen = X.length ∧ S32.bytesMpe y = S32.bytesMpe x ∧
        (¬ Unsaved32 X L TH → ∀ s i, 1 ≤ i → i ≤ (Text.bits X).count true → FlagOk ty X L f i →
          (S32.selectMpe ty s L TH y i = S32.selectMpe ty s L TH x i ∨ ∃ e, S32.selectMpe ty s L TH y i = ub e) ∧
          (2 ≤ L → ¬ Text.LastTight (Text.bits X) L → S32.selectMpe ty s L TH y i = S32.selectMpe ty s L TH x i)) ∧
        (Unsaved32 X L TH → ∀ s, ∃ e, S32.selectMpe ty s L TH y ((Text.bits X).count true) = ub e)) ∧
      ∀ k, k < F.length → S32.load bS bB (F.take k) = abort := by
  have hL := h.pos
  have hlen := h.len
  have h1 := ones_pos h1
  rw [← tot_count]
  rw [unsaved32_iff hL h1, tight_iff hL h1]
  obtain ⟨x, e, hx⟩ := h.built aS aB f (some v) h1 ho
  have htl : x.textLen < W32 := by
    rw [hx.text]
    show X.length < W32
    simp only [W32]
    omega
  refine ⟨x, e, S32.file x, S32.save_ok hx.slen hx.blen, fun bS bB => ?_⟩
  have hroom := h.room h1
  have hn := h.nbk
  have hbl := hx.bl
  have hld := S32.sel_load htl (S32.selMpe_fits hL hlen hn hx) (by rw [hx.selLen]; simp only [W32]; omega)
    (by simp only [W32]; omega) bS bB
  refine ⟨⟨S32.back x bS bB, hld.1, hx.text, rfl, fun hl s i hi1 hi2 hf => ?_, fun hl s =>
    S32.selMpe_lost hL (Nat.le_of_lt h.lt) hlen h1 hn hx hl bS bB s⟩, hld.2⟩
  have hy := S32.selMpe_back hL h1 hx hroom hl bS bB
  have hqx := S32.selectMpe_ok hL hlen h.nbk hx h.fits s hi1 hi2
  have hqy := S32.selectMpe_ok hL hlen h.nbk hy h.fits s hi1 hi2
  by_cases hb : Bad (textOf X) L ∧ tot (textOf X) / L * L < i
  · rw [hqx.2 hb.1 hb.2, hqy.2 hb.1 hb.2]
    exact ⟨Or.inl rfl, fun _ _ => rfl⟩
  · rw [hqx.1 hb (flagOk hL hi2 hf), hqy.1 hb (flagOk hL hi2 hf)]
    exact S32.outS_same hL h1 hx hy s i

/-- Nothing is lost from a text with at least `L` ones whose last group does not take `L` bits. -/
theorem C99_mpe32_many (h : SelMpe32Ok ty X L TH) (hL2 : 2 ≤ L) (aS aB bS bB : Nat) (f v : Nat → BitVec 8)
    (hm : L ≤ (Text.bits X).count true) (ht : ¬ Text.LastTight (Text.bits X) L) :
    ∃ x F y, S32.buildSelMpe ty L TH aS aB ⟨some f, some v⟩ (textOf X) = ok x ∧ S32.save x [] = ok F ∧
      S32.load bS bB F = ok (y, []) ∧ ∀ s i, 1 ≤ i → i ≤ (Text.bits X).count true → FlagOk ty X L f i →
        S32.selectMpe ty s L TH y i = S32.selectMpe ty s L TH x i := by
  have hL := h.pos
  obtain ⟨x, e, F, h2, h3⟩ := C99_mpe32_file_partial h aS aB f v (by omega) (fun h => by have := h.1.1; omega)
  obtain ⟨y, h4, -, -, h5, -⟩ := (h3 bS bB).1
  refine ⟨x, F, y, e, h2 [], ?_, fun s i hi1 hi2 hf => (h5 ?_ s i hi1 hi2 hf).2 hL2 ht⟩
  · have := h4 []
    rw [List.append_nil] at this
    exact this
  · rintro ⟨p, h, -⟩
    have := h.1
    omega

example (ty : MpeType) (f v : Nat → BitVec 8) :
    ∃ x F y, S32.buildSelMpe ty 2 512 64 64 ⟨some f, some v⟩ (textOf pairText2) = ok x ∧ S32.save x [] = ok F ∧
      S32.load 16 32 F = ok (y, []) ∧ ∀ s, S32.selectMpe ty s 2 512 y 1 = S32.selectMpe ty s 2 512 x 1 := by
  obtain ⟨hc, ht⟩ := pair2_loose
  obtain ⟨x, F, y, e, h2, h3, h4⟩ := C99_mpe32_many (pair32b_ok ty) (by decide) 64 64 16 32 f v (by rw [hc]; decide) ht
  exact ⟨x, F, y, e, h2, h3, fun s => h4 s 1 (by decide) (by rw [hc]; decide) (Or.inr (Or.inl (by rw [hc]; decide)))⟩

/-- A single one in the first bit is found before saving, and not after. -/
theorem C99_mpe32_lost (ty : MpeType) (f v : Nat → BitVec 8) :
    ∃ x F y, S32.buildSelMpe ty 128 4096 64 64 ⟨some f, some v⟩ (textOf [0x80#8]) = ok x ∧ S32.save x [] = ok F ∧
      S32.load 64 64 F = ok (y, []) ∧ S32.selectMpe ty false 128 4096 x 1 = ok 0 ∧
      ∃ e, S32.selectMpe ty false 128 4096 y 1 = ub e := by
  obtain ⟨hc, hu⟩ := unsaved32_one
  have ho := overflow32_none (X := [0x80#8]) (L := 128) (TH := 4096) (by decide) 64
  have hs := selMpe32_shipped ty (X := [0x80#8]) (by decide)
  obtain ⟨x, e, F, h2, h3⟩ := C99_mpe32_file_partial hs 64 64 f v (by rw [hc]; decide) ho
  obtain ⟨y, h4, -, -, -, h5⟩ := (h3 64 64).1
  obtain ⟨x', e', h⟩ := C96_mpe32_select_partial hs 64 64 f v (by rw [hc]; decide) ho
  rw [e] at e'
  injection e' with e'
  subst e'
  have h4 := h4 []
  rw [List.append_nil] at h4
  refine ⟨x, F, y, e, h2 [], h4, ?_, ?_⟩
  · obtain ⟨p, hp, hs⟩ := h 1 (by decide) (by rw [hc]; decide) (by
      rintro ⟨⟨-, a, h2, h3⟩, -⟩
      have ha := (upTo_iff (X := [0x80#8]) (by rw [tot_count, hc]; decide)).1 h2
      rw [hc, if_pos (by decide)] at ha
      subst ha
      rw [hc] at h3
      exact absurd h3 (by decide +kernel)) (Or.inl (by rw [hc]; decide))
    rw [isSelect_sel [0x80#8] (i := 1) (by decide) (by rw [tot_count, hc]; decide)] at hs
    rw [hp, hs]
    exact congrArg ok (by decide +kernel)
  · have := h5 hu false
    rw [hc] at this
    exact this

/-- With a last group of `L` bits, the byte that a query reads behind the saved ones has no value after `load`. -/
theorem C99_mpe32_unwritten (ty : MpeType) :
    ∃ x F y, S32.buildSelMpe ty 2 512 64 64 ⟨some (fun _ => 0#8), some (fun _ => 0#8)⟩ (textOf pairText3) = ok x ∧
      S32.save x [] = ok F ∧ S32.load 64 64 F = ok (y, []) ∧ S32.selectMpe ty false 2 512 x 3 = ok 261 ∧
      S32.selectMpe ty false 2 512 y 3 = ub .uninit := by
  cases ty <;> refine ⟨_, _, _, rfl, rfl, rfl, ?_, ?_⟩ <;> decide +kernel

/-- So the full claim is false. -/
theorem C99_mpe32_file_false (ty : MpeType) (f v : Nat → BitVec 8) : ¬ ∀ (X : List (BitVec 8)) (aS aB bS bB : Nat),
    X.length < 2 ^ 29 → 1 ≤ (Text.bits X).count true → ∀ x F y,
    S32.buildSelMpe ty 128 4096 aS aB ⟨some f, some v⟩ (textOf X) = ok x → S32.save x [] = ok F →
    S32.load bS bB F = ok (y, []) → ∀ i p, 1 ≤ i → i ≤ (Text.bits X).count true →
      S32.selectMpe ty false 128 4096 x i = ok p → S32.selectMpe ty false 128 4096 y i = ok p := by
  intro h
  obtain ⟨x, F, y, h1, h2, h3, h4, e, h5⟩ := C99_mpe32_lost ty f v
  have := h [0x80#8] 64 64 64 64 (by decide) (by decide +kernel) x F y h1 h2 h3 1 0 (by decide) (by decide +kernel) h4
  rw [h5] at this
  cases this

end MRS.Props
