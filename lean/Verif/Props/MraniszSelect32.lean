import Verif.Proofs.Mranisz.S32File
import Verif.Props.MraniszFile
import Verif.Props.Bitmap

/-!
# Properties of the 32-bit compressed select (include/mranisz), C88-C91

`X` is the text, a list of bytes; `aS`, `aB` are the addresses that `new[]` returns; `L`, `TH` the
template parameters `L`, `THRESHOLD`.  `select` counts from one.  Positions are `unsigned int`, so texts
have fewer than `2^29` bytes.
-/

set_option autoImplicit false
set_option maxRecDepth 8192

namespace MRS.Props
open MRS.Mran Outcome Spec

variable {X : List (BitVec 8)} {L TH : Nat}

/-- Number of groups of `L` ones. -/
abbrev groups (X : List (BitVec 8)) (L : Nat) : Nat := ((Text.bits X).count true + (L - 1)) / L

/-- Parameters that the constructor accepts (select.hpp line 523; the queries add up to 64 to numbers up
to `TH`), a text whose positions and entries fit `unsigned int`, and `c` bytes for each byte of the text
fit too. -/
structure Sel32Ok (X : List (BitVec 8)) (L TH : Nat) : Prop where
  pos : 1 ≤ L
  lt : L < TH
  top : TH ≤ 2 ^ 32 - 64
  len : X.length < 2 ^ 29
  ent : 2 * groups X L + 2 + 32 < 2 ^ 32
  fit : ∃ c, 1 ≤ c ∧ 32 * (L - 1) ≤ c * TH ∧ c * X.length + groups X L + 128 < 2 ^ 32

theorem Sel32Ok.nbk (h : Sel32Ok X L TH) : 2 * nbk (textOf X) L + 2 + 32 < 2 ^ 32 := by
  rw [nbk_ceil h.pos, tot_count]
  exact h.ent

theorem Sel32Ok.room (h : Sel32Ok X L TH) : S32.B (textOf X) L TH + 128 < 2 ^ 32 := by
  obtain ⟨c, h1, h2, h3⟩ := h.fit
  have := S32.bytes_le (t := textOf X) h.pos h1 h2
  rw [nbk_ceil h.pos, tot_count, show (textOf X).len = X.length from rfl] at this
  exact Nat.lt_of_le_of_lt (Nat.add_le_add_right this 128) h3

/-- With the benchmark's parameters every text of fewer than `2^29` bytes will do. -/
theorem sel32_benchmark (h : X.length < 2 ^ 29) : Sel32Ok X 128 4096 := by
  have h1 : (Text.bits X).count true ≤ 8 * X.length := by
    have := tot_le (textOf X)
    rw [tot_count] at this
    exact this
  have h2 : groups X 128 ≤ X.length := by unfold groups; omega
  exact ⟨by decide, by decide, by decide, h, by omega, 1, by decide, by decide, by omega⟩

/-- Fewer than `L` ones, the last at position `TH`, and the room after the array is too small for their
positions. -/
def Overflow32 (X : List (BitVec 8)) (L TH aB : Nat) : Prop :=
  Text.LastAt (Text.bits X) L TH ∧ (TH + 7) / 8 + roomBytes aB < 4 * (Text.bits X).count true

theorem short_iff (h : Sel32Ok X L TH) (h1 : 1 ≤ tot (textOf X)) (aB : Nat) :
    S32.Short (textOf X) L TH aB ↔ Overflow32 X L TH aB := by
  have hr := h.room
  unfold S32.Short Overflow32
  rw [lastAt_iff h.pos h1, tot_count]
  exact ⟨fun h => h.elim id (fun h => absurd h (by omega)), Or.inl⟩

/-- It cannot happen with the benchmark's parameters. -/
theorem overflow32_none (h : 32 * (L - 1) ≤ TH) (aB : Nat) : ¬ Overflow32 X L TH aB := by
  rintro ⟨⟨h1, -⟩, h2⟩
  omega

theorem ones_pos (h1 : 1 ≤ (Text.bits X).count true) : 1 ≤ tot (textOf X) := by rw [tot_count]; exact h1

theorem w32 {n : Nat} (h : 2 * n + 2 + 32 < 2 ^ 32) : 2 * n + 2 < W32 := by simp only [W32]; omega

theorem sample32 : Sel32Ok sampleOnes 4 12 ∧ 1 ≤ (Text.bits sampleOnes).count true ∧ ¬ Overflow32 sampleOnes 4 12 64 := by
  have hc : (Text.bits sampleOnes).count true = 10 := by decide +kernel
  refine ⟨⟨by decide, by decide, by decide, by decide, by unfold groups; rw [hc]; decide, 8, by decide, by decide,
    by unfold groups; rw [hc]; decide⟩, by rw [hc]; decide, ?_⟩
  unfold Overflow32 Text.LastAt
  rw [hc]
  decide

/-- 17 ones, the last at 200, with the array 16 bytes before a multiple of 128 (`new[]` returns multiples
of 16). -/
def overText32 : List (BitVec 8) := List.replicate 2 0xFF#8 ++ List.replicate 23 0#8 ++ [0x80#8]

theorem over32 : Sel32Ok overText32 128 200 ∧ 1 ≤ (Text.bits overText32).count true ∧ Overflow32 overText32 128 200 16 := by
  have hc : (Text.bits overText32).count true = 17 := by decide +kernel
  refine ⟨⟨by decide, by decide, by decide, by decide, by unfold groups; rw [hc]; decide, 21, by decide, by decide,
    by unfold groups; rw [hc]; decide⟩, by rw [hc]; decide, ⟨by rw [hc]; decide, ?_⟩, by rw [hc]; decide⟩
  rw [hc]
  decide +kernel

/-- One one at the end of 16 bytes. -/
theorem wide32 : 1 ≤ (Text.bits (List.replicate 15 0#8 ++ [1#8])).count true ∧
    Text.LastWide (Text.bits (List.replicate 15 0#8 ++ [1#8])) 128 := ⟨wideText.2.1, wideText.2.2.2⟩

/-! ### All bytes the same -/

theorem ones_same {b : BitVec 8} {n : Nat} : ∀ k, k ≤ n →
    ones (Text.bits (List.replicate n b)) (8 * k) = ones (Text.bits [b]) 8 * k ∧
      ∀ j, j < 8 → k < n → (Text.bits (List.replicate n b))[8 * k + j]? = (Text.bits [b])[j]? := by
  induction n with
  | zero =>
    intro k hk
    have : k = 0 := by omega
    subst this
    exact ⟨rfl, fun j _ h => absurd h (by omega)⟩
  | succ n ih =>
    intro k hk
    have e : Text.bits (List.replicate (n + 1) b) = Text.bits [b] ++ Text.bits (List.replicate n b) := by
      rw [List.replicate_succ]
      unfold Text.bits
      rw [List.flatMap_cons, List.flatMap_cons, List.flatMap_nil, List.append_nil]
    have hl : (Text.bits [b]).length = 8 := rfl
    rw [e]
    generalize hY : Text.bits (List.replicate n b) = Y at ih
    generalize hZ : Text.bits [b] = Z at hl ih
    cases k with
    | zero =>
      refine ⟨rfl, fun j hj _ => ?_⟩
      rw [List.getElem?_append_left (by omega), Nat.mul_zero, Nat.zero_add]
    | succ k =>
      obtain ⟨h1, h2⟩ := ih k (by omega)
      unfold ones at *
      refine ⟨?_, fun j hj hk2 => ?_⟩
      · rw [List.take_append, List.take_of_length_le (by omega), hl, show 8 * (k + 1) - 8 = 8 * k by omega, List.count_append,
          h1, List.take_of_length_le (by omega), Nat.mul_succ]
        omega
      · rw [List.getElem?_append_right (by omega), hl, show 8 * (k + 1) + j - 8 = 8 * k + j by omega]
        exact h2 j hj (by omega)

theorem count_same (b : BitVec 8) (n : Nat) :
    (Text.bits (List.replicate n b)).count true = ones (Text.bits [b]) 8 * n := by
  rw [← (ones_same (b := b) (n := n) n (Nat.le_refl _)).1]
  unfold ones
  rw [List.take_of_length_le]
  rw [bits_length, List.length_replicate]
  exact Nat.le_refl _

/-! ## C88: `SelectBasic32<SELECT_BASIC_STANDARD>` -/

/-- Right for every one of a complete group, and of the last group unless it is `LastWide`.  Missing
from the full claim: texts without ones, `Overflow32`, a wide last group, texts whose entries, bytes or
positions do not fit (`C88_std_no_ones` to `C88_std_beyond`). -/
theorem C88_std_select_partial (h : Sel32Ok X L TH) (aS aB : Nat)
    (h1 : 1 ≤ (Text.bits X).count true) (ho : ¬ Overflow32 X L TH aB) :
    ∃ x, S32.buildSel L TH aS aB (textOf X) = ok x ∧ ∀ i, 1 ≤ i → i ≤ (Text.bits X).count true →
      ¬ (Text.LastWide (Text.bits X) L ∧ (Text.bits X).count true / L * L < i) →
      ∃ p, S32.selectStd false L TH x i = ok p ∧ IsSelect (Text.bits X) (i - 1) p := by
  rw [← short_iff h (ones_pos h1)] at ho
  obtain ⟨x, e, hx⟩ := (S32.buildSel_cases (t := textOf X) (TH := TH) h.pos h.len (ones_pos h1) h.nbk aS aB).1 ho
  refine ⟨x, e, fun i hi1 hi2 hb => ?_⟩
  rw [← tot_count] at hi2 hb
  rw [lastWide_iff h.pos (ones_pos h1)] at hb
  have := (S32.selectStd_ok h.pos h.len (w32 h.nbk) hx).good false i hi1 hi2 hb
  rw [if_neg (by simp)] at this
  exact ⟨_, this, (isSelect_sel X hi1 hi2).2 rfl⟩

example : ∃ x, S32.buildSel 4 12 64 64 (textOf sampleOnes) = ok x ∧
    ∃ p, S32.selectStd false 4 12 x 6 = ok p ∧ IsSelect (Text.bits sampleOnes) 5 p := by
  have hc : (Text.bits sampleOnes).count true = 10 := by decide +kernel
  obtain ⟨x, e, h⟩ := C88_std_select_partial sample32.1 64 64 sample32.2.1 sample32.2.2
  refine ⟨x, e, h 6 (by decide) (by rw [hc]; decide) ?_⟩
  rw [hc]
  rintro ⟨-, h⟩
  exact absurd h (by decide)

/-- With the benchmark's parameters only the wide last group remains (the 64-bit class can also write
beyond its array). -/
theorem C88_std_benchmark (hlen : X.length < 2 ^ 29) (aS aB : Nat) (h1 : 1 ≤ (Text.bits X).count true) :
    ∃ x, S32.buildSel 128 4096 aS aB (textOf X) = ok x ∧ ∀ i, 1 ≤ i → i ≤ (Text.bits X).count true →
      ¬ (Text.LastWide (Text.bits X) 128 ∧ (Text.bits X).count true / 128 * 128 < i) →
      ∃ p, S32.selectStd false 128 4096 x i = ok p ∧ IsSelect (Text.bits X) (i - 1) p :=
  C88_std_select_partial (sel32_benchmark hlen) aS aB h1 (overflow32_none (by decide) aB)

example : ∃ x, S32.buildSel 128 4096 0 16 (textOf overText) = ok x := by
  obtain ⟨x, e, -⟩ := C88_std_benchmark (X := overText) (by decide) 0 16 overText_over.1
  exact ⟨x, e⟩

/-- With loads that must be aligned, the same queries give the same answer or a misaligned load. -/
theorem C88_std_select_strict (h : Sel32Ok X L TH) (aS aB : Nat)
    (h1 : 1 ≤ (Text.bits X).count true) (ho : ¬ Overflow32 X L TH aB) :
    ∃ x, S32.buildSel L TH aS aB (textOf X) = ok x ∧ ∀ i, 1 ≤ i → i ≤ (Text.bits X).count true →
      ¬ (Text.LastWide (Text.bits X) L ∧ (Text.bits X).count true / L * L < i) →
      S32.selectStd true L TH x i = ub .misaligned ∨
        ∃ p, S32.selectStd true L TH x i = ok p ∧ IsSelect (Text.bits X) (i - 1) p := by
  rw [← short_iff h (ones_pos h1)] at ho
  obtain ⟨x, e, hx⟩ := (S32.buildSel_cases (t := textOf X) (TH := TH) h.pos h.len (ones_pos h1) h.nbk aS aB).1 ho
  refine ⟨x, e, fun i hi1 hi2 hb => ?_⟩
  rw [← tot_count] at hi2 hb
  rw [lastWide_iff h.pos (ones_pos h1)] at hb
  have := (S32.selectStd_ok h.pos h.len (w32 h.nbk) hx).good true i hi1 hi2 hb
  by_cases hc : true = true ∧ i % L ≠ 0 ∧ bl (textOf X) L (i / L) ≠ L ∧ S32.Mis (textOf X) L TH (i / L)
  · rw [if_pos hc] at this
    exact Or.inl this
  · rw [if_neg hc] at this
    exact Or.inr ⟨_, this, (isSelect_sel X hi1 hi2).2 rfl⟩

example : ∃ x, S32.buildSel 4 12 64 64 (textOf sampleOnes) = ok x ∧ (S32.selectStd true 4 12 x 3 = ub .misaligned ∨
    ∃ p, S32.selectStd true 4 12 x 3 = ok p ∧ IsSelect (Text.bits sampleOnes) 2 p) := by
  have hc : (Text.bits sampleOnes).count true = 10 := by decide +kernel
  obtain ⟨x, e, h⟩ := C88_std_select_strict sample32.1 64 64 sample32.2.1 sample32.2.2
  refine ⟨x, e, h 3 (by decide) (by rw [hc]; decide) ?_⟩
  rw [hc]
  rintro ⟨-, h⟩
  exact absurd h (by decide)

/-- A misaligned load: a group of two ones in three bits, then a wide one. -/
theorem C88_std_misaligned : ∃ x, S32.buildSel 2 8 64 64 (textOf [0xA0#8, 0#8, 0x60#8]) = ok x ∧
    S32.selectStd true 2 8 x 3 = ub .misaligned ∧ S32.selectStd false 2 8 x 3 = ok 17 := by
  refine ⟨_, rfl, ?_, ?_⟩ <;> decide +kernel

/-- A last group with fewer than `L` ones that takes `L` bits is read as if it were all ones; its last
one is always answered wrongly. -/
theorem C88_std_last_wrong (h : Sel32Ok X L TH) (aS aB : Nat)
    (h1 : 1 ≤ (Text.bits X).count true) (ho : ¬ Overflow32 X L TH aB) (hw : Text.LastWide (Text.bits X) L) (s : Bool) :
    ∃ x a, S32.buildSel L TH aS aB (textOf X) = ok x ∧ Text.UpTo (Text.bits X) ((Text.bits X).count true / L * L) a ∧
      (∀ i, (Text.bits X).count true / L * L < i → i ≤ (Text.bits X).count true →
        S32.selectStd s L TH x i = ok (a + (i - (Text.bits X).count true / L * L) - 1)) ∧
      ∃ p, S32.selectStd s L TH x ((Text.bits X).count true) = ok p ∧
        ¬ IsSelect (Text.bits X) ((Text.bits X).count true - 1) p := by
  obtain ⟨hr, a, ha1, ha2⟩ := hw
  have hw : Text.LastWide (Text.bits X) L := ⟨hr, a, ha1, ha2⟩
  rw [← short_iff h (ones_pos h1)] at ho
  obtain ⟨x, e, hx⟩ := (S32.buildSel_cases (t := textOf X) (TH := TH) h.pos h.len (ones_pos h1) h.nbk aS aB).1 ho
  have h1 := ones_pos h1
  simp only [← tot_count] at *
  rw [lastWide_iff h.pos h1] at hw
  have hbad := (S32.selectStd_ok h.pos h.len (w32 h.nbk) hx).bad s
  have hdm := Nat.div_add_mod (tot (textOf X)) L
  have hml := Nat.mod_lt (tot (textOf X)) h.pos
  rw [Nat.mul_comm] at hdm
  have hae : a = en (textOf X) L (tot (textOf X) / L) := by
    have := upTo_en (X := X) (L := L) (m := tot (textOf X) / L) (e := a) h.pos h1
    rw [ob_full (Nat.le_refl _)] at this
    exact this.1 ha1
  refine ⟨x, a, e, ha1, fun i hi1 hi2 => ?_, _, hbad _ (Nat.le_refl _) hw (by omega), ?_⟩
  · have := hbad i hi2 hw hi1
    rw [this, hae]
  · rw [isSelect_sel X h1 (Nat.le_refl _), ← hae]
    rw [upTo_iff (Nat.le_refl _), if_neg (by omega)] at ha2
    omega

example : ∃ x p, S32.buildSel 128 4096 64 64 (textOf (List.replicate 15 0#8 ++ [1#8])) = ok x ∧
    S32.selectStd true 128 4096 x 1 = ok p ∧ ¬ IsSelect (Text.bits (List.replicate 15 0#8 ++ [1#8])) 0 p := by
  have hc : (Text.bits (List.replicate 15 0#8 ++ [1#8])).count true = 1 := by decide +kernel
  obtain ⟨w1, w2⟩ := wide32
  obtain ⟨x, -, e, -, -, p, h⟩ := C88_std_last_wrong (sel32_benchmark (by decide)) 64 64 w1 (overflow32_none (by decide) 64) w2 true
  rw [hc] at h
  exact ⟨x, p, e, h⟩

/-- So the full claim is false, for the parameters that the benchmark uses. -/
theorem C88_std_select_false : ¬ ∀ (X : List (BitVec 8)) (aS aB : Nat), X.length < 2 ^ 29 →
    1 ≤ (Text.bits X).count true →
    ∃ x, S32.buildSel 128 4096 aS aB (textOf X) = ok x ∧ ∀ i, 1 ≤ i → i ≤ (Text.bits X).count true →
      ∃ p, S32.selectStd false 128 4096 x i = ok p ∧ IsSelect (Text.bits X) (i - 1) p := by
  intro h
  obtain ⟨w1, w2⟩ := wide32
  obtain ⟨x, e, hx⟩ := h _ 64 64 (by decide) w1
  obtain ⟨x', -, e', -, -, p, hp, hn⟩ := C88_std_last_wrong (sel32_benchmark (by decide)) 64 64 w1 (overflow32_none (by decide) 64) w2 false
  rw [e] at e'
  injection e' with e'
  subst e'
  obtain ⟨p', hp', hs⟩ := hx _ w1 (Nat.le_refl _)
  rw [hp] at hp'
  injection hp' with hp'
  subst hp'
  exact hn hs

/-- Without a one, `build` reads an entry that was never written. -/
theorem C88_std_no_ones (hL : 1 ≤ L) (hlen : X.length < 2 ^ 29) (aS aB : Nat)
    (h0 : (Text.bits X).count true = 0) : S32.buildSel L TH aS aB (textOf X) = ub .uninit :=
  S32.buildSel_none hL hlen (by rw [tot_count]; exact h0) aS aB

example : S32.buildSel 128 4096 64 64 (textOf [0#8, 0#8]) = ub .uninit :=
  C88_std_no_ones (by decide) (by decide) 64 64 (by decide)

/-- `build` writes beyond its array when the ones are fewer than `L`, the last one is at position `TH`,
and there are too many for the room that the first pass counted. -/
theorem C88_std_overflow (h : Sel32Ok X L TH) (aS aB : Nat)
    (h1 : 1 ≤ (Text.bits X).count true) (ho : Overflow32 X L TH aB) : S32.buildSel L TH aS aB (textOf X) = ub .oob := by
  rw [← short_iff h (ones_pos h1)] at ho
  exact (S32.buildSel_cases (t := textOf X) (TH := TH) h.pos h.len (ones_pos h1) h.nbk aS aB).2 ho

example : S32.buildSel 128 200 0 16 (textOf overText32) = ub .oob :=
  C88_std_overflow over32.1 0 16 over32.2.1 over32.2.2

/-- It also does when the number of entries does not fit `unsigned int`, which needs `L ≤ 2`. -/
theorem C88_std_entries (hL : 1 ≤ L) (hlen : X.length < 2 ^ 29) (aS aB : Nat)
    (hE : 2 ^ 32 ≤ 2 * groups X L + 2 + 32) : S32.buildSel L TH aS aB (textOf X) = ub .oob :=
  S32.buildSel_many hL hlen (by rw [nbk_ceil hL, tot_count]; exact hE) aS aB

/-- `2^28` bytes FF and groups of one. -/
example : ∃ X : List (BitVec 8), S32.buildSel 1 2 64 64 (textOf X) = ub .oob := by
  obtain ⟨n, hn⟩ : ∃ n, n = 268435456 := ⟨_, rfl⟩
  refine ⟨List.replicate n 0xFF#8, C88_std_entries (Nat.le_refl _) (by rw [List.length_replicate]; omega) 64 64 ?_⟩
  unfold groups
  rw [count_same, show ones (Text.bits [0xFF#8]) 8 = 8 from by decide]
  omega

/-- And when the positions that are stored do not fit: every complete group takes more than `TH` bits, so
its `L - 1` positions take four bytes each. -/
theorem C88_std_bytes (hL : 1 ≤ L) (hlen : X.length < 2 ^ 29) (aS aB : Nat)
    (hw : ∀ k, k < (Text.bits X).count true / L → Text.GroupWide (Text.bits X) L TH k)
    (hB : 2 ^ 32 ≤ 4 * (L - 1) * ((Text.bits X).count true / L) + 128) :
    S32.buildSel L TH aS aB (textOf X) = ub .oob := by
  rw [← tot_count] at hw hB
  have h1 : 1 ≤ tot (textOf X) := by
    refine Nat.pos_of_ne_zero (fun h => ?_)
    rw [h, Nat.zero_div, Nat.mul_zero] at hB
    omega
  have hr := S32.wide_bytes (TH := TH) hL hw
  by_cases hE : 2 * nbk (textOf X) L + 2 + 32 < 2 ^ 32
  · exact (S32.buildSel_cases (t := textOf X) (TH := TH) hL hlen h1 hE aS aB).2 (Or.inr (by omega))
  · exact S32.buildSel_many hL hlen (Nat.le_of_not_lt hE) aS aB

/-- `2^28` bytes 3F, `L` 6 and `THRESHOLD` 7. -/
example : ∃ X : List (BitVec 8), S32.buildSel 6 7 64 64 (textOf X) = ub .oob := by
  obtain ⟨n, hn⟩ : ∃ n, n = 268435456 := ⟨_, rfl⟩
  have hs := ones_same (b := 0x3F#8) (n := n)
  have e6 : ones (Text.bits [0x3F#8]) 8 = 6 := by decide
  have hc : (Text.bits (List.replicate n 0x3F#8)).count true = 6 * n := by rw [count_same, e6]
  have hu : ∀ k, k ≤ n → Text.UpTo (Text.bits (List.replicate n 0x3F#8)) (k * 6) (8 * k) := by
    intro k hk
    refine ⟨by rw [(hs k hk).1, e6, Nat.mul_comm], ?_⟩
    by_cases h0 : k = 0
    · left; rw [h0]
    · right
      rw [show 8 * k - 1 = 8 * (k - 1) + 7 by omega, (hs (k - 1) (by omega)).2 7 (by decide) (by omega)]
      decide
  refine ⟨List.replicate n 0x3F#8, C88_std_bytes (by decide) (by rw [List.length_replicate]; omega) 64 64 ?_ ?_⟩
  · intro k hk
    rw [hc] at hk
    exact ⟨8 * k, 8 * (k + 1), hu k (by omega), hu (k + 1) (by omega), by omega⟩
  · rw [hc]
    omega

/-- No object ever answers with a position of `2^32` or more, so texts from `2^29` bytes on are not
answered right if they have a one there. -/
theorem C88_std_beyond (x : Select) (s : Bool) {i p : Nat} (h : IsSelect (Text.bits X) (i - 1) p) (hp : 2 ^ 32 ≤ p) :
    ¬ ∃ p', S32.selectStd s L TH x i = ok p' ∧ IsSelect (Text.bits X) (i - 1) p' := by
  rintro ⟨p', hq, h'⟩
  have := S32.selectStd_lt hq
  have := C03_select_unique h h'
  omega

/-- `2^29 + 1` bytes 80. -/
example (x : Select) : ∃ X : List (BitVec 8), ∃ i p, IsSelect (Text.bits X) (i - 1) p ∧
    ¬ ∃ p', S32.selectStd false L TH x i = ok p' ∧ IsSelect (Text.bits X) (i - 1) p' := by
  obtain ⟨n, hn⟩ : ∃ n, n = 536870912 := ⟨_, rfl⟩
  have hs := ones_same (b := 0x80#8) (n := n + 1) n (by omega)
  have e1 : ones (Text.bits [0x80#8]) 8 = 1 := by decide
  have hsel : IsSelect (Text.bits (List.replicate (n + 1) 0x80#8)) (n + 1 - 1) (8 * n) := by
    refine ⟨?_, ?_⟩
    · have := hs.2 0 (by decide) (by omega)
      exact this.trans (by decide)
    · rw [hs.1, e1]
      omega
  exact ⟨_, n + 1, 8 * n, hsel, C88_std_beyond x false hsel (by omega)⟩

/-- `select(0)` is the largest number. -/
theorem C88_std_zero (h : Sel32Ok X L TH) (aS aB : Nat)
    (h1 : 1 ≤ (Text.bits X).count true) (ho : ¬ Overflow32 X L TH aB) :
    ∃ x, S32.buildSel L TH aS aB (textOf X) = ok x ∧ ∀ s, S32.selectStd s L TH x 0 = ok (2 ^ 32 - 1) := by
  rw [← short_iff h (ones_pos h1)] at ho
  obtain ⟨x, e, hx⟩ := (S32.buildSel_cases (t := textOf X) (TH := TH) h.pos h.len (ones_pos h1) h.nbk aS aB).1 ho
  exact ⟨x, e, fun s => S32.selectStd_zero hx s⟩

example : ∃ x, S32.buildSel 4 12 64 64 (textOf sampleOnes) = ok x ∧ S32.selectStd true 4 12 x 0 = ok (2 ^ 32 - 1) := by
  obtain ⟨x, e, h⟩ := C88_std_zero sample32.1 64 64 sample32.2.1 sample32.2.2
  exact ⟨x, e, h true⟩

/-! ## C89: `SelectBasic32<SELECT_BASIC_COMPRESSED_HEADERS>` -/

/-- The constructor's further conditions, select.hpp lines 529-536. -/
structure Bch32Ok (X : List (BitVec 8)) (L TH : Nat) : Prop extends Sel32Ok X L TH where
  small : 4 * (L - 1) ≤ 65535 / 15
  thr : TH - 1 ≤ 8 * (65535 / 15)

theorem bch32_benchmark (h : X.length < 2 ^ 29) : Bch32Ok X 128 4096 :=
  ⟨sel32_benchmark h, by decide, by decide⟩

theorem sampleBch32 : Bch32Ok sampleOnes 4 12 := ⟨sample32.1, by decide, by decide⟩

/-- As `C88_std_select_partial`. -/
theorem C89_bch_select_partial (h : Bch32Ok X L TH) (aS aB : Nat)
    (h1 : 1 ≤ (Text.bits X).count true) (ho : ¬ Overflow32 X L TH aB) :
    ∃ x, S32.buildSelBch L TH aS aB (textOf X) = ok x ∧ ∀ i, 1 ≤ i → i ≤ (Text.bits X).count true →
      ¬ (Text.LastWide (Text.bits X) L ∧ (Text.bits X).count true / L * L < i) →
      ∃ p, S32.selectBch false L TH x i = ok p ∧ IsSelect (Text.bits X) (i - 1) p := by
  rw [← short_iff h.toSel32Ok (ones_pos h1)] at ho
  obtain ⟨x, e, hx⟩ := (S32.buildSelBch_cases (t := textOf X) (TH := TH) h.pos h.len (ones_pos h1) (Nat.le_of_lt h.nbk) aS aB).1 ho
  refine ⟨x, e, fun i hi1 hi2 hb => ?_⟩
  rw [← tot_count] at hi2 hb
  rw [lastWide_iff h.pos (ones_pos h1)] at hb
  have := (S32.selectBch_ok h.pos h.small h.thr (Nat.le_of_lt h.nbk) h.len hx).good false i hi1 hi2 hb
  rw [if_neg (by simp)] at this
  exact ⟨_, this, (isSelect_sel X hi1 hi2).2 rfl⟩

example : ∃ x, S32.buildSelBch 4 12 64 64 (textOf sampleOnes) = ok x ∧
    ∃ p, S32.selectBch false 4 12 x 6 = ok p ∧ IsSelect (Text.bits sampleOnes) 5 p := by
  have hc : (Text.bits sampleOnes).count true = 10 := by decide +kernel
  obtain ⟨x, e, h⟩ := C89_bch_select_partial sampleBch32 64 64 sample32.2.1 sample32.2.2
  refine ⟨x, e, h 6 (by decide) (by rw [hc]; decide) ?_⟩
  rw [hc]
  rintro ⟨-, h⟩
  exact absurd h (by decide)

/-- With the benchmark's parameters only the wide last group remains (the 64-bit class can also write
beyond its array). -/
theorem C89_bch_benchmark (hlen : X.length < 2 ^ 29) (aS aB : Nat) (h1 : 1 ≤ (Text.bits X).count true) :
    ∃ x, S32.buildSelBch 128 4096 aS aB (textOf X) = ok x ∧ ∀ i, 1 ≤ i → i ≤ (Text.bits X).count true →
      ¬ (Text.LastWide (Text.bits X) 128 ∧ (Text.bits X).count true / 128 * 128 < i) →
      ∃ p, S32.selectBch false 128 4096 x i = ok p ∧ IsSelect (Text.bits X) (i - 1) p :=
  C89_bch_select_partial (bch32_benchmark hlen) aS aB h1 (overflow32_none (by decide) aB)

example : ∃ x, S32.buildSelBch 128 4096 0 16 (textOf overText) = ok x := by
  obtain ⟨x, e, -⟩ := C89_bch_benchmark (X := overText) (by decide) 0 16 overText_over.1
  exact ⟨x, e⟩

/-- With loads that must be aligned, the same queries give the same answer or a misaligned load. -/
theorem C89_bch_select_strict (h : Bch32Ok X L TH) (aS aB : Nat)
    (h1 : 1 ≤ (Text.bits X).count true) (ho : ¬ Overflow32 X L TH aB) :
    ∃ x, S32.buildSelBch L TH aS aB (textOf X) = ok x ∧ ∀ i, 1 ≤ i → i ≤ (Text.bits X).count true →
      ¬ (Text.LastWide (Text.bits X) L ∧ (Text.bits X).count true / L * L < i) →
      S32.selectBch true L TH x i = ub .misaligned ∨
        ∃ p, S32.selectBch true L TH x i = ok p ∧ IsSelect (Text.bits X) (i - 1) p := by
  rw [← short_iff h.toSel32Ok (ones_pos h1)] at ho
  obtain ⟨x, e, hx⟩ := (S32.buildSelBch_cases (t := textOf X) (TH := TH) h.pos h.len (ones_pos h1) (Nat.le_of_lt h.nbk) aS aB).1 ho
  refine ⟨x, e, fun i hi1 hi2 hb => ?_⟩
  rw [← tot_count] at hi2 hb
  rw [lastWide_iff h.pos (ones_pos h1)] at hb
  have := (S32.selectBch_ok h.pos h.small h.thr (Nat.le_of_lt h.nbk) h.len hx).good true i hi1 hi2 hb
  by_cases hc : true = true ∧ i % L ≠ 0 ∧ bl (textOf X) L (i / L) ≠ L ∧ S32.Mis (textOf X) L TH (i / L)
  · rw [if_pos hc] at this
    exact Or.inl this
  · rw [if_neg hc] at this
    exact Or.inr ⟨_, this, (isSelect_sel X hi1 hi2).2 rfl⟩

example : ∃ x, S32.buildSelBch 4 12 64 64 (textOf sampleOnes) = ok x ∧ (S32.selectBch true 4 12 x 3 = ub .misaligned ∨
    ∃ p, S32.selectBch true 4 12 x 3 = ok p ∧ IsSelect (Text.bits sampleOnes) 2 p) := by
  have hc : (Text.bits sampleOnes).count true = 10 := by decide +kernel
  obtain ⟨x, e, h⟩ := C89_bch_select_strict sampleBch32 64 64 sample32.2.1 sample32.2.2
  refine ⟨x, e, h 3 (by decide) (by rw [hc]; decide) ?_⟩
  rw [hc]
  rintro ⟨-, h⟩
  exact absurd h (by decide)

/-- A misaligned load: a group of two ones in three bits, then a wide one. -/
theorem C89_bch_misaligned : ∃ x, S32.buildSelBch 2 8 64 64 (textOf [0xA0#8, 0#8, 0x60#8]) = ok x ∧
    S32.selectBch true 2 8 x 3 = ub .misaligned ∧ S32.selectBch false 2 8 x 3 = ok 17 := by
  refine ⟨_, rfl, ?_, ?_⟩ <;> decide +kernel

/-- A last group with fewer than `L` ones that takes `L` bits is read as if it were all ones; its last
one is always answered wrongly. -/
theorem C89_bch_last_wrong (h : Bch32Ok X L TH) (aS aB : Nat)
    (h1 : 1 ≤ (Text.bits X).count true) (ho : ¬ Overflow32 X L TH aB) (hw : Text.LastWide (Text.bits X) L) (s : Bool) :
    ∃ x a, S32.buildSelBch L TH aS aB (textOf X) = ok x ∧ Text.UpTo (Text.bits X) ((Text.bits X).count true / L * L) a ∧
      (∀ i, (Text.bits X).count true / L * L < i → i ≤ (Text.bits X).count true →
        S32.selectBch s L TH x i = ok (a + (i - (Text.bits X).count true / L * L) - 1)) ∧
      ∃ p, S32.selectBch s L TH x ((Text.bits X).count true) = ok p ∧
        ¬ IsSelect (Text.bits X) ((Text.bits X).count true - 1) p := by
  obtain ⟨hr, a, ha1, ha2⟩ := hw
  have hw : Text.LastWide (Text.bits X) L := ⟨hr, a, ha1, ha2⟩
  rw [← short_iff h.toSel32Ok (ones_pos h1)] at ho
  obtain ⟨x, e, hx⟩ := (S32.buildSelBch_cases (t := textOf X) (TH := TH) h.pos h.len (ones_pos h1) (Nat.le_of_lt h.nbk) aS aB).1 ho
  have h1 := ones_pos h1
  simp only [← tot_count] at *
  rw [lastWide_iff h.pos h1] at hw
  have hbad := (S32.selectBch_ok h.pos h.small h.thr (Nat.le_of_lt h.nbk) h.len hx).bad s
  have hdm := Nat.div_add_mod (tot (textOf X)) L
  have hml := Nat.mod_lt (tot (textOf X)) h.pos
  rw [Nat.mul_comm] at hdm
  have hae : a = en (textOf X) L (tot (textOf X) / L) := by
    have := upTo_en (X := X) (L := L) (m := tot (textOf X) / L) (e := a) h.pos h1
    rw [ob_full (Nat.le_refl _)] at this
    exact this.1 ha1
  refine ⟨x, a, e, ha1, fun i hi1 hi2 => ?_, _, hbad _ (Nat.le_refl _) hw (by omega), ?_⟩
  · have := hbad i hi2 hw hi1
    rw [this, hae]
  · rw [isSelect_sel X h1 (Nat.le_refl _), ← hae]
    rw [upTo_iff (Nat.le_refl _), if_neg (by omega)] at ha2
    omega

example : ∃ x p, S32.buildSelBch 128 4096 64 64 (textOf (List.replicate 15 0#8 ++ [1#8])) = ok x ∧
    S32.selectBch true 128 4096 x 1 = ok p ∧ ¬ IsSelect (Text.bits (List.replicate 15 0#8 ++ [1#8])) 0 p := by
  have hc : (Text.bits (List.replicate 15 0#8 ++ [1#8])).count true = 1 := by decide +kernel
  obtain ⟨w1, w2⟩ := wide32
  obtain ⟨x, -, e, -, -, p, h⟩ := C89_bch_last_wrong (bch32_benchmark (by decide)) 64 64 w1 (overflow32_none (by decide) 64) w2 true
  rw [hc] at h
  exact ⟨x, p, e, h⟩

/-- So the full claim is false, for the parameters that the benchmark uses. -/
theorem C89_bch_select_false : ¬ ∀ (X : List (BitVec 8)) (aS aB : Nat), X.length < 2 ^ 29 →
    1 ≤ (Text.bits X).count true →
    ∃ x, S32.buildSelBch 128 4096 aS aB (textOf X) = ok x ∧ ∀ i, 1 ≤ i → i ≤ (Text.bits X).count true →
      ∃ p, S32.selectBch false 128 4096 x i = ok p ∧ IsSelect (Text.bits X) (i - 1) p := by
  intro h
  obtain ⟨w1, w2⟩ := wide32
  obtain ⟨x, e, hx⟩ := h _ 64 64 (by decide) w1
  obtain ⟨x', -, e', -, -, p, hp, hn⟩ := C89_bch_last_wrong (bch32_benchmark (by decide)) 64 64 w1 (overflow32_none (by decide) 64) w2 false
  rw [e] at e'
  injection e' with e'
  subst e'
  obtain ⟨p', hp', hs⟩ := hx _ w1 (Nat.le_refl _)
  rw [hp] at hp'
  injection hp' with hp'
  subst hp'
  exact hn hs

/-- Without a one, `build` writes one zero byte less than the text has bytes, though it has counted
none: beyond its array as soon as the text has 130 bytes. -/
theorem C89_bch_no_ones (hL : 1 ≤ L) (hTH : L < TH) (hlen : X.length < 2 ^ 29) (aS aB : Nat)
    (h0 : (Text.bits X).count true = 0) :
    (X.length ≤ roomBytes aB + 1 → ∃ x, S32.buildSelBch L TH aS aB (textOf X) = ok x) ∧
    (roomBytes aB + 1 < X.length → S32.buildSelBch L TH aS aB (textOf X) = ub .oob) :=
  S32.buildSelBch_none hL (show 1 ≤ TH by omega) hlen (by rw [tot_count]; exact h0) aS aB

example (aS aB : Nat) : S32.buildSelBch 128 4096 aS aB (textOf (List.replicate 130 0#8)) = ub .oob :=
  (C89_bch_no_ones (by decide) (by decide) (by decide) aS aB (by decide +kernel)).2
    (by have := roomBytes_pos aB; rw [List.length_replicate]; omega)

/-- `build` writes beyond its array when the ones are fewer than `L`, the last one is at position `TH`,
and there are too many for the room that the first pass counted. -/
theorem C89_bch_overflow (h : Bch32Ok X L TH) (aS aB : Nat)
    (h1 : 1 ≤ (Text.bits X).count true) (ho : Overflow32 X L TH aB) : S32.buildSelBch L TH aS aB (textOf X) = ub .oob := by
  rw [← short_iff h.toSel32Ok (ones_pos h1)] at ho
  exact (S32.buildSelBch_cases (t := textOf X) (TH := TH) h.pos h.len (ones_pos h1) (Nat.le_of_lt h.nbk) aS aB).2 ho

example : S32.buildSelBch 128 200 0 16 (textOf overText32) = ub .oob :=
  C89_bch_overflow ⟨over32.1, by decide, by decide⟩ 0 16 over32.2.1 over32.2.2

/-- It also does when the number of entries does not fit `unsigned int`, which needs `L ≤ 2`. -/
theorem C89_bch_entries (hL : 1 ≤ L) (hlen : X.length < 2 ^ 29) (aS aB : Nat)
    (hE : 2 ^ 32 < 2 * groups X L + 2 + 32) : S32.buildSelBch L TH aS aB (textOf X) = ub .oob :=
  S32.buildSelBch_many hL hlen (by rw [nbk_ceil hL, tot_count]; exact hE) aS aB

/-- `2^28` bytes FF and groups of one. -/
example : ∃ X : List (BitVec 8), S32.buildSelBch 1 2 64 64 (textOf X) = ub .oob := by
  obtain ⟨n, hn⟩ : ∃ n, n = 268435456 := ⟨_, rfl⟩
  refine ⟨List.replicate n 0xFF#8, C89_bch_entries (Nat.le_refl _) (by rw [List.length_replicate]; omega) 64 64 ?_⟩
  unfold groups
  rw [count_same, show ones (Text.bits [0xFF#8]) 8 = 8 from by decide]
  omega

/-- And when the positions that are stored do not fit: every complete group takes more than `TH` bits, so
its `L - 1` positions take four bytes each. -/
theorem C89_bch_bytes (hL : 1 ≤ L) (hlen : X.length < 2 ^ 29) (aS aB : Nat)
    (hw : ∀ k, k < (Text.bits X).count true / L → Text.GroupWide (Text.bits X) L TH k)
    (hB : 2 ^ 32 ≤ 4 * (L - 1) * ((Text.bits X).count true / L) + 128) :
    S32.buildSelBch L TH aS aB (textOf X) = ub .oob := by
  rw [← tot_count] at hw hB
  have h1 : 1 ≤ tot (textOf X) := by
    refine Nat.pos_of_ne_zero (fun h => ?_)
    rw [h, Nat.zero_div, Nat.mul_zero] at hB
    omega
  have hr := S32.wide_bytes (TH := TH) hL hw
  by_cases hE : 2 * nbk (textOf X) L + 2 + 32 < 2 ^ 32
  · exact (S32.buildSelBch_cases (t := textOf X) (TH := TH) hL hlen h1 (Nat.le_of_lt hE) aS aB).2 (Or.inr (by omega))
  · rcases Nat.lt_or_ge (2 ^ 32) (2 * nbk (textOf X) L + 2 + 32) with h | h
    · exact S32.buildSelBch_many hL hlen h aS aB
    · exact (S32.buildSelBch_cases (t := textOf X) (TH := TH) hL hlen h1 h aS aB).2 (Or.inr (by omega))

/-- `2^28` bytes 3F, `L` 6 and `THRESHOLD` 7. -/
example : ∃ X : List (BitVec 8), S32.buildSelBch 6 7 64 64 (textOf X) = ub .oob := by
  obtain ⟨n, hn⟩ : ∃ n, n = 268435456 := ⟨_, rfl⟩
  have hs := ones_same (b := 0x3F#8) (n := n)
  have e6 : ones (Text.bits [0x3F#8]) 8 = 6 := by decide
  have hc : (Text.bits (List.replicate n 0x3F#8)).count true = 6 * n := by rw [count_same, e6]
  have hu : ∀ k, k ≤ n → Text.UpTo (Text.bits (List.replicate n 0x3F#8)) (k * 6) (8 * k) := by
    intro k hk
    refine ⟨by rw [(hs k hk).1, e6, Nat.mul_comm], ?_⟩
    by_cases h0 : k = 0
    · left; rw [h0]
    · right
      rw [show 8 * k - 1 = 8 * (k - 1) + 7 by omega, (hs (k - 1) (by omega)).2 7 (by decide) (by omega)]
      decide
  refine ⟨List.replicate n 0x3F#8, C89_bch_bytes (by decide) (by rw [List.length_replicate]; omega) 64 64 ?_ ?_⟩
  · intro k hk
    rw [hc] at hk
    exact ⟨8 * k, 8 * (k + 1), hu k (by omega), hu (k + 1) (by omega), by omega⟩
  · rw [hc]
    omega

/-- No object ever answers with a position of `2^32` or more, so texts from `2^29` bytes on are not
answered right if they have a one there. -/
theorem C89_bch_beyond (x : Select) (s : Bool) {i p : Nat} (h : IsSelect (Text.bits X) (i - 1) p) (hp : 2 ^ 32 ≤ p) :
    ¬ ∃ p', S32.selectBch s L TH x i = ok p' ∧ IsSelect (Text.bits X) (i - 1) p' := by
  rintro ⟨p', hq, h'⟩
  have := S32.selectBch_lt hq
  have := C03_select_unique h h'
  omega

/-- `2^29 + 1` bytes 80. -/
example (x : Select) : ∃ X : List (BitVec 8), ∃ i p, IsSelect (Text.bits X) (i - 1) p ∧
    ¬ ∃ p', S32.selectBch false L TH x i = ok p' ∧ IsSelect (Text.bits X) (i - 1) p' := by
  obtain ⟨n, hn⟩ : ∃ n, n = 536870912 := ⟨_, rfl⟩
  have hs := ones_same (b := 0x80#8) (n := n + 1) n (by omega)
  have e1 : ones (Text.bits [0x80#8]) 8 = 1 := by decide
  have hsel : IsSelect (Text.bits (List.replicate (n + 1) 0x80#8)) (n + 1 - 1) (8 * n) := by
    refine ⟨?_, ?_⟩
    · have := hs.2 0 (by decide) (by omega)
      exact this.trans (by decide)
    · rw [hs.1, e1]
      omega
  exact ⟨_, n + 1, 8 * n, hsel, C89_bch_beyond x false hsel (by omega)⟩

/-- `select(0)` is the largest number. -/
theorem C89_bch_zero (h : Bch32Ok X L TH) (aS aB : Nat)
    (h1 : 1 ≤ (Text.bits X).count true) (ho : ¬ Overflow32 X L TH aB) :
    ∃ x, S32.buildSelBch L TH aS aB (textOf X) = ok x ∧ ∀ s, S32.selectBch s L TH x 0 = ok (2 ^ 32 - 1) := by
  rw [← short_iff h.toSel32Ok (ones_pos h1)] at ho
  obtain ⟨x, e, hx⟩ := (S32.buildSelBch_cases (t := textOf X) (TH := TH) h.pos h.len (ones_pos h1) (Nat.le_of_lt h.nbk) aS aB).1 ho
  exact ⟨x, e, fun s => S32.selectBch_zero hx s⟩

example : ∃ x, S32.buildSelBch 4 12 64 64 (textOf sampleOnes) = ok x ∧ S32.selectBch true 4 12 x 0 = ok (2 ^ 32 - 1) := by
  obtain ⟨x, e, h⟩ := C89_bch_zero sampleBch32 64 64 sample32.2.1 sample32.2.2
  exact ⟨x, e, h true⟩

/-! ## C90: sizes -/

/-- `getSize()` of the standard variant: 8 bytes for each group of `L` ones, and `bitsLen` bytes.  It is
1068 less than what the object takes, and 1196 less when nothing is stored. -/
theorem C90_std_size (h : Sel32Ok X L TH) (aS aB : Nat)
    (h1 : 1 ≤ (Text.bits X).count true) (ho : ¬ Overflow32 X L TH aB) :
    ∃ x, S32.buildSel L TH aS aB (textOf X) = ok x ∧
      S32.bytes x = 164 + 8 * groups X L + (if x.bitsLen = 0 then 0 else x.bitsLen + 128) ∧
      S32.bytes x + (if x.bitsLen = 0 then 1196 else 1068) = S32.taken x ∧
      ∀ c, 1 ≤ c → 32 * (L - 1) ≤ c * TH → x.bitsLen ≤ c * X.length + groups X L := by
  have hn := h.nbk
  have hroom := h.room
  rw [← short_iff h (ones_pos h1)] at ho
  obtain ⟨x, e, hx⟩ := (S32.buildSel_cases (t := textOf X) (TH := TH) h.pos h.len (ones_pos h1) h.nbk aS aB).1 ho
  have hbl : x.bitsLen = S32.B (textOf X) L TH := hx.bl
  rw [← hbl] at hroom
  have hg : nbk (textOf X) L = groups X L := by rw [nbk_ceil h.pos, tot_count]
  rw [hg] at hn
  refine ⟨x, e, ?_, ?_, fun c hc h' => ?_⟩
  · unfold S32.bytes add32
    rw [hx.selLen, hg]
    simp only [W32]
    split <;> split <;> split <;> omega
  · unfold S32.bytes S32.taken add32
    rw [hx.selLen, hg]
    simp only [W32]
    split <;> split <;> split <;> omega
  · rw [hbl, ← hg]
    exact S32.bytes_le h.pos hc h'

example : ∃ x, S32.buildSel 4 12 64 64 (textOf sampleOnes) = ok x ∧ x.bitsLen ≤ 43 := by
  have hc : (Text.bits sampleOnes).count true = 10 := by decide +kernel
  obtain ⟨x, e, -, -, h⟩ := C90_std_size sample32.1 64 64 sample32.2.1 sample32.2.2
  refine ⟨x, e, ?_⟩
  have := h 8 (by decide) (by decide)
  unfold groups at this
  rw [hc] at this
  exact this

/-- `getSize()` of the compressed headers: 25 numbers for each 16 groups. -/
theorem C90_bch_size (h : Bch32Ok X L TH) (aS aB : Nat)
    (h1 : 1 ≤ (Text.bits X).count true) (ho : ¬ Overflow32 X L TH aB) :
    ∃ x, S32.buildSelBch L TH aS aB (textOf X) = ok x ∧
      S32.bytes x = 156 + 100 * (groups X L / 16 + 1) + (if x.bitsLen = 0 then 0 else x.bitsLen + 128) ∧
      S32.bytes x + (if x.bitsLen = 0 then 1196 else 1068) = S32.taken x ∧
      ∀ c, 1 ≤ c → 32 * (L - 1) ≤ c * TH → x.bitsLen ≤ c * X.length + groups X L := by
  have hn := h.nbk
  have hroom := h.room
  rw [← short_iff h.toSel32Ok (ones_pos h1)] at ho
  obtain ⟨x, e, hx⟩ := (S32.buildSelBch_cases (t := textOf X) (TH := TH) h.pos h.len (ones_pos h1) (Nat.le_of_lt h.nbk) aS aB).1 ho
  have hbl : x.bitsLen = S32.B (textOf X) L TH := hx.bl
  rw [← hbl] at hroom
  have hg : nbk (textOf X) L = groups X L := by rw [nbk_ceil h.pos, tot_count]
  rw [hg] at hn
  refine ⟨x, e, ?_, ?_, fun c hc h' => ?_⟩
  · unfold S32.bytes add32
    rw [hx.selLen, hg]
    simp only [W32]
    split <;> split <;> split <;> omega
  · unfold S32.bytes S32.taken add32
    rw [hx.selLen, hg]
    simp only [W32]
    split <;> split <;> split <;> omega
  · rw [hbl, ← hg]
    exact S32.bytes_le h.pos hc h'

example : ∃ x, S32.buildSelBch 4 12 64 64 (textOf sampleOnes) = ok x ∧ x.bitsLen ≤ 43 := by
  have hc : (Text.bits sampleOnes).count true = 10 := by decide +kernel
  obtain ⟨x, e, -, -, h⟩ := C90_bch_size sampleBch32 64 64 sample32.2.1 sample32.2.2
  refine ⟨x, e, ?_⟩
  have := h 8 (by decide) (by decide)
  unfold groups at this
  rw [hc] at this
  exact this

/-! ## C91: `save` and `load` -/

/-- The bytes of the only group do not fit the length that the first pass of `build` counted, and the
rest is not saved: fewer than `L` ones, the last at `p`; either `p = TH` and the positions take more than
the bits would, or the bits are stored and `p` is a multiple of 8. -/
def Unsaved32 (X : List (BitVec 8)) (L TH : Nat) : Prop :=
  ∃ p, Text.LastAt (Text.bits X) L p ∧
    ((p = TH ∧ (TH + 7) / 8 < 4 * (Text.bits X).count true) ∨ (p < TH ∧ p + 1 ≠ L ∧ p % 8 = 0))

theorem unsaved32_iff (hL : 1 ≤ L) (h1 : 1 ≤ tot (textOf X)) : Unsaved32 X L TH ↔ S32.Lost (textOf X) L TH := by
  unfold Unsaved32 S32.Lost
  constructor
  · rintro ⟨p, h2, h3⟩
    rw [← tot_count] at h3
    exact ⟨p, (lastAt_iff hL h1).1 h2, h3⟩
  · rintro ⟨p, h2, h3⟩
    rw [tot_count] at h3
    exact ⟨p, (lastAt_iff hL h1).2 h2, h3⟩

/-- A single one, in the first bit. -/
theorem unsaved32_one : (Text.bits [0x80#8]).count true = 1 ∧ Unsaved32 [0x80#8] 128 4096 := by
  have hc : (Text.bits [0x80#8]).count true = 1 := by decide +kernel
  exact ⟨hc, 0, ⟨by rw [hc]; decide, by rw [hc]; decide +kernel⟩, Or.inr ⟨by decide, by decide, by decide⟩⟩

/-- The saved object and the one that is read back give the same result for every one, unless part of the
group was not saved; then the last one cannot be found any more.  A file that was cut is rejected. -/
theorem C91_std_file_partial (h : Sel32Ok X L TH) (aS aB : Nat)
    (h1 : 1 ≤ (Text.bits X).count true) (ho : ¬ Overflow32 X L TH aB) :
    ∃ x, S32.buildSel L TH aS aB (textOf X) = ok x ∧ ∃ F : File, (∀ f, S32.save x f = ok (f ++ F)) ∧ ∀ bS bB,
      (∃ y, (∀ f, S32.load bS bB (F ++ f) = ok (y, f)) ∧ y.textLen = X.length ∧ S32.bytes y = S32.bytes x ∧
        (¬ Unsaved32 X L TH → ∀ s i, 1 ≤ i → i ≤ (Text.bits X).count true →
          S32.selectStd s L TH y i = S32.selectStd s L TH x i) ∧
        (Unsaved32 X L TH → ∀ s, ∃ f, S32.selectStd s L TH y ((Text.bits X).count true) = ub f)) ∧
      ∀ k, k < F.length → S32.load bS bB (F.take k) = abort := by
  rw [← short_iff h (ones_pos h1)] at ho
  obtain ⟨x, e, hx⟩ := (S32.buildSel_cases (t := textOf X) (TH := TH) h.pos h.len (ones_pos h1) h.nbk aS aB).1 ho
  have h1 := ones_pos h1
  rw [← tot_count, unsaved32_iff h.pos h1]
  have hroom := h.room
  have hn := h.nbk
  have hbl : x.bitsLen + 128 < W32 := by
    rw [show x.bitsLen = S32.B (textOf X) L TH from hx.bl]
    exact hroom
  have htl : x.textLen < W32 := by
    have := h.len
    rw [hx.text]
    show X.length < W32
    simp only [W32]
    omega
  refine ⟨x, e, S32.file x, S32.save_ok hx.slen hx.blen, fun bS bB => ?_⟩
  have hld := S32.sel_load htl (S32.selStd_fits h.pos h.len h.nbk hx) (by rw [hx.selLen]; simp only [W32]; omega) hbl bS bB
  have hbk := S32.selStd_back h.pos (Nat.le_of_lt h.lt) h.len h1 (w32 h.nbk) h.room hx bS bB
  exact ⟨⟨S32.back x bS bB, hld.1, hx.text, rfl, hbk.1, hbk.2⟩, hld.2⟩

/-- Nothing is lost from a text with at least `L` ones. -/
theorem C91_std_many (h : Sel32Ok X L TH) (aS aB bS bB : Nat) (hm : L ≤ (Text.bits X).count true) :
    ∃ x F y, S32.buildSel L TH aS aB (textOf X) = ok x ∧ S32.save x [] = ok F ∧ S32.load bS bB F = ok (y, []) ∧
      ∀ s i, 1 ≤ i → i ≤ (Text.bits X).count true → S32.selectStd s L TH y i = S32.selectStd s L TH x i := by
  have hL := h.pos
  obtain ⟨x, e, F, h2, h3⟩ := C91_std_file_partial h aS aB (by omega) (fun h => by have := h.1.1; omega)
  obtain ⟨y, h4, -, -, h5, -⟩ := (h3 bS bB).1
  refine ⟨x, F, y, e, h2 [], ?_, h5 ?_⟩
  · have := h4 []
    rw [List.append_nil] at this
    exact this
  · rintro ⟨p, h, -⟩
    have := h.1
    omega

example : ∃ x F y, S32.buildSel 4 12 64 64 (textOf sampleOnes) = ok x ∧ S32.save x [] = ok F ∧
    S32.load 16 32 F = ok (y, []) ∧ ∀ s, S32.selectStd s 4 12 y 6 = S32.selectStd s 4 12 x 6 := by
  have hc : (Text.bits sampleOnes).count true = 10 := by decide +kernel
  obtain ⟨x, F, y, e, h2, h3, h4⟩ := C91_std_many sample32.1 64 64 16 32 (by rw [hc]; decide)
  exact ⟨x, F, y, e, h2, h3, fun s => h4 s 6 (by decide) (by rw [hc]; decide)⟩

/-- The position of a single one in the first bit is found before saving, and not after. -/
theorem C91_std_lost : ∃ x F y, S32.buildSel 128 4096 64 64 (textOf [0x80#8]) = ok x ∧ S32.save x [] = ok F ∧
    S32.load 64 64 F = ok (y, []) ∧ S32.selectStd false 128 4096 x 1 = ok 0 ∧
    ∃ f, S32.selectStd false 128 4096 y 1 = ub f := by
  obtain ⟨hc, hu⟩ := unsaved32_one
  have hb : Sel32Ok [0x80#8] 128 4096 := sel32_benchmark (by decide)
  have ho := overflow32_none (X := [0x80#8]) (L := 128) (TH := 4096) (by decide) 64
  obtain ⟨x, e, F, h2, h3⟩ := C91_std_file_partial hb 64 64 (by rw [hc]; decide) ho
  obtain ⟨y, h4, -, -, -, h5⟩ := (h3 64 64).1
  obtain ⟨x', e', h⟩ := C88_std_select_partial hb 64 64 (by rw [hc]; decide) ho
  rw [e] at e'
  injection e' with e'
  subst e'
  have h4 := h4 []
  rw [List.append_nil] at h4
  refine ⟨x, F, y, e, h2 [], h4, ?_, ?_⟩
  · obtain ⟨p, hp, hs⟩ := h 1 (by decide) (by rw [hc]; decide) (by
      rintro ⟨⟨-, a, h2, h3⟩, -⟩
      have ha := (upTo_iff (X := [0x80#8]) (by rw [tot_count, hc]; decide)).1 h2
      rw [hc, if_pos (by decide)] at ha
      subst ha
      rw [hc] at h3
      exact absurd h3 (by decide +kernel))
    rw [isSelect_sel [0x80#8] (i := 1) (by decide) (by rw [tot_count, hc]; decide)] at hs
    rw [hp, hs]
    exact congrArg ok (by decide +kernel)
  · have := h5 hu false
    rw [hc] at this
    exact this

/-- So the full claim is false. -/
theorem C91_std_file_false : ¬ ∀ (X : List (BitVec 8)) (aS aB bS bB : Nat), X.length < 2 ^ 29 →
    1 ≤ (Text.bits X).count true → ∀ x F y, S32.buildSel 128 4096 aS aB (textOf X) = ok x → S32.save x [] = ok F →
    S32.load bS bB F = ok (y, []) → ∀ i p, 1 ≤ i → i ≤ (Text.bits X).count true →
      S32.selectStd false 128 4096 x i = ok p → S32.selectStd false 128 4096 y i = ok p := by
  intro h
  obtain ⟨x, F, y, h1, h2, h3, h4, f, h5⟩ := C91_std_lost
  have := h [0x80#8] 64 64 64 64 (by decide) (by decide +kernel) x F y h1 h2 h3 1 0 (by decide) (by decide +kernel) h4
  rw [h5] at this
  cases this

/-- As for the standard variant. -/
theorem C91_bch_file_partial (h : Bch32Ok X L TH) (aS aB : Nat)
    (h1 : 1 ≤ (Text.bits X).count true) (ho : ¬ Overflow32 X L TH aB) :
    ∃ x, S32.buildSelBch L TH aS aB (textOf X) = ok x ∧ ∃ F : File, (∀ f, S32.save x f = ok (f ++ F)) ∧ ∀ bS bB,
      (∃ y, (∀ f, S32.load bS bB (F ++ f) = ok (y, f)) ∧ y.textLen = X.length ∧ S32.bytes y = S32.bytes x ∧
        (¬ Unsaved32 X L TH → ∀ s i, 1 ≤ i → i ≤ (Text.bits X).count true →
          S32.selectBch s L TH y i = S32.selectBch s L TH x i) ∧
        (Unsaved32 X L TH → ∀ s, ∃ f, S32.selectBch s L TH y ((Text.bits X).count true) = ub f)) ∧
      ∀ k, k < F.length → S32.load bS bB (F.take k) = abort := by
  rw [← short_iff h.toSel32Ok (ones_pos h1)] at ho
  obtain ⟨x, e, hx⟩ := (S32.buildSelBch_cases (t := textOf X) (TH := TH) h.pos h.len (ones_pos h1) (Nat.le_of_lt h.nbk) aS aB).1 ho
  have h1 := ones_pos h1
  rw [← tot_count, unsaved32_iff h.pos h1]
  have hroom := h.room
  have hn := h.nbk
  have hbl : x.bitsLen + 128 < W32 := by
    rw [show x.bitsLen = S32.B (textOf X) L TH from hx.bl]
    exact hroom
  have htl : x.textLen < W32 := by
    have := h.len
    rw [hx.text]
    show X.length < W32
    simp only [W32]
    omega
  refine ⟨x, e, S32.file x, S32.save_ok hx.slen hx.blen, fun bS bB => ?_⟩
  have hld := S32.sel_load htl (S32.selBch_fits h.pos h.len (Nat.le_of_lt h.nbk) hx) (by rw [hx.selLen]; simp only [W32]; omega) hbl bS bB
  have hbk := S32.selBch_back h.pos (Nat.le_of_lt h.lt) h.small h.thr (Nat.le_of_lt h.nbk) h.len h1 h.room hx bS bB
  exact ⟨⟨S32.back x bS bB, hld.1, hx.text, rfl, hbk.1, hbk.2⟩, hld.2⟩

/-- Nothing is lost from a text with at least `L` ones. -/
theorem C91_bch_many (h : Bch32Ok X L TH) (aS aB bS bB : Nat) (hm : L ≤ (Text.bits X).count true) :
    ∃ x F y, S32.buildSelBch L TH aS aB (textOf X) = ok x ∧ S32.save x [] = ok F ∧ S32.load bS bB F = ok (y, []) ∧
      ∀ s i, 1 ≤ i → i ≤ (Text.bits X).count true → S32.selectBch s L TH y i = S32.selectBch s L TH x i := by
  have hL := h.pos
  obtain ⟨x, e, F, h2, h3⟩ := C91_bch_file_partial h aS aB (by omega) (fun h => by have := h.1.1; omega)
  obtain ⟨y, h4, -, -, h5, -⟩ := (h3 bS bB).1
  refine ⟨x, F, y, e, h2 [], ?_, h5 ?_⟩
  · have := h4 []
    rw [List.append_nil] at this
    exact this
  · rintro ⟨p, h, -⟩
    have := h.1
    omega

example : ∃ x F y, S32.buildSelBch 4 12 64 64 (textOf sampleOnes) = ok x ∧ S32.save x [] = ok F ∧
    S32.load 16 32 F = ok (y, []) ∧ ∀ s, S32.selectBch s 4 12 y 6 = S32.selectBch s 4 12 x 6 := by
  have hc : (Text.bits sampleOnes).count true = 10 := by decide +kernel
  obtain ⟨x, F, y, e, h2, h3, h4⟩ := C91_bch_many sampleBch32 64 64 16 32 (by rw [hc]; decide)
  exact ⟨x, F, y, e, h2, h3, fun s => h4 s 6 (by decide) (by rw [hc]; decide)⟩

/-- The position of a single one in the first bit is found before saving, and not after. -/
theorem C91_bch_lost : ∃ x F y, S32.buildSelBch 128 4096 64 64 (textOf [0x80#8]) = ok x ∧ S32.save x [] = ok F ∧
    S32.load 64 64 F = ok (y, []) ∧ S32.selectBch false 128 4096 x 1 = ok 0 ∧
    ∃ f, S32.selectBch false 128 4096 y 1 = ub f := by
  obtain ⟨hc, hu⟩ := unsaved32_one
  have hb : Bch32Ok [0x80#8] 128 4096 := bch32_benchmark (by decide)
  have ho := overflow32_none (X := [0x80#8]) (L := 128) (TH := 4096) (by decide) 64
  obtain ⟨x, e, F, h2, h3⟩ := C91_bch_file_partial hb 64 64 (by rw [hc]; decide) ho
  obtain ⟨y, h4, -, -, -, h5⟩ := (h3 64 64).1
  obtain ⟨x', e', h⟩ := C89_bch_select_partial hb 64 64 (by rw [hc]; decide) ho
  rw [e] at e'
  injection e' with e'
  subst e'
  have h4 := h4 []
  rw [List.append_nil] at h4
  refine ⟨x, F, y, e, h2 [], h4, ?_, ?_⟩
  · obtain ⟨p, hp, hs⟩ := h 1 (by decide) (by rw [hc]; decide) (by
      rintro ⟨⟨-, a, h2, h3⟩, -⟩
      have ha := (upTo_iff (X := [0x80#8]) (by rw [tot_count, hc]; decide)).1 h2
      rw [hc, if_pos (by decide)] at ha
      subst ha
      rw [hc] at h3
      exact absurd h3 (by decide +kernel))
    rw [isSelect_sel [0x80#8] (i := 1) (by decide) (by rw [tot_count, hc]; decide)] at hs
    rw [hp, hs]
    exact congrArg ok (by decide +kernel)
  · have := h5 hu false
    rw [hc] at this
    exact this

/-- So the full claim is false. -/
theorem C91_bch_file_false : ¬ ∀ (X : List (BitVec 8)) (aS aB bS bB : Nat), X.length < 2 ^ 29 →
    1 ≤ (Text.bits X).count true → ∀ x F y, S32.buildSelBch 128 4096 aS aB (textOf X) = ok x → S32.save x [] = ok F →
    S32.load bS bB F = ok (y, []) → ∀ i p, 1 ≤ i → i ≤ (Text.bits X).count true →
      S32.selectBch false 128 4096 x i = ok p → S32.selectBch false 128 4096 y i = ok p := by
  intro h
  obtain ⟨x, F, y, h1, h2, h3, h4, f, h5⟩ := C91_bch_lost
  have := h [0x80#8] 64 64 64 64 (by decide) (by decide +kernel) x F y h1 h2 h3 1 0 (by decide) (by decide +kernel) h4
  rw [h5] at this
  cases this

end MRS.Props
