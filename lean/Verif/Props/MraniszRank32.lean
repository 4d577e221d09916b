import Verif.Proofs.Mranisz.Wrap32
import Verif.Proofs.Mranisz.File32
import Verif.Props.Mranisz

/-!
# Properties of the 32-bit compressed rank (include/mranisz), C83-C87

`X` is the text, a list of bytes; `aB`, `aR` are the addresses that `new[]` returns.  Lengths, positions
and answers are `unsigned int`: texts have fewer than `2^32` bytes and positions are below `2^32`.
-/

set_option autoImplicit false
set_option maxRecDepth 8192

namespace MRS.Props
open MRS.Mran Outcome Spec

variable {X : List (BitVec 8)}

/-- The 63 longest texts that `unsigned int` can measure. -/
def Longest (X : List (BitVec 8)) : Prop := 2 ^ 32 - 64 < X.length ∧ X.length < 2 ^ 32

theorem longest_wrap (h : Longest X) : nblk32 (textOf X) = 0 := nblk32_wrap (t := textOf X) h.1 h.2

/-- One in the first bit, then zeros. -/
def oneFirst (n : Nat) : List (BitVec 8) := 0x80#8 :: List.replicate n 0#8

theorem oneFirst_length (n : Nat) : (oneFirst n).length = n + 1 := by
  unfold oneFirst
  rw [List.length_cons, List.length_replicate]

theorem oneFirst_one (n : Nat) : ones (Text.bits (oneFirst n)) 1 = 1 := by
  unfold ones Text.bits oneFirst
  rw [List.flatMap_cons]
  generalize List.flatMap _ (List.replicate n 0#8) = Y
  rfl

/-- The longest text of that kind. -/
@[irreducible] def longText : List (BitVec 8) := oneFirst 4294967294

theorem longText_longest : Longest longText := by
  have h : longText.length = 4294967295 := by
    unfold longText
    generalize hn : 4294967294 = n
    rw [oneFirst_length, ← hn]
  unfold Longest
  rw [h]
  decide

theorem longText_one : ones (Text.bits longText) 1 = 1 := by
  unfold longText
  exact oneFirst_one _

/-! ## C83: `RankBasic32<RANK_BASIC_STANDARD>` -/

/-- Right for every position of the blocks that the text touches, for texts of at most `2^32 - 64` bytes.
Missing from the full claim (every text below `2^32` bytes, every `i ≤ 8 * textLen` that fits): the end of
a text of whole blocks (`C83_basic_end`) and the 63 longest texts (`C83_basic_longest`). -/
theorem C83_basic_rank_partial (hlen : X.length ≤ 2 ^ 32 - 64) (aB aR : Nat) :
    ∃ x, buildStd32 aB aR (textOf X) = ok x ∧
      ∀ i, i < 512 * Text.blocks X → i < 2 ^ 32 → rankStd32 x i = ok (ones (Text.bits X) i) := by
  obtain ⟨x, e, hx⟩ := buildStd32_ok (t := textOf X) hlen aB aR
  refine ⟨x, e, fun i hi hi2 => ?_⟩
  rw [← nblk_blocks] at hi
  rw [ones_T]
  exact rankStd32_ok hx hi hi2

example : ∃ x, buildStd32 64 64 (textOf sampleText) = ok x ∧ rankStd32 x 1040 = ok 515 := by
  obtain ⟨x, e, h⟩ := C83_basic_rank_partial (X := sampleText) (by decide) 64 64
  refine ⟨x, e, ?_⟩
  rw [h 1040 (by decide) (by decide)]
  exact congrArg ok (by decide +kernel)

/-- From the end of the last block on, every query is undefined. -/
theorem C83_basic_beyond (hlen : X.length ≤ 2 ^ 32 - 64) (aB aR : Nat) :
    ∃ x, buildStd32 aB aR (textOf X) = ok x ∧
      ∀ i, 512 * Text.blocks X ≤ i → ∃ f, rankStd32 x i = ub f := by
  obtain ⟨x, e, hx⟩ := buildStd32_ok (t := textOf X) hlen aB aR
  refine ⟨x, e, fun i hi => rankStd32_end hx (by rw [nblk_blocks]; exact hi)⟩

example : ∃ x, buildStd32 64 64 (textOf sampleText) = ok x ∧ ∃ f, rankStd32 x 1536 = ub f := by
  obtain ⟨x, e, h⟩ := C83_basic_beyond (X := sampleText) (by decide) 64 64
  exact ⟨x, e, h 1536 (by decide)⟩

/-- The end of a text of whole blocks: the query that counts all ones is undefined, for every such
text. -/
theorem C83_basic_end (hlen : X.length ≤ 2 ^ 32 - 64) (h64 : X.length % 64 = 0) (aB aR : Nat) :
    ∃ x, buildStd32 aB aR (textOf X) = ok x ∧ ∃ f, rankStd32 x (8 * X.length) = ub f := by
  obtain ⟨x, e, h⟩ := C83_basic_beyond (X := X) hlen aB aR
  exact ⟨x, e, h _ (by unfold Text.blocks; omega)⟩

example : ∃ x, buildStd32 64 64 (textOf (List.replicate 128 0x55#8)) = ok x ∧ ∃ f, rankStd32 x 1024 = ub f :=
  C83_basic_end (X := List.replicate 128 0x55#8) (by decide) (by decide) 64 64

/-- The padded length of the 63 longest texts is `2^32`, so zero: they are built as if they were empty, and
no query is answered. -/
theorem C83_basic_longest (h : Longest X) (aB aR : Nat) :
    ∃ x, buildStd32 aB aR (textOf X) = ok x ∧ ∀ i, ∃ f, rankStd32 x i = ub f :=
  rankStd32_wrap (longest_wrap h) aB aR

example : ∃ x, buildStd32 64 64 (textOf longText) = ok x ∧ ∃ f, rankStd32 x 1 = ub f := by
  obtain ⟨x, e, h⟩ := C83_basic_longest longText_longest 64 64
  exact ⟨x, e, h 1⟩

/-- So the full claim is false, also without the end of the text. -/
theorem C83_basic_rank_false : ¬ ∀ (X : List (BitVec 8)) (aB aR : Nat), X.length < 2 ^ 32 →
    ∃ x, buildStd32 aB aR (textOf X) = ok x ∧
      ∀ i, i < 8 * X.length → i < 2 ^ 32 → rankStd32 x i = ok (ones (Text.bits X) i) := by
  intro h
  obtain ⟨x, e, hr⟩ := h longText 64 64 longText_longest.2
  obtain ⟨x', e', hf⟩ := C83_basic_longest longText_longest 64 64
  rw [e] at e'
  injection e' with e'
  subst e'
  obtain ⟨f, hf⟩ := hf 1
  rw [hr 1 (by have := longText_longest.1; omega) (by decide)] at hf
  cases hf

/-! ## C84: `RankBasic32<RANK_BASIC_COMPRESSED_HEADERS>` -/

/-- Whatever lies after the array of flags (it is read, see `C84_bch_build_beyond`), the answers are
right for every position of the blocks that the text touches. -/
theorem C84_bch_rank_partial (hlen : X.length ≤ 2 ^ 32 - 64) (aB aR : Nat) (g : Nat → Bool) :
    ∃ x, buildBch32 (some g) aB aR (textOf X) = ok x ∧
      ∀ i, i < 512 * Text.blocks X → i < 2 ^ 32 → rankBch32 x i = ok (ones (Text.bits X) i) := by
  obtain ⟨x, e, hx⟩ := buildBch_ok32 (t := textOf X) hlen aB aR (beyond := some g) (g := g) (Or.inr rfl)
  refine ⟨x, e, fun i hi hi2 => ?_⟩
  rw [← nblk_blocks] at hi
  rw [ones_T]
  exact rankBch_ok32 hx hi hi2

example (g : Nat → Bool) :
    ∃ x, buildBch32 (some g) 64 64 (textOf sampleText) = ok x ∧ rankBch32 x 1040 = ok 515 := by
  obtain ⟨x, e, h⟩ := C84_bch_rank_partial (X := sampleText) (by decide) 64 64 g
  refine ⟨x, e, ?_⟩
  rw [h 1040 (by decide) (by decide)]
  exact congrArg ok (by decide +kernel)

/-- When the number of blocks is one less than a multiple of 32, `build` reads nothing beyond the array,
and the answers are right with no assumption on memory. -/
theorem C84_bch_rank_strict_partial (hlen : X.length ≤ 2 ^ 32 - 64) (aB aR : Nat)
    (h : Text.blocks X % 32 = 31) :
    ∃ x, buildBch32 none aB aR (textOf X) = ok x ∧
      ∀ i, i < 512 * Text.blocks X → i < 2 ^ 32 → rankBch32 x i = ok (ones (Text.bits X) i) := by
  obtain ⟨x, e, hx⟩ := buildBch_ok32 (t := textOf X) hlen aB aR (beyond := none) (g := fun _ => false)
    (Or.inl (by rw [nblk_blocks]; exact h))
  refine ⟨x, e, fun i hi hi2 => ?_⟩
  rw [← nblk_blocks] at hi
  rw [ones_T]
  exact rankBch_ok32 hx hi hi2

example : Text.blocks (List.replicate 1950 0x55#8) % 32 = 31 := by
  unfold Text.blocks; rw [List.length_replicate]

/-- For every other number of blocks (none at all included) `build` reads the flags of blocks that
do not exist. -/
theorem C84_bch_build_beyond (hlen : X.length ≤ 2 ^ 32 - 64) (aB aR : Nat) (h : Text.blocks X % 32 ≠ 31) :
    buildBch32 none aB aR (textOf X) = ub .oob :=
  buildBch_oob32 (t := textOf X) hlen aB aR (by rw [nblk_blocks]; exact h)

example : buildBch32 none 64 64 (textOf sampleText) = ub .oob :=
  C84_bch_build_beyond (by decide) 64 64 (by decide)

/-- The end of the last block, where it can be asked for: the count of all ones is answered just when the
number of blocks is a multiple of 32, or is not one less and the count is a multiple of 512; otherwise the
query is undefined. -/
theorem C84_bch_end (hp : 512 * Text.blocks X < 2 ^ 32) (aB aR : Nat) (g : Nat → Bool) :
    ∃ x, buildBch32 (some g) aB aR (textOf X) = ok x ∧
      (Text.blocks X % 32 = 0 ∨ Text.blocks X % 32 ≠ 31 ∧ (Text.bits X).count true % 512 = 0 →
        rankBch32 x (512 * Text.blocks X) = ok ((Text.bits X).count true)) ∧
      (¬ (Text.blocks X % 32 = 0 ∨ Text.blocks X % 32 ≠ 31 ∧ (Text.bits X).count true % 512 = 0) →
        ∃ f, rankBch32 x (512 * Text.blocks X) = ub f) := by
  have hlen : (textOf X).len ≤ 2 ^ 32 - 64 := by
    show X.length ≤ _
    unfold Text.blocks at hp
    omega
  obtain ⟨x, e, hx⟩ := buildBch_ok32 (t := textOf X) hlen aB aR (beyond := some g) (g := g) (Or.inr rfl)
  have hall : T (textOf X) (512 * Text.blocks X) = (Text.bits X).count true := by
    rw [← ones_T]
    unfold ones
    rw [List.take_of_length_le (by rw [bits_length]; unfold Text.blocks; omega)]
  have h := rankBch_end32 hx (by rw [nblk_blocks]; exact hp)
  rw [nblk_blocks, hall] at h
  refine ⟨x, e, h.1, fun hn => h.2 ?_⟩
  generalize Text.blocks X = n at *
  generalize (Text.bits X).count true = c at *
  omega

/-- Two blocks of ones: a multiple of 512. -/
example (g : Nat → Bool) : ∃ x, buildBch32 (some g) 64 64 (textOf (List.replicate 128 255#8)) = ok x ∧
    rankBch32 x 1024 = ok 1024 := by
  obtain ⟨x, e, h, -⟩ := C84_bch_end (X := List.replicate 128 255#8) (by decide) 64 64 g
  have hc : (Text.bits (List.replicate 128 255#8)).count true = 1024 := by decide +kernel
  rw [hc] at h
  exact ⟨x, e, h (Or.inr (by decide))⟩

/-- The 63 longest texts: `build` reads flags that do not exist; if that does no harm, the first 15872
positions are all answered 0. -/
theorem C84_bch_longest (h : Longest X) (aB aR : Nat) :
    buildBch32 none aB aR (textOf X) = ub .oob ∧ ∀ g, ∃ x, buildBch32 (some g) aB aR (textOf X) = ok x ∧
      ∀ i, i < 15872 → rankBch32 x i = ok 0 :=
  ⟨buildBch32_wrap_oob (longest_wrap h) aB aR, fun g => rankBch32_wrap (longest_wrap h) aB aR g⟩

example (g : Nat → Bool) : ∃ x, buildBch32 (some g) 64 64 (textOf longText) = ok x ∧ rankBch32 x 1 = ok 0 := by
  obtain ⟨x, e, h⟩ := (C84_bch_longest longText_longest 64 64).2 g
  exact ⟨x, e, h 1 (by decide)⟩

/-- So the full claim is false even if reading beyond the flags does no harm: a wrong number is
returned. -/
theorem C84_bch_rank_false (g : Nat → Bool) : ∃ x, buildBch32 (some g) 64 64 (textOf longText) = ok x ∧
    rankBch32 x 1 = ok 0 ∧ ones (Text.bits longText) 1 = 1 := by
  obtain ⟨x, e, h⟩ := (C84_bch_longest longText_longest 64 64).2 g
  exact ⟨x, e, h 1 (by decide), longText_one⟩

/-! ## C85: `RankCF32` -/

theorem cf32_ne (h : X = [] ∨ ∃ q, q < Text.blocks X ∧ ¬ Text.Homog X q) :
    0 < ne (textOf X) (nblk (textOf X)) ∨ nblk (textOf X) = 0 := by
  rcases h with h | ⟨q, h1, h2⟩
  · subst h; exact Or.inr rfl
  · left
    have := stored_lt (t := textOf X) (q := q) (by rw [nblk_blocks]; exact h1)
      (fun hh => h2 ((homog_iff X q).2 hh))
    omega

/-- Texts with at least one block that is not homogeneous (and the empty text), on hosts that load eight
bytes from any address that is a multiple of four: right for every position of the blocks that the text
touches.  The two 4-byte units of a word are loaded in the wrong order, and the masks make up for it. -/
theorem C85_cf_rank_partial (hlen : X.length ≤ 2 ^ 32 - 64) (aB : Nat)
    (h : X = [] ∨ ∃ q, q < Text.blocks X ∧ ¬ Text.Homog X q) :
    ∃ x, buildCF32 aB (textOf X) = ok x ∧
      ∀ i, i < 512 * Text.blocks X → i < 2 ^ 32 → rankCF32 false x i = ok (ones (Text.bits X) i) := by
  obtain ⟨x, e, hx⟩ := buildCF32_ok (t := textOf X) aB hlen (cf32_ne h)
  refine ⟨x, e, fun i hi hi2 => ?_⟩
  rw [← nblk_blocks] at hi
  rw [ones_T]
  exact rankCF32_ok hx hlen hi hi2 (by intro h; cases h)

example : ∃ x, buildCF32 64 (textOf sampleText) = ok x ∧ rankCF32 false x 1040 = ok 515 := by
  obtain ⟨x, e, h⟩ := C85_cf_rank_partial (X := sampleText) (by decide) 64
    (Or.inr ⟨2, by decide, by decide +kernel⟩)
  refine ⟨x, e, ?_⟩
  rw [h 1040 (by decide) (by decide)]
  exact congrArg ok (by decide +kernel)

/-- Where every load must be aligned, this remains: homogeneous blocks, and odd blocks left of the border
(their number is the number of blocks that are not homogeneous). -/
theorem C85_cf_strict_partial (hlen : X.length ≤ 2 ^ 32 - 64) (aB : Nat)
    (h : X = [] ∨ ∃ q, q < Text.blocks X ∧ ¬ Text.Homog X q) :
    ∃ x, buildCF32 aB (textOf X) = ok x ∧
      ∀ i, i < 512 * Text.blocks X → i < 2 ^ 32 →
        Text.Homog X (i / 512) ∨ i / 512 < Text.mixed X ∧ i / 512 % 2 = 1 →
        rankCF32 true x i = ok (ones (Text.bits X) i) := by
  obtain ⟨x, e, hx⟩ := buildCF32_ok (t := textOf X) aB hlen (cf32_ne h)
  refine ⟨x, e, fun i hi hi2 hs => ?_⟩
  rw [← nblk_blocks] at hi
  rw [ones_T]
  refine rankCF32_ok hx hlen hi hi2 (fun _ => ?_)
  rw [ne_mixed]
  exact hs.imp (homog_iff X _).1 id

/-- The second of two mixed blocks. -/
example : ∃ x, buildCF32 64 (textOf (List.replicate 128 0x11#8)) = ok x ∧ rankCF32 true x 600 = ok 150 := by
  obtain ⟨x, e, h⟩ := C85_cf_strict_partial (X := List.replicate 128 0x11#8) (by decide) 64
    (Or.inr ⟨0, by decide, by decide +kernel⟩)
  refine ⟨x, e, ?_⟩
  rw [h 600 (by decide) (by decide) (Or.inr (by decide +kernel))]
  exact congrArg ok (by decide +kernel)

/-- Even blocks left of the border that hold both bits cannot be asked where loads must be aligned: their
words start at an odd unit.  So no text that starts with such a block is served. -/
theorem C85_cf_misaligned (hlen : X.length ≤ 2 ^ 32 - 64) (aB : Nat)
    (h : X = [] ∨ ∃ q, q < Text.blocks X ∧ ¬ Text.Homog X q) :
    ∃ x, buildCF32 aB (textOf X) = ok x ∧
      ∀ i, i / 512 < Text.mixed X → i / 512 % 2 = 0 →
        ones (Text.bits X) (512 * (i / 512)) < ones (Text.bits X) (512 * (i / 512 + 1)) →
        ones (Text.bits X) (512 * (i / 512 + 1)) < ones (Text.bits X) (512 * (i / 512)) + 512 →
        rankCF32 true x i = ub .misaligned := by
  obtain ⟨x, e, hx⟩ := buildCF32_ok (t := textOf X) aB hlen (cf32_ne h)
  refine ⟨x, e, fun i h1 h2 h3 h4 => ?_⟩
  rw [ones_T, ones_T] at h3 h4
  rw [← ne_mixed] at h1
  exact rankCF32_misaligned hx h1 h2 h3 h4

theorem C85_cf_strict_false : ∃ x, buildCF32 64 (textOf (List.replicate 128 0x11#8)) = ok x ∧
    rankCF32 true x 100 = ub .misaligned := by
  obtain ⟨x, e, h⟩ := C85_cf_misaligned (X := List.replicate 128 0x11#8) (by decide) 64
    (Or.inr ⟨0, by decide, by decide +kernel⟩)
  exact ⟨x, e, h 100 (by decide +kernel) (by decide) (by decide +kernel) (by decide +kernel)⟩

/-- A text whose blocks are all homogeneous cannot be built. -/
theorem C85_cf_homogeneous (hlen : X.length ≤ 2 ^ 32 - 64) (aB : Nat) (h0 : X ≠ [])
    (h : ∀ q, q < Text.blocks X → Text.Homog X q) : buildCF32 aB (textOf X) = ub .oob := by
  have hpos : 0 < X.length := List.length_pos_iff.2 h0
  apply buildCF32_oob aB hlen
  · rw [nblk_blocks]; unfold Text.blocks; omega
  · rw [ne_mixed]
    unfold Text.mixed
    rw [List.countP_eq_zero]
    intro q hq
    simp [h q (by simpa using hq)]

example : buildCF32 64 (textOf (List.replicate 64 0#8)) = ub .oob :=
  C85_cf_homogeneous (by decide) 64 (by decide) (by
    intro q hq
    have hb : Text.blocks (List.replicate 64 0#8) = 1 := by decide
    have : q = 0 := by omega
    subst this; decide +kernel)

theorem C85_cf_beyond (hlen : X.length ≤ 2 ^ 32 - 64) (aB : Nat)
    (h : X = [] ∨ ∃ q, q < Text.blocks X ∧ ¬ Text.Homog X q) :
    ∃ x, buildCF32 aB (textOf X) = ok x ∧
      ∀ strict i, 512 * Text.blocks X ≤ i → ∃ f, rankCF32 strict x i = ub f := by
  obtain ⟨x, e, hx⟩ := buildCF32_ok (t := textOf X) aB hlen (cf32_ne h)
  exact ⟨x, e, fun strict i hi => rankCF32_end hx (by rw [nblk_blocks]; exact hi)⟩

example : ∃ x, buildCF32 64 (textOf sampleText) = ok x ∧ ∃ f, rankCF32 false x 1536 = ub f := by
  obtain ⟨x, e, h⟩ := C85_cf_beyond (X := sampleText) (by decide) 64
    (Or.inr ⟨2, by decide, by decide +kernel⟩)
  exact ⟨x, e, h false 1536 (by decide)⟩

/-- The 63 longest texts: no query is answered. -/
theorem C85_cf_longest (h : Longest X) (aB : Nat) :
    ∃ x, buildCF32 aB (textOf X) = ok x ∧ ∀ strict i, ∃ f, rankCF32 strict x i = ub f :=
  rankCF32_wrap (longest_wrap h) aB

example : ∃ x, buildCF32 64 (textOf longText) = ok x ∧ ∃ f, rankCF32 false x 1 = ub f := by
  obtain ⟨x, e, h⟩ := C85_cf_longest longText_longest 64
  exact ⟨x, e, h false 1⟩

/-! ## C86: sizes -/

/-- `getSize()` of the standard variant: 8 bytes for each block and 64 for each block that is not
homogeneous.  It is less than what the object takes by 680 bytes, by 808 when no block is stored. -/
theorem C86_basic_size (hlen : X.length ≤ 2 ^ 32 - 64) (aB aR : Nat) :
    ∃ x, buildStd32 aB aR (textOf X) = ok x ∧
    x.bytes32 = 156 + 8 * Text.blocks X + (if Text.mixed X = 0 then 0 else 128 + 64 * Text.mixed X) ∧
    x.bytes32 + (if Text.mixed X = 0 then 808 else 680) = x.taken32 := by
  obtain ⟨x, e, hx⟩ := buildStd32_ok (t := textOf X) hlen aB aR
  refine ⟨x, e, ?_, ?_⟩
  · unfold Basic.bytes32
    rw [hx.rl, hx.bl, ne_mixed, nblk_blocks]
    split <;> split <;> split <;> omega
  · unfold Basic.bytes32 Basic.taken32
    rw [hx.rl, hx.bl, ne_mixed, nblk_blocks]
    split <;> split <;> split <;> omega

example : ∃ x, buildStd32 64 64 (textOf sampleText) = ok x ∧ x.bytes32 = 372 := by
  obtain ⟨x, e, h, -⟩ := C86_basic_size (X := sampleText) (by decide) 64 64
  refine ⟨x, e, h.trans ?_⟩
  decide +kernel

/-- `getSize()` of the compressed headers: 19 numbers for each 32 blocks. -/
theorem C86_bch_size (hlen : X.length ≤ 2 ^ 32 - 64) (aB aR : Nat) (g : Nat → Bool) :
    ∃ x, buildBch32 (some g) aB aR (textOf X) = ok x ∧
    x.bytes32 = 152 + 76 * (Text.blocks X / 32 + 1) +
      (if Text.mixed X = 0 then 0 else 128 + 64 * Text.mixed X) ∧
    x.bytes32 + (if Text.mixed X = 0 then 808 else 680) = x.taken32 := by
  obtain ⟨x, e, hx⟩ := buildBch_ok32 (t := textOf X) hlen aB aR (beyond := some g) (g := g) (Or.inr rfl)
  refine ⟨x, e, ?_, ?_⟩
  · unfold Basic.bytes32
    rw [hx.rl, hx.bl, ne_mixed, nblk_blocks]
    split <;> split <;> split <;> omega
  · unfold Basic.bytes32 Basic.taken32
    rw [hx.rl, hx.bl, ne_mixed, nblk_blocks]
    split <;> split <;> split <;> omega

example (g : Nat → Bool) : ∃ x, buildBch32 (some g) 64 64 (textOf sampleText) = ok x ∧ x.bytes32 = 420 := by
  obtain ⟨x, e, h, -⟩ := C86_bch_size (X := sampleText) (by decide) 64 64 g
  refine ⟨x, e, h.trans ?_⟩
  decide +kernel

/-- Here `getSize()` is an `unsigned int`: it is 17 numbers for each block that is not homogeneous and 2
for each other block, modulo `2^32`. -/
theorem C86_cf_size_partial (hlen : X.length ≤ 2 ^ 32 - 64) (aB : Nat)
    (h : X = [] ∨ ∃ q, q < Text.blocks X ∧ ¬ Text.Homog X q) :
    ∃ x, buildCF32 aB (textOf X) = ok x ∧
      x.bytes = (156 + 68 * Text.mixed X + 8 * (Text.blocks X - Text.mixed X)) % 2 ^ 32 ∧
      (156 + 68 * Text.mixed X + 8 * (Text.blocks X - Text.mixed X) < 2 ^ 32 → x.bytes + 528 = x.taken) := by
  obtain ⟨x, e, hx⟩ := buildCF32_ok (t := textOf X) aB hlen (cf32_ne h)
  have hle := ne_le (textOf X) (nblk (textOf X))
  rw [ne_mixed, nblk_blocks] at hle
  have hb : x.bytes = (156 + 68 * Text.mixed X + 8 * (Text.blocks X - Text.mixed X)) % 2 ^ 32 := by
    unfold CF32.bytes
    rw [hx.bl, ne_mixed, nblk_blocks, if_pos (by omega)]
    simp only [W32]
    omega
  refine ⟨x, e, hb, fun hs => ?_⟩
  rw [hb, Nat.mod_eq_of_lt hs]
  unfold CF32.taken
  rw [hx.bl, ne_mixed, nblk_blocks]
  omega

example : ∃ x, buildCF32 64 (textOf sampleText) = ok x ∧ x.bytes = 240 := by
  obtain ⟨x, e, h, -⟩ := C86_cf_size_partial (X := sampleText) (by decide) 64
    (Or.inr ⟨2, by decide, by decide +kernel⟩)
  refine ⟨x, e, h.trans ?_⟩
  decide +kernel

/-- A long text without homogeneous blocks. -/
theorem replicate_ne (n : Nat) : ∀ q, ne (textOf (List.replicate n 0x55#8)) q = q := by
  have hh : ∀ q, ¬ Hom (textOf (List.replicate n 0x55#8)) q := by
    intro q ⟨h1, h2⟩
    have hf : (textOf (List.replicate n 0x55#8)).f (64 * q + 0) = 0x55#8 := by
      show (List.replicate n 0x55#8).getD (64 * q + 0) 0#8 = _
      have : 64 * q + 64 ≤ n := by
        have : (textOf (List.replicate n 0x55#8)).len = n := List.length_replicate ..
        omega
      rw [List.getD_eq_getElem?_getD, List.getElem?_replicate, if_pos (by omega)]
      rfl
    rcases h2 with h2 | h2
    · have := h2 0 (by decide); rw [hf] at this; exact absurd this (by decide)
    · have := h2 0 (by decide); rw [hf] at this; exact absurd this (by decide)
  intro q
  induction q with
  | zero => rfl
  | succ q ih => rw [ne_succ, if_neg (hh q), ih]

theorem replicate_size (n : Nat) (hn : n = 4294967232) : ∃ x,
    buildCF32 64 (textOf (List.replicate n 0x55#8)) = ok x ∧ x.bytes = 268435544 ∧ x.taken = 4563403368 := by
  have hb : nblk (textOf (List.replicate n 0x55#8)) = (n + 63) / 64 := by
    rw [nblk_blocks]; unfold Text.blocks; rw [List.length_replicate]
  obtain ⟨x, e, hx⟩ := buildCF32_ok (t := textOf (List.replicate n 0x55#8)) 64
    (by show (List.replicate n 0x55#8).length ≤ _; rw [List.length_replicate]; omega)
    (Or.inl (by rw [hb, replicate_ne]; omega))
  have hbl := hx.bl
  rw [hb, replicate_ne] at hbl
  have hbl : x.bitsLen = 1140850672 := by omega
  refine ⟨x, e, ?_, ?_⟩
  · unfold CF32.bytes; rw [hbl]; decide
  · unfold CF32.taken; rw [hbl]

/-- Just below 4 GiB the size that is reported is about 256 MiB; the object takes more than 4 GiB. -/
theorem C86_cf_size_false : ∃ X : List (BitVec 8), X.length ≤ 2 ^ 32 - 64 ∧ ∃ x,
    buildCF32 64 (textOf X) = ok x ∧ x.bytes = 268435544 ∧ x.taken = 4563403368 := by
  have : ∃ n, n = 4294967232 := ⟨_, rfl⟩
  obtain ⟨n, hn⟩ := this
  exact ⟨List.replicate n 0x55#8, by rw [List.length_replicate]; omega, replicate_size n hn⟩

/-! ## C87: `save` and `load` -/

/-- What is read back answers every query that the saved object answers, with the same number, and
nothing else; what follows in the file stays; a file that was cut is rejected. -/
theorem C87_basic_file (hlen : X.length ≤ 2 ^ 32 - 64) (aB aR : Nat) :
    ∃ x, buildStd32 aB aR (textOf X) = ok x ∧ ∃ F : File, (∀ f, x.save32 f = ok (f ++ F)) ∧ ∀ bB bR,
      (∃ y, (∀ f, Basic.load32 bB bR (F ++ f) = ok (y, f)) ∧ y.textLen = X.length ∧ y.bytes32 = x.bytes32 ∧
        ∀ i r, rankStd32 y i = ok r ↔ rankStd32 x i = ok r) ∧
      ∀ k, k < F.length → Basic.load32 bB bR (F.take k) = abort := by
  obtain ⟨x, e, hx⟩ := buildStd32_ok (t := textOf X) hlen aB aR
  refine ⟨x, e, x.file32, std_save32 hx, fun bB bR => ⟨⟨x.back32 bB bR,
    fun f => (std_load32 hx hlen bB bR f).1, hx.tl, rfl,
    fun i r => (std_load32 hx hlen bB bR []).2.1 i r⟩, (std_load32 hx hlen bB bR []).2.2⟩⟩

/-- The third block of the sample needs its words, and is read from another address. -/
example : ∃ x F y, buildStd32 64 64 (textOf sampleText) = ok x ∧ x.save32 [some 7#8] = ok (some 7#8 :: F) ∧
    Basic.load32 16 32 (F ++ [some 9#8]) = ok (y, [some 9#8]) ∧ rankStd32 y 1040 = ok 515 := by
  obtain ⟨x, e, F, h1, h2⟩ := C87_basic_file (X := sampleText) (by decide) 64 64
  obtain ⟨y, h3, -, -, h4⟩ := (h2 16 32).1
  refine ⟨x, F, y, e, h1 _, h3 _, (h4 _ _).2 ?_⟩
  obtain ⟨x', e', h⟩ := C83_basic_rank_partial (X := sampleText) (by decide) 64 64
  rw [e] at e'
  injection e' with e'
  subst e'
  rw [h 1040 (by decide) (by decide)]
  exact congrArg ok (by decide +kernel)

/-- Whatever `build` read beyond its flags. -/
theorem C87_bch_file (hlen : X.length ≤ 2 ^ 32 - 64) (aB aR : Nat) (g : Nat → Bool) :
    ∃ x, buildBch32 (some g) aB aR (textOf X) = ok x ∧ ∃ F : File, (∀ f, x.save32 f = ok (f ++ F)) ∧ ∀ bB bR,
      (∃ y, (∀ f, Basic.load32 bB bR (F ++ f) = ok (y, f)) ∧ y.textLen = X.length ∧ y.bytes32 = x.bytes32 ∧
        ∀ i r, rankBch32 y i = ok r ↔ rankBch32 x i = ok r) ∧
      ∀ k, k < F.length → Basic.load32 bB bR (F.take k) = abort := by
  obtain ⟨x, e, hx⟩ := buildBch_ok32 (t := textOf X) hlen aB aR (beyond := some g) (g := g) (Or.inr rfl)
  refine ⟨x, e, x.file32, bch_save32 hx, fun bB bR => ⟨⟨x.back32 bB bR,
    fun f => (bch_load32 hx hlen bB bR f).1, hx.tl, rfl,
    fun i r => (bch_load32 hx hlen bB bR []).2.1 i r⟩, (bch_load32 hx hlen bB bR []).2.2⟩⟩

example (g : Nat → Bool) : ∃ x F y, buildBch32 (some g) 64 64 (textOf sampleText) = ok x ∧ x.save32 [] = ok F ∧
    Basic.load32 16 32 (F ++ [none]) = ok (y, [none]) ∧ rankBch32 y 1040 = ok 515 := by
  obtain ⟨x, e, F, h1, h2⟩ := C87_bch_file (X := sampleText) (by decide) 64 64 g
  obtain ⟨y, h3, -, -, h4⟩ := (h2 16 32).1
  refine ⟨x, F, y, e, h1 _, h3 _, (h4 _ _).2 ?_⟩
  obtain ⟨x', e', h⟩ := C84_bch_rank_partial (X := sampleText) (by decide) 64 64 g
  rw [e] at e'
  injection e' with e'
  subst e'
  rw [h 1040 (by decide) (by decide)]
  exact congrArg ok (by decide +kernel)

/-- Texts that `build` accepts. -/
theorem C87_cf_file (hlen : X.length ≤ 2 ^ 32 - 64) (aB : Nat)
    (h : X = [] ∨ ∃ q, q < Text.blocks X ∧ ¬ Text.Homog X q) :
    ∃ x, buildCF32 aB (textOf X) = ok x ∧ ∃ F : File, (∀ f, x.save f = ok (f ++ F)) ∧ ∀ bB,
      (∃ y, (∀ f, CF32.load bB (F ++ f) = ok (y, f)) ∧ y.textLen = X.length ∧ y.bytes = x.bytes ∧
        ∀ strict i r, rankCF32 strict y i = ok r ↔ rankCF32 strict x i = ok r) ∧
      ∀ k, k < F.length → CF32.load bB (F.take k) = abort := by
  obtain ⟨x, e, hx⟩ := buildCF32_ok (t := textOf X) aB hlen (cf32_ne h)
  refine ⟨x, e, x.file, cf32_save hx, fun bB => ⟨⟨x.back bB, fun f => (cf32_load hx hlen bB f).1, hx.tl, rfl,
    fun strict i r => (cf32_load hx hlen bB []).2.1 strict i r⟩, (cf32_load hx hlen bB []).2.2⟩⟩

example : ∃ x F y, buildCF32 64 (textOf sampleText) = ok x ∧ x.save [] = ok F ∧
    CF32.load 16 (F ++ [none]) = ok (y, [none]) ∧ rankCF32 false y 1040 = ok 515 := by
  obtain ⟨x, e, F, h1, h2⟩ := C87_cf_file (X := sampleText) (by decide) 64 (Or.inr ⟨2, by decide, by decide +kernel⟩)
  obtain ⟨y, h3, -, -, h4⟩ := (h2 16).1
  refine ⟨x, F, y, e, h1 _, h3 _, (h4 _ _ _).2 ?_⟩
  obtain ⟨x', e', h⟩ := C85_cf_rank_partial (X := sampleText) (by decide) 64 (Or.inr ⟨2, by decide, by decide +kernel⟩)
  rw [e] at e'
  injection e' with e'
  subst e'
  rw [h 1040 (by decide) (by decide)]
  exact congrArg ok (by decide +kernel)

end MRS.Props
