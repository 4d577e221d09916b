import Verif.Proofs.Mranisz.Link

/-!
# Properties of the compressed rank (include/mranisz, src/perf_compressed_bitmap.cpp), C66-C69

`X` is the text, a list of bytes; `aB`, `aR` are the addresses that `new[]` returns.  Texts have fewer
than `2^60` bytes.
-/

set_option autoImplicit false
set_option maxRecDepth 8192

namespace MRS.Props
open MRS.Mran Outcome Spec

variable {X : List (BitVec 8)}

/-- A text of three blocks: zeros, ones, and an incomplete one. -/
def sampleText : List (BitVec 8) :=
  List.replicate 64 0#8 ++ List.replicate 64 255#8 ++ [0x81#8, 0x10#8]

/-! ## C66: `RankBasic64<RANK_BASIC_STANDARD>` -/

/-- Right for every position of the blocks that the text touches: this covers every `i < 8 * textLen`,
and `i = 8 * textLen` when the last block is incomplete.  Missing from the full claim (every
`i ≤ 8 * textLen`): the end of a text of whole blocks, see `C66_basic_end`. -/
theorem C66_basic_rank_partial (hlen : X.length < 2 ^ 60) (aB aR : Nat) :
    ∃ x, buildStd aB aR (textOf X) = ok x ∧
      ∀ i, i < 512 * Text.blocks X → rankStd x i = ok (ones (Text.bits X) i) := by
  obtain ⟨x, e, hx⟩ := buildStd_ok (textOf X) aB aR
  refine ⟨x, e, fun i hi => ?_⟩
  rw [← nblk_blocks] at hi
  rw [ones_T]
  exact rankStd_ok hx hlen hi

example : ∃ x, buildStd 64 64 (textOf sampleText) = ok x ∧ rankStd x 1040 = ok 515 := by
  obtain ⟨x, e, h⟩ := C66_basic_rank_partial (X := sampleText) (by decide) 64 64
  refine ⟨x, e, ?_⟩
  rw [h 1040 (by decide)]
  exact congrArg ok (by decide +kernel)

/-- From the end of the last block on, every query is undefined: the words after the array were never
written, or are not part of it. -/
theorem C66_basic_beyond (aB aR : Nat) : ∃ x, buildStd aB aR (textOf X) = ok x ∧
    ∀ i, 512 * Text.blocks X ≤ i → ∃ f, rankStd x i = ub f := by
  obtain ⟨x, e, hx⟩ := buildStd_ok (textOf X) aB aR
  refine ⟨x, e, fun i hi => rankStd_end hx (by rw [nblk_blocks]; exact hi)⟩

example : ∃ x, buildStd 64 64 (textOf sampleText) = ok x ∧ ∃ f, rankStd x 1536 = ub f := by
  obtain ⟨x, e, h⟩ := C66_basic_beyond (X := sampleText) 64 64
  exact ⟨x, e, h 1536 (by decide)⟩

/-- The end of a text of whole blocks: the query that counts all ones is undefined, for every such
text. -/
theorem C66_basic_end (h64 : X.length % 64 = 0) (aB aR : Nat) :
    ∃ x, buildStd aB aR (textOf X) = ok x ∧ ∃ f, rankStd x (8 * X.length) = ub f := by
  obtain ⟨x, e, h⟩ := C66_basic_beyond (X := X) aB aR
  exact ⟨x, e, h _ (by unfold Text.blocks; omega)⟩

example : (List.replicate 128 0x55#8).length % 64 = 0 := by decide

/-- So the full claim is false. -/
theorem C66_basic_rank_false : ¬ ∀ (X : List (BitVec 8)) (aB aR : Nat), X.length < 2 ^ 60 →
    ∃ x, buildStd aB aR (textOf X) = ok x ∧
      ∀ i, i ≤ 8 * X.length → rankStd x i = ok (ones (Text.bits X) i) := by
  intro h
  obtain ⟨x, e, hr⟩ := h (List.replicate 64 0x55#8) 64 64 (by decide)
  obtain ⟨x', e', f, hf⟩ := C66_basic_end (X := List.replicate 64 0x55#8) (by decide) 64 64
  rw [e] at e'
  injection e' with e'
  subst e'
  rw [hr _ (Nat.le_refl _)] at hf
  cases hf

/-! ## C67: `RankBasic64<RANK_BASIC_COMPRESSED_HEADERS>` -/

/-- Whatever lies after the array of flags (it is read, see `C67_bch_build_beyond`), the answers are
right for every position of the blocks that the text touches. -/
theorem C67_bch_rank_partial (hlen : X.length < 2 ^ 60) (aB aR : Nat) (g : Nat → Bool) :
    ∃ x, buildBch (some g) aB aR (textOf X) = ok x ∧
      ∀ i, i < 512 * Text.blocks X → rankBch x i = ok (ones (Text.bits X) i) := by
  obtain ⟨x, e, hx⟩ := buildBch_ok (textOf X) aB aR (beyond := some g) (g := g) (Or.inr rfl)
  refine ⟨x, e, fun i hi => ?_⟩
  rw [← nblk_blocks] at hi
  rw [ones_T]
  exact rankBch_ok hx hlen hi

example (g : Nat → Bool) :
    ∃ x, buildBch (some g) 64 64 (textOf sampleText) = ok x ∧ rankBch x 1040 = ok 515 := by
  obtain ⟨x, e, h⟩ := C67_bch_rank_partial (X := sampleText) (by decide) 64 64 g
  refine ⟨x, e, ?_⟩
  rw [h 1040 (by decide)]
  exact congrArg ok (by decide +kernel)

/-- When the number of blocks is one less than a multiple of 64, `build` reads nothing beyond the
array, and the answers are right with no assumption on memory. -/
theorem C67_bch_rank_strict_partial (hlen : X.length < 2 ^ 60) (aB aR : Nat)
    (h : Text.blocks X % 64 = 63) :
    ∃ x, buildBch none aB aR (textOf X) = ok x ∧
      ∀ i, i < 512 * Text.blocks X → rankBch x i = ok (ones (Text.bits X) i) := by
  obtain ⟨x, e, hx⟩ := buildBch_ok (textOf X) aB aR (beyond := none) (g := fun _ => false)
    (Or.inl (by rw [nblk_blocks]; exact h))
  refine ⟨x, e, fun i hi => ?_⟩
  rw [← nblk_blocks] at hi
  rw [ones_T]
  exact rankBch_ok hx hlen hi

example : Text.blocks (List.replicate 4000 0x55#8) % 64 = 63 := by
  unfold Text.blocks; rw [List.length_replicate]

/-- For every other number of blocks (none at all included) `build` reads the flags of blocks that
do not exist. -/
theorem C67_bch_build_beyond (aB aR : Nat) (h : Text.blocks X % 64 ≠ 63) :
    buildBch none aB aR (textOf X) = ub .oob :=
  buildBch_oob (textOf X) aB aR (by rw [nblk_blocks]; exact h)

example : Text.blocks sampleText % 64 ≠ 63 := by decide

/-- The end of the last block: the count of all ones is answered just when the number of blocks is a
multiple of 64, or is not one less and the count is a multiple of 512; otherwise the query is
undefined. -/
theorem C67_bch_end (hlen : X.length < 2 ^ 60) (aB aR : Nat) (g : Nat → Bool) :
    ∃ x, buildBch (some g) aB aR (textOf X) = ok x ∧
      (Text.blocks X % 64 = 0 ∨ Text.blocks X % 64 ≠ 63 ∧ (Text.bits X).count true % 512 = 0 →
        rankBch x (512 * Text.blocks X) = ok ((Text.bits X).count true)) ∧
      (¬ (Text.blocks X % 64 = 0 ∨ Text.blocks X % 64 ≠ 63 ∧ (Text.bits X).count true % 512 = 0) →
        ∃ f, rankBch x (512 * Text.blocks X) = ub f) := by
  obtain ⟨x, e, hx⟩ := buildBch_ok (textOf X) aB aR (beyond := some g) (g := g) (Or.inr rfl)
  have hall : T (textOf X) (512 * Text.blocks X) = (Text.bits X).count true := by
    rw [← ones_T]
    unfold ones
    rw [List.take_of_length_le (by rw [bits_length]; unfold Text.blocks; omega)]
  have h := rankBch_end hx hlen
  rw [nblk_blocks, hall] at h
  refine ⟨x, e, h.1, fun hn => h.2 ?_⟩
  generalize Text.blocks X = n at *
  generalize (Text.bits X).count true = c at *
  omega

/-- Two blocks of ones: a multiple of 512. -/
example (g : Nat → Bool) : ∃ x, buildBch (some g) 64 64 (textOf (List.replicate 128 255#8)) = ok x ∧
    rankBch x 1024 = ok 1024 := by
  obtain ⟨x, e, h, -⟩ := C67_bch_end (X := List.replicate 128 255#8) (by decide) 64 64 g
  have hc : (Text.bits (List.replicate 128 255#8)).count true = 1024 := by decide +kernel
  rw [hc] at h
  exact ⟨x, e, h (Or.inr (by decide))⟩

/-- So the full claim is false even if reading beyond the flags does no harm. -/
theorem C67_bch_rank_false (g : Nat → Bool) : ¬ ∀ (X : List (BitVec 8)) (aB aR : Nat), X.length < 2 ^ 60 →
    ∃ x, buildBch (some g) aB aR (textOf X) = ok x ∧
      ∀ i, i ≤ 8 * X.length → rankBch x i = ok (ones (Text.bits X) i) := by
  intro h
  obtain ⟨x, e, hr⟩ := h (List.replicate 64 0x55#8) 64 64 (by decide)
  obtain ⟨x', e', -, hf⟩ := C67_bch_end (X := List.replicate 64 0x55#8) (by decide) 64 64 g
  rw [e] at e'
  injection e' with e'
  subst e'
  have hc : (Text.bits (List.replicate 64 0x55#8)).count true = 256 := by decide +kernel
  rw [hc] at hf
  obtain ⟨f, hf⟩ := hf (by decide)
  have := hr 512 (by decide)
  rw [show 512 * Text.blocks (List.replicate 64 0x55#8) = 512 by decide, this] at hf
  cases hf

/-! ## C68: `RankCF64` -/

/-- Texts with at least one block that is not homogeneous (and the empty text): right for every
position of the blocks that the text touches.  Missing from the full claim: texts of homogeneous
blocks only (`C68_cf_homogeneous`) and the end of a text of whole blocks (`C68_cf_beyond`). -/
theorem C68_cf_rank_partial (hlen : X.length < 2 ^ 60) (aB : Nat)
    (h : X = [] ∨ ∃ q, q < Text.blocks X ∧ ¬ Text.Homog X q) :
    ∃ x, buildCF aB (textOf X) = ok x ∧
      ∀ i, i < 512 * Text.blocks X → rankCF x i = ok (ones (Text.bits X) i) := by
  have h' : 0 < ne (textOf X) (nblk (textOf X)) ∨ nblk (textOf X) = 0 := by
    rcases h with h | ⟨q, h1, h2⟩
    · subst h; exact Or.inr rfl
    · left
      have := stored_lt (t := textOf X) (q := q) (by rw [nblk_blocks]; exact h1)
        (fun hh => h2 ((homog_iff X q).2 hh))
      omega
  obtain ⟨x, e, hx⟩ := buildCF_ok (t := textOf X) aB hlen h'
  refine ⟨x, e, fun i hi => ?_⟩
  rw [← nblk_blocks] at hi
  rw [ones_T]
  exact rankCF_ok hx hlen hi

example : ∃ x, buildCF 64 (textOf sampleText) = ok x ∧ rankCF x 1040 = ok 515 := by
  obtain ⟨x, e, h⟩ := C68_cf_rank_partial (X := sampleText) (by decide) 64
    (Or.inr ⟨2, by decide, by decide +kernel⟩)
  refine ⟨x, e, ?_⟩
  rw [h 1040 (by decide)]
  exact congrArg ok (by decide +kernel)

/-- A text whose blocks are all homogeneous cannot be built: the search for a block to store runs
beyond the flags. -/
theorem C68_cf_homogeneous (hlen : X.length < 2 ^ 60) (aB : Nat) (h0 : X ≠ [])
    (h : ∀ q, q < Text.blocks X → Text.Homog X q) : buildCF aB (textOf X) = ub .oob := by
  have hpos : 0 < X.length := List.length_pos_iff.2 h0
  apply buildCF_oob aB hlen
  · rw [nblk_blocks]; unfold Text.blocks; omega
  · rw [ne_mixed]
    unfold Text.mixed
    rw [List.countP_eq_zero]
    intro q hq
    simp [h q (by simpa using hq)]

example : buildCF 64 (textOf (List.replicate 64 0#8)) = ub .oob :=
  C68_cf_homogeneous (by decide) 64 (by decide) (by
    intro q hq
    have hb : Text.blocks (List.replicate 64 0#8) = 1 := by decide
    have : q = 0 := by omega
    subst this; decide +kernel)

theorem C68_cf_beyond (hlen : X.length < 2 ^ 60) (aB : Nat)
    (h : X = [] ∨ ∃ q, q < Text.blocks X ∧ ¬ Text.Homog X q) :
    ∃ x, buildCF aB (textOf X) = ok x ∧ ∀ i, 512 * Text.blocks X ≤ i → ∃ f, rankCF x i = ub f := by
  have h' : 0 < ne (textOf X) (nblk (textOf X)) ∨ nblk (textOf X) = 0 := by
    rcases h with h | ⟨q, h1, h2⟩
    · subst h; exact Or.inr rfl
    · left
      have := stored_lt (t := textOf X) (q := q) (by rw [nblk_blocks]; exact h1)
        (fun hh => h2 ((homog_iff X q).2 hh))
      omega
  obtain ⟨x, e, hx⟩ := buildCF_ok (t := textOf X) aB hlen h'
  exact ⟨x, e, fun i hi => rankCF_end hx (by rw [nblk_blocks]; exact hi)⟩

example : ∃ x, buildCF 64 (textOf sampleText) = ok x ∧ ∃ f, rankCF x 1536 = ub f := by
  obtain ⟨x, e, h⟩ := C68_cf_beyond (X := sampleText) (by decide) 64
    (Or.inr ⟨2, by decide, by decide +kernel⟩)
  exact ⟨x, e, h 1536 (by decide)⟩

/-- So the full claim is false. -/
theorem C68_cf_rank_false : ¬ ∀ (X : List (BitVec 8)) (aB : Nat), X.length < 2 ^ 60 →
    ∃ x, buildCF aB (textOf X) = ok x ∧
      ∀ i, i ≤ 8 * X.length → rankCF x i = ok (ones (Text.bits X) i) := by
  intro h
  obtain ⟨x, e, -⟩ := h (List.replicate 64 0#8) 64 (by decide)
  rw [C68_cf_homogeneous (by decide) 64 (by decide) (by
    intro q hq
    have hb : Text.blocks (List.replicate 64 0#8) = 1 := by decide
    have : q = 0 := by omega
    subst this; decide +kernel)] at e
  cases e

/-! ## C69: sizes, and the wrapper -/

/-- `getSize()` of the standard variant: 16 bytes for each block and 64 for each block that is not
homogeneous.  It is 552 less than what the object takes, and 680 less when no block is stored. -/
theorem C69_basic_size (aB aR : Nat) : ∃ x, buildStd aB aR (textOf X) = ok x ∧
    x.bytes = 168 + 16 * Text.blocks X + (if Text.mixed X = 0 then 0 else 128 + 64 * Text.mixed X) ∧
    x.bytes + (if Text.mixed X = 0 then 680 else 552) = x.taken := by
  obtain ⟨x, e, hx⟩ := buildStd_ok (textOf X) aB aR
  refine ⟨x, e, ?_, ?_⟩
  · unfold Basic.bytes
    rw [hx.rl, hx.bl, ne_mixed, nblk_blocks]
    split <;> split <;> split <;> omega
  · unfold Basic.bytes Basic.taken
    rw [hx.rl, hx.bl, ne_mixed, nblk_blocks]
    split <;> split <;> split <;> omega

example : ∃ x, buildStd 64 64 (textOf sampleText) = ok x ∧ x.bytes = 408 := by
  obtain ⟨x, e, h, -⟩ := C69_basic_size (X := sampleText) 64 64
  refine ⟨x, e, h.trans ?_⟩
  decide +kernel

/-- `getSize()` of the compressed headers: 19 words for each 64 blocks. -/
theorem C69_bch_size (aB aR : Nat) (g : Nat → Bool) : ∃ x, buildBch (some g) aB aR (textOf X) = ok x ∧
    x.bytes = 160 + 152 * (Text.blocks X / 64 + 1) +
      (if Text.mixed X = 0 then 0 else 128 + 64 * Text.mixed X) ∧
    x.bytes + (if Text.mixed X = 0 then 680 else 552) = x.taken := by
  obtain ⟨x, e, hx⟩ := buildBch_ok (textOf X) aB aR (beyond := some g) (g := g) (Or.inr rfl)
  refine ⟨x, e, ?_, ?_⟩
  · unfold Basic.bytes
    rw [hx.rl, hx.bl, ne_mixed, nblk_blocks]
    split <;> split <;> split <;> omega
  · unfold Basic.bytes Basic.taken
    rw [hx.rl, hx.bl, ne_mixed, nblk_blocks]
    split <;> split <;> split <;> omega

example (g : Nat → Bool) : ∃ x, buildBch (some g) 64 64 (textOf sampleText) = ok x ∧ x.bytes = 504 := by
  obtain ⟨x, e, h, -⟩ := C69_bch_size (X := sampleText) 64 64 g
  refine ⟨x, e, h.trans ?_⟩
  decide +kernel

/-- `getSize()` of the cache-friendly variant: 9 words for each block that is not homogeneous, ranks
included, so 8 bytes less than `RankBasic64` for each of them plus 2 words for each other block. -/
theorem C69_cf_size (hlen : X.length < 2 ^ 60) (aB : Nat)
    (h : X = [] ∨ ∃ q, q < Text.blocks X ∧ ¬ Text.Homog X q) :
    ∃ x, buildCF aB (textOf X) = ok x ∧
      x.bytes = 176 + 72 * Text.mixed X + 16 * (Text.blocks X - Text.mixed X) ∧ x.bytes + 528 = x.taken := by
  have h' : 0 < ne (textOf X) (nblk (textOf X)) ∨ nblk (textOf X) = 0 := by
    rcases h with h | ⟨q, h1, h2⟩
    · subst h; exact Or.inr rfl
    · left
      have := stored_lt (t := textOf X) (q := q) (by rw [nblk_blocks]; exact h1)
        (fun hh => h2 ((homog_iff X q).2 hh))
      omega
  obtain ⟨x, e, hx⟩ := buildCF_ok (t := textOf X) aB hlen h'
  have hle := ne_le (textOf X) (nblk (textOf X))
  rw [ne_mixed, nblk_blocks] at hle
  refine ⟨x, e, ?_, ?_⟩
  · unfold CF.bytes
    rw [hx.bl, ne_mixed, nblk_blocks, if_pos (by omega)]
    omega
  · unfold CF.bytes CF.taken
    rw [hx.bl, ne_mixed, nblk_blocks, if_pos (by omega)]
    omega

example : ∃ x, buildCF 64 (textOf sampleText) = ok x ∧ x.bytes = 280 := by
  obtain ⟨x, e, h, -⟩ := C69_cf_size (X := sampleText) (by decide) 64
    (Or.inr ⟨2, by decide, by decide +kernel⟩)
  refine ⟨x, e, h.trans ?_⟩
  decide +kernel

/-- `size()` of the wrapper is the number of bits of the words. -/
theorem C69_wrapper_size (ws : List (BitVec 64)) (aB aR : Nat) :
    ∃ x, buildStd aB aR (wordBytes (Vec.ofList ws)) = ok x ∧ wrapperSize x.textLen = 64 * ws.length := by
  obtain ⟨x, e, hx⟩ := buildStd_ok (wordBytes (Vec.ofList ws)) aB aR
  refine ⟨x, e, ?_⟩
  rw [hx.tl]
  show ws.length * 8 * 1 * 8 = _
  omega

/-- The wrapper counts as the library's own bitmaps do (least significant bit first) at whole bytes. -/
theorem C69_wrapper_rank_partial (ws : List (BitVec 64)) (hlen : ws.length < 2 ^ 57) (aB aR : Nat) :
    ∃ x, buildStd aB aR (wordBytes (Vec.ofList ws)) = ok x ∧
      ∀ m, m < 8 * ws.length → rankStd x (8 * m) = ok (ones (bitsOf ws) (8 * m)) := by
  rw [wordBytes_textOf]
  obtain ⟨x, e, h⟩ := C66_basic_rank_partial (X := Text.bytesOf ws) (by rw [bytesOf_length]; omega) aB aR
  refine ⟨x, e, fun m hm => ?_⟩
  rw [h _ (by unfold Text.blocks; rw [bytesOf_length]; omega), ones_bytes ws m (by omega)]

example : ∃ x, buildStd 64 64 (wordBytes (Vec.ofList [0xFF01#64, 3#64])) = ok x ∧ rankStd x 72 = ok 11 := by
  obtain ⟨x, e, h⟩ := C69_wrapper_rank_partial [0xFF01#64, 3#64] (by decide) 64 64
  refine ⟨x, e, (h 9 (by decide)).trans (congrArg ok (by decide +kernel))⟩

/-- Elsewhere it counts the other end of the byte: the word 1 has its one at position 7. -/
theorem C69_wrapper_rank_false : ∃ x, buildStd 64 64 (wordBytes (Vec.ofList [1#64])) = ok x ∧
    rankStd x 1 = ok 0 ∧ ones (bitsOf [1#64]) 1 = 1 := by
  rw [wordBytes_textOf]
  obtain ⟨x, e, h⟩ := C66_basic_rank_partial (X := Text.bytesOf [1#64]) (by rw [bytesOf_length]; decide) 64 64
  refine ⟨x, e, (h 1 (by decide +kernel)).trans (congrArg ok (by decide +kernel)), by decide +kernel⟩

end MRS.Props
