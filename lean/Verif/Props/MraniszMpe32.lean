import Verif.Proofs.Mranisz.Mpe32File
import Verif.Props.MraniszMpe
import Verif.Props.MraniszRank32

/-!
# Properties of the 32-bit compressed rank that leaves out pairs (`RankMPE32`), C92-C95

`X` is the text, `ty` one of `RANK_MPE1`, `RANK_MPE2`, `RANK_MPE3`; `aB`, `aR` are the addresses that
`new[]` returns; memory that was never written and alignment are as in MraniszMpe.lean.  Lengths,
positions and answers are `unsigned int`: texts have fewer than `2^32` bytes and positions are below `2^32`.
-/

set_option autoImplicit false
set_option maxRecDepth 8192

namespace MRS.Props
open MRS.Mran Outcome Spec

variable {X : List (BitVec 8)}

/-- What 32 bits can hold: the padded length, and the bytes that are stored with 136 more. -/
def FitsMpe (ty : MpeType) (X : List (BitVec 8)) : Prop :=
  X.length ≤ 2 ^ 32 - 128 ∧ Text.total (blockBytes ty) X (Text.blocks128 X) + 136 < 2 ^ 32

theorem FitsMpe.room {ty : MpeType} (h : FitsMpe ty X) : Room32 ty (textOf X) := by
  unfold Room32
  rw [nblkM_blocks, eo_total]
  exact h.2

/-- Every text but the 255 longest. -/
theorem fitsMpe_of_length (ty : MpeType) (h : X.length ≤ 2 ^ 32 - 256) : FitsMpe ty X := by
  refine ⟨by omega, ?_⟩
  have := eo_le ty (textOf X) (Text.blocks128 X)
  rw [eo_total] at this
  unfold Text.blocks128 at *
  omega

/-! ## C92: answers -/

/-- Every position of the blocks that the text touches, whatever memory holds.  Missing from the full claim
(every text, every `i ≤ 8 * textLen` that fits): the empty text (`C92_mpe_empty`), texts that do not fit
(`C92_mpe_build_iff`), the end of a text of whole blocks (`C92_mpe_end_partial`), and memory that may not be
read before it is written (C93). -/
theorem C92_mpe_rank_partial (ty : MpeType) (h0 : X ≠ []) (hX : FitsMpe ty X) (f b : Nat → BitVec 8)
    (r : Option (Nat → Nat)) (aB aR : Nat) : ∃ x, buildMpe32 ty ⟨some f, some b, r⟩ aB aR (textOf X) = ok x ∧
      ∀ i, i < 1024 * Text.blocks128 X → i < 2 ^ 32 → rankMpe32 ty false x i = ok (ones (Text.bits X) i) := by
  obtain ⟨x, e, hx⟩ := buildMpe32_ok (ty := ty) (t := textOf X) (g := ⟨some f, some b, r⟩) (f := f) (aB := aB)
    (aR := aR) rfl (nblkM_pos h0) hX.1 hX.room
  refine ⟨x, e, fun i hi hi2 => ?_⟩
  rw [← nblkM_blocks] at hi
  rw [ones_T]
  exact rankMpe32_ok hx hX.1 hi hi2 (Or.inl rfl) (Or.inr ⟨b, rfl⟩)

example (ty : MpeType) (f b : Nat → BitVec 8) :
    ∃ x, buildMpe32 ty ⟨some f, some b, none⟩ 64 64 (textOf samplePairs) = ok x ∧
      rankMpe32 ty false x 2552 = ok 1028 := by
  obtain ⟨x, e, h⟩ := C92_mpe_rank_partial (X := samplePairs) ty (by decide) (fitsMpe_of_length ty (by decide)) f b
    none 64 64
  refine ⟨x, e, ?_⟩
  rw [h 2552 (by decide) (by decide)]
  exact congrArg ok (by decide +kernel)

/-- With arrays from `new[]` at multiples of 16, the end of a text of whole blocks too. -/
theorem C92_mpe_end_partial (ty : MpeType) (h0 : X ≠ []) (hX : FitsMpe ty X) (f b : Nat → BitVec 8)
    (r : Nat → Nat) (aB aR : Nat) (hB : aB % 16 = 0) (hR : aR % 16 = 0) :
    ∃ x, buildMpe32 ty ⟨some f, some b, some r⟩ aB aR (textOf X) = ok x ∧
      ∀ i, i ≤ 8 * X.length → i < 2 ^ 32 → rankMpe32 ty false x i = ok (ones (Text.bits X) i) := by
  obtain ⟨x, e, hx⟩ := buildMpe32_ok (ty := ty) (t := textOf X) (g := ⟨some f, some b, some r⟩) (f := f) (aB := aB)
    (aR := aR) rfl (nblkM_pos h0) hX.1 hX.room
  refine ⟨x, e, fun i hi hi2 => ?_⟩
  have hl := len128 X
  rw [← nblkM_blocks] at hl
  rw [ones_T]
  by_cases hi' : i < 1024 * nblkM (textOf X)
  · exact rankMpe32_ok hx hX.1 hi' hi2 (Or.inl rfl) (Or.inr ⟨b, rfl⟩)
  · have : i = 1024 * nblkM (textOf X) := by omega
    rw [this] at hi2 ⊢
    exact rankMpe32_end hx hX.1 (nblkM_pos h0) hi2 (Or.inl rfl) hB (by omega) rfl rfl rfl

example (ty : MpeType) (f b : Nat → BitVec 8) (r : Nat → Nat) :
    ∃ x, buildMpe32 ty ⟨some f, some b, some r⟩ 64 64 (textOf (List.replicate 128 0x81#8)) = ok x ∧
      rankMpe32 ty false x 1024 = ok 256 := by
  obtain ⟨x, e, h⟩ := C92_mpe_end_partial (X := List.replicate 128 0x81#8) ty (by decide)
    (fitsMpe_of_length ty (by decide)) f b r 64 64 (by decide) (by decide)
  refine ⟨x, e, ?_⟩
  rw [h 1024 (by decide) (by decide)]
  exact congrArg ok (by decide +kernel)

/-- The empty text cannot be built: the offset of the block before the first is read. -/
theorem C92_mpe_empty (ty : MpeType) (g : Junk) (aB aR : Nat) : buildMpe32 ty g aB aR (textOf []) = ub .oob :=
  buildMpe32_empty ty _ aB aR g rfl

/-- The 127 longest texts cannot be built: their padded length is zero. -/
theorem C92_mpe_longest (ty : MpeType) (h1 : 2 ^ 32 - 128 < X.length) (h2 : X.length < 2 ^ 32) (g : Junk)
    (aB aR : Nat) : buildMpe32 ty g aB aR (textOf X) = ub .oob :=
  buildMpe32_longest ty (textOf X) aB aR g h1 h2

example (ty : MpeType) (g : Junk) : buildMpe32 ty g 64 64 (textOf longText) = ub .oob :=
  C92_mpe_longest ty (by have := longText_longest.1; omega) longText_longest.2 g 64 64

/-- A shorter text cannot be built if its bytes are not compressed enough: the size of their array is
computed modulo `2^32`, at most eight bytes are allocated, and the first block is written after them. -/
theorem C92_mpe_many_bytes (ty : MpeType) (hlen : X.length ≤ 2 ^ 32 - 128)
    (h : 2 ^ 32 ≤ Text.total (blockBytes ty) X (Text.blocks128 X) + 136) (g : Junk) (aB aR : Nat) :
    buildMpe32 ty g aB aR (textOf X) = ub .oob := by
  refine buildMpe32_short ty (textOf X) aB aR g hlen (fun hr => ?_)
  unfold Room32 at hr
  rw [nblkM_blocks, eo_total] at hr
  omega

/-- So a text can be built just if it is not empty and fits. -/
theorem C92_mpe_build_iff (ty : MpeType) (hlen : X.length < 2 ^ 32) (f : Nat → BitVec 8)
    (b : Option (Nat → BitVec 8)) (r : Option (Nat → Nat)) (aB aR : Nat) :
    (∃ x, buildMpe32 ty ⟨some f, b, r⟩ aB aR (textOf X) = ok x) ↔ X ≠ [] ∧ FitsMpe ty X := by
  constructor
  · rintro ⟨x, e⟩
    refine ⟨fun h => ?_, ?_⟩
    · rw [h, C92_mpe_empty] at e
      cases e
    · by_cases h1 : X.length ≤ 2 ^ 32 - 128
      · refine ⟨h1, Nat.lt_of_not_le fun h => ?_⟩
        rw [C92_mpe_many_bytes ty h1 h] at e
        cases e
      · rw [C92_mpe_longest ty (by omega) hlen] at e
        cases e
  · rintro ⟨h0, hX⟩
    obtain ⟨x, e, -⟩ := buildMpe32_ok (ty := ty) (t := textOf X) (g := ⟨some f, b, r⟩) (f := f) (aB := aB)
      (aR := aR) rfl (nblkM_pos h0) hX.1 hX.room
    exact ⟨x, e⟩

/-- No pair can be left out of these texts. -/
theorem total_replicate (ty : MpeType) (n q : Nat) (h : 128 * q ≤ n) :
    Text.total (blockBytes ty) (List.replicate n 0x55#8) q = 128 * q := by
  rw [← eo_total]
  induction q with
  | zero => rfl
  | succ q ih =>
    have hb : ∀ j, j < 128 → blk (textOf (List.replicate n 0x55#8)) q j = 0x55#8 := by
      intro j hj
      rw [blk_textOf, List.getD_eq_getElem?_getD, List.getElem?_replicate, if_pos (by omega)]
      rfl
    have hh : ¬ HomM (textOf (List.replicate n 0x55#8)) q := by
      rintro ⟨h1, h2⟩
      have hf : (textOf (List.replicate n 0x55#8)).f (128 * q + 0) = 0x55#8 := by
        have := hb 0 (by decide)
        rw [blk_textOf] at this
        exact this
      rcases h2 with h2 | h2
      · have := h2 0 (by decide); rw [hf] at this; exact absurd this (by decide)
      · have := h2 0 (by decide); rw [hf] at this; exact absurd this (by decide)
    have hz : zc (blk (textOf (List.replicate n 0x55#8)) q) 64 = 0 := by
      unfold zc
      rw [psum_congr (g := fun _ => 0) (fun p hp => by unfold zp; rw [hb _ (by omega), hb _ (by omega)]; rfl)]
      rfl
    have hf : fc (blk (textOf (List.replicate n 0x55#8)) q) 64 = 0 := by
      unfold fc
      rw [psum_congr (g := fun _ => 0) (fun p hp => by unfold fp; rw [hb _ (by omega), hb _ (by omega)]; rfl)]
      rfl
    rw [eo_succ, if_neg hh, ih (by omega), sl_bytes, ← zc_zeros, ← fc_fulls, hz, hf]
    cases ty <;> simp [blockBytes, Text.bytes1, Text.bytes2, Text.bytes3] <;> omega

/-- There is such a text, of `2^32 - 128` bytes. -/
theorem C92_mpe_many_bytes_exists (ty : MpeType) : ∃ X : List (BitVec 8), X.length = 2 ^ 32 - 128 ∧
    2 ^ 32 ≤ Text.total (blockBytes ty) X (Text.blocks128 X) + 136 ∧
    ∀ g aB aR, buildMpe32 ty g aB aR (textOf X) = ub .oob := by
  obtain ⟨n, hn⟩ : ∃ n, n = 4294967168 := ⟨_, rfl⟩
  have hl : (List.replicate n 0x55#8).length = 2 ^ 32 - 128 := by rw [List.length_replicate]; omega
  have hb : Text.blocks128 (List.replicate n 0x55#8) = 33554431 := by
    unfold Text.blocks128
    rw [hl]
  have ht : 2 ^ 32 ≤ Text.total (blockBytes ty) (List.replicate n 0x55#8)
      (Text.blocks128 (List.replicate n 0x55#8)) + 136 := by
    rw [hb, total_replicate ty n _ (by omega)]
    omega
  exact ⟨List.replicate n 0x55#8, hl, ht, fun g aB aR => C92_mpe_many_bytes ty (by omega) ht g aB aR⟩

/-- So the full claim is false even if memory that was not written may be read, and without the empty
text. -/
theorem C92_mpe_rank_false (ty : MpeType) (f b : Nat → BitVec 8) (r : Nat → Nat) :
    ¬ ∀ (X : List (BitVec 8)), X ≠ [] → X.length < 2 ^ 32 →
      ∃ x, buildMpe32 ty ⟨some f, some b, some r⟩ 64 64 (textOf X) = ok x ∧
        ∀ i, i ≤ 8 * X.length → i < 2 ^ 32 → rankMpe32 ty false x i = ok (ones (Text.bits X) i) := by
  intro h
  obtain ⟨X, h1, h2, h3⟩ := C92_mpe_many_bytes_exists ty
  obtain ⟨x, e, -⟩ := h X (fun h => by rw [h] at h1; simp at h1) (by omega)
  rw [h3] at e
  cases e

/-! ## C93: memory that was not written, and alignment -/

/-- `build` reads the flag of a block that does not exist, for every text; here there is no item for it. -/
theorem C93_mpe_build_beyond (ty : MpeType) (hlen : X.length < 2 ^ 32) (b : Option (Nat → BitVec 8))
    (r : Option (Nat → Nat)) (aB aR : Nat) : buildMpe32 ty ⟨none, b, r⟩ aB aR (textOf X) = ub .oob :=
  buildMpe32_ub ty _ aB aR rfl hlen

example : buildMpe32 .mpe2 ⟨none, none, none⟩ 64 64 (textOf samplePairs) = ub .oob :=
  C93_mpe_build_beyond .mpe2 (by decide) none none 64 64

/-- If the flags can be read, a query needs only bytes that were written, except in the last block that is
not homogeneous. -/
theorem C93_mpe_rank_written_partial (ty : MpeType) (h0 : X ≠ []) (hX : FitsMpe ty X) (f : Nat → BitVec 8)
    (b : Option (Nat → BitVec 8)) (r : Option (Nat → Nat)) (aB aR : Nat) :
    ∃ x, buildMpe32 ty ⟨some f, b, r⟩ aB aR (textOf X) = ok x ∧
      ∀ i, i < 1024 * Text.blocks128 X → i < 2 ^ 32 →
        (Text.Homog128 X (i / 1024) ∨ (∃ q, i / 1024 < q ∧ q < Text.blocks128 X ∧ ¬ Text.Homog128 X q) ∨
          blockBytes ty (Text.zeros X (i / 1024)) (Text.fulls X (i / 1024)) = 128) →
        rankMpe32 ty false x i = ok (ones (Text.bits X) i) := by
  obtain ⟨x, e, hx⟩ := buildMpe32_ok (ty := ty) (t := textOf X) (g := ⟨some f, b, r⟩) (f := f) (aB := aB)
    (aR := aR) rfl (nblkM_pos h0) hX.1 hX.room
  refine ⟨x, e, fun i hi hi2 hc => ?_⟩
  rw [← nblkM_blocks] at hi hc
  rw [ones_T]
  by_cases hh : HomM (textOf X) (i / 1024)
  · rw [rankMpe32_pre hx false hi hi2, if_pos]
    have := hh.count
    rw [show 1024 * (i / 1024) + 1024 = 1024 * (i / 1024 + 1) by omega] at this
    exact this
  · refine rankMpe32_ok hx hX.1 hi hi2 (Or.inl rfl) (Or.inl ?_)
    rcases hc with hc | ⟨q, h1, h2, h3⟩ | hc
    · exact absurd ((homM_iff X _).1 hc) hh
    · have h4 := readM_le (ty := ty) hh
      have h5 := eo_mono ty (textOf X) (show i / 1024 + 1 ≤ q by omega)
      have h6 := eo_mono ty (textOf X) (show q + 1 ≤ nblkM (textOf X) by omega)
      rw [eo_succ, if_neg (fun h => h3 ((homM_iff X _).2 h))] at h6
      have h7 := (sl_bounds ty (textOf X) q).1
      omega
    · have hk : kd ty (textOf X) (i / 1024) = 0 := by
        unfold kd
        rw [zc_zeros, fc_fulls]
        revert hc
        generalize Text.zeros X (i / 1024) = z
        generalize Text.fulls X (i / 1024) = g
        cases ty <;> simp only [kindOf, blockBytes, Text.bytes1, Text.bytes2, Text.bytes3] <;>
          (repeat' split) <;> omega
      have h4 := readM_plain (ty := ty) hh hk
      have h5 := eo_mono ty (textOf X) (show i / 1024 + 1 ≤ nblkM (textOf X) by omega)
      omega

example (f : Nat → BitVec 8) : ∃ x, buildMpe32 .mpe3 ⟨some f, none, none⟩ 64 64 (textOf samplePairs2) = ok x ∧
    rankMpe32 .mpe3 false x 1020 = ok 3 := by
  obtain ⟨x, e, h⟩ := C93_mpe_rank_written_partial (X := samplePairs2) .mpe3 (by decide)
    (fitsMpe_of_length _ (by decide)) f none none 64 64
  refine ⟨x, e, ?_⟩
  rw [h 1020 (by decide) (by decide) (Or.inr (Or.inl ⟨1, by decide, by decide, by decide +kernel⟩))]
  exact congrArg ok (by decide +kernel)

/-- There, they are not enough: if it ends with two zero bytes and has 18 such pairs, and some other bit,
then its last 16 positions are answered from bytes that were never written. -/
theorem C93_mpe_last_unwritten (ty : MpeType) (hX : FitsMpe ty X) (f : Nat → BitVec 8)
    (r : Option (Nat → Nat)) (aB aR q : Nat) (hq : q < Text.blocks128 X)
    (hl : ∀ k, q < k → k < Text.blocks128 X → Text.Homog128 X k) (hz : 18 ≤ Text.zeros X q)
    (h1 : ones (Text.bits X) (1024 * q) < ones (Text.bits X) (1024 * (q + 1)))
    (he : X.getD (128 * q + 126) 0#8 = 0#8 ∧ X.getD (128 * q + 127) 0#8 = 0#8) :
    ∃ x, buildMpe32 ty ⟨some f, none, r⟩ aB aR (textOf X) = ok x ∧
      ∀ i, 1024 * q + 1008 ≤ i → i < 1024 * q + 1024 → i < 2 ^ 32 → rankMpe32 ty false x i = ub .uninit := by
  rw [← nblkM_blocks] at hq hl
  obtain ⟨x, e, hx⟩ := buildMpe32_ok (ty := ty) (t := textOf X) (g := ⟨some f, none, r⟩) (f := f) (aB := aB)
    (aR := aR) rfl (by omega) hX.1 hX.room
  refine ⟨x, e, fun i hi1 hi2 hi3 => ?_⟩
  have hiq : i / 1024 = q := by omega
  have hz' := hz
  rw [← zc_zeros] at hz'
  have hzp : zp (blk (textOf X) q) 63 = true := by
    unfold zp
    rw [blk_textOf, blk_textOf, he.1, he.2]
    rfl
  have hk : kd ty (textOf X) q = 1 ∨ kd ty (textOf X) q = 3 := by
    unfold kd
    generalize zc (blk (textOf X) q) 64 = z at *
    generalize fc (blk (textOf X) q) 64 = g
    cases ty <;> simp only [kindOf] <;> (repeat' split) <;> omega
  have hdp : dp (kd ty (textOf X) q) (blk (textOf X) q) 63 = true := by
    rcases hk with h | h
    · rw [h]; exact hzp
    · rw [h]
      show (zp (blk (textOf X) q) 63 || fp (blk (textOf X) q) 63) = true
      rw [hzp]; rfl
  have hcount : (T (textOf X) (1024 * (q + 1)) - T (textOf X) (1024 * q)) % 1024 ≠ 0 := by
    rw [ones_T, ones_T] at h1
    have h2 : T (textOf X) (1024 * (q + 1)) = T (textOf X) (1024 * q + 1008) := by
      have := T_dcnt (t := textOf X) (128 * q + 126) (Nat.le_refl 16)
      rw [tbyte_textOf, tbyte_textOf, he.1, show 128 * q + 126 + 1 = 128 * q + 127 by omega, he.2, dcnt_zero] at this
      rw [show 1024 * (q + 1) = 8 * (128 * q + 126) + 16 by omega, this,
        Nat.add_zero, show 8 * (128 * q + 126) = 1024 * q + 1008 by omega]
    have h3 := T_diff (textOf X) (1024 * q) 1008
    omega
  refine rankMpe32_uninit hx hX.1 (by omega) hi3 (Or.inl rfl) rfl (by rw [hiq]; exact hcount) ?_
  have heo : ∀ d, q + 1 + d ≤ nblkM (textOf X) → eo ty (textOf X) (q + 1 + d) = eo ty (textOf X) (q + 1) := by
    intro d
    induction d with
    | zero => intro _; rfl
    | succ d ih =>
      intro h
      rw [← Nat.add_assoc, eo_succ, if_pos ((homM_iff X _).1 (hl _ (by omega) (by omega))), Nat.add_zero]
      exact ih (by omega)
  have h2 := heo (nblkM (textOf X) - (q + 1)) (by omega)
  rw [show q + 1 + (nblkM (textOf X) - (q + 1)) = nblkM (textOf X) by omega, eo_succ,
    if_neg (fun h => hcount (by
      have := h.count
      rw [show 1024 * q + 1024 = 1024 * (q + 1) by omega] at this
      exact this))] at h2
  rw [h2]
  unfold readM sl posM
  rw [hiq, show i % 1024 / 16 = 63 by omega, hdp, if_pos rfl]
  have h3 := kp_succ (kd ty (textOf X) q) (blk (textOf X) q) 63
  rw [hdp, if_pos rfl] at h3
  rw [h3]
  omega

example (ty : MpeType) (f : Nat → BitVec 8) :
    ∃ x, buildMpe32 ty ⟨some f, none, none⟩ 64 64 (textOf samplePairs) = ok x ∧ rankMpe32 ty false x 3060 = ub .uninit := by
  obtain ⟨x, e, h⟩ := C93_mpe_last_unwritten (X := samplePairs) ty (fitsMpe_of_length ty (by decide)) f none 64 64 2 (by decide)
    (by intro k h1 h2; rw [show Text.blocks128 samplePairs = 3 by decide] at h2; omega) (by decide +kernel)
    (by decide +kernel) (by decide +kernel)
  exact ⟨x, e, h 3060 (by decide) (by decide) (by decide)⟩

/-- Where unaligned reads are undefined, a block is read just if it is stored at a multiple of 8. -/
theorem C93_mpe_aligned (ty : MpeType) (h0 : X ≠ []) (hX : FitsMpe ty X) (f b : Nat → BitVec 8)
    (r : Option (Nat → Nat)) (aB aR : Nat) : ∃ x, buildMpe32 ty ⟨some f, some b, r⟩ aB aR (textOf X) = ok x ∧
      ∀ i, i < 1024 * Text.blocks128 X → i < 2 ^ 32 →
        (Text.total (blockBytes ty) X (i / 1024) % 8 = 0 → rankMpe32 ty true x i = ok (ones (Text.bits X) i)) ∧
        (Text.total (blockBytes ty) X (i / 1024) % 8 ≠ 0 →
          ones (Text.bits X) (1024 * (i / 1024)) < ones (Text.bits X) (1024 * (i / 1024 + 1)) →
          ones (Text.bits X) (1024 * (i / 1024 + 1)) < ones (Text.bits X) (1024 * (i / 1024)) + 1024 →
          rankMpe32 ty true x i = ub .misaligned) := by
  obtain ⟨x, e, hx⟩ := buildMpe32_ok (ty := ty) (t := textOf X) (g := ⟨some f, some b, r⟩) (f := f) (aB := aB)
    (aR := aR) rfl (nblkM_pos h0) hX.1 hX.room
  refine ⟨x, e, fun i hi hi2 => ?_⟩
  rw [← nblkM_blocks] at hi
  rw [ones_T, ones_T, ones_T, ← eo_total]
  refine ⟨fun h => rankMpe32_ok hx hX.1 hi hi2 (Or.inr h) (Or.inr ⟨b, rfl⟩),
    fun h h1 h2 => rankMpe32_mis hx hX.1 hi hi2 h ?_⟩
  omega

example (ty : MpeType) (f b : Nat → BitVec 8) :
    ∃ x, buildMpe32 ty ⟨some f, some b, none⟩ 64 64 (textOf samplePairs2) = ok x ∧ rankMpe32 ty true x 100 = ok 3 ∧
      rankMpe32 ty true x 1030 = ub .misaligned := by
  obtain ⟨x, e, h⟩ := C93_mpe_aligned (X := samplePairs2) ty (by decide) (fitsMpe_of_length ty (by decide)) f b none 64 64
  refine ⟨x, e, ((h 100 (by decide) (by decide)).1 rfl).trans (congrArg ok (by decide +kernel)), (h 1030 (by decide) (by decide)).2 ?_
    (by decide +kernel) (by decide +kernel)⟩
  cases ty <;> decide +kernel

/-! ## C94: sizes -/

/-- `getSize()`: 72 bytes for each 16 blocks, and what is stored of the blocks that are not homogeneous.  It
is 1572 less than what the object takes. -/
theorem C94_mpe_size (ty : MpeType) (h0 : X ≠ []) (hX : FitsMpe ty X) (f : Nat → BitVec 8)
    (b : Option (Nat → BitVec 8)) (r : Option (Nat → Nat)) (aB aR : Nat) :
    ∃ x, buildMpe32 ty ⟨some f, b, r⟩ aB aR (textOf X) = ok x ∧
      x.bytes32 = 292 + 72 * (Text.blocks128 X / 16 + 1) + Text.total (blockBytes ty) X (Text.blocks128 X) ∧
      x.bytes32 + 1572 = x.taken32 := by
  obtain ⟨x, e, hx⟩ := buildMpe32_ok (ty := ty) (t := textOf X) (g := ⟨some f, b, r⟩) (f := f) (aB := aB)
    (aR := aR) rfl (nblkM_pos h0) hX.1 hX.room
  have hroom := hX.room
  unfold Room32 at hroom
  have hadd : add32 (eo ty (textOf X) (nblkM (textOf X)) + 8) 128 = eo ty (textOf X) (nblkM (textOf X)) + 136 :=
    Nat.mod_eq_of_lt (by simp only [W32]; omega)
  refine ⟨x, e, ?_, ?_⟩
  · unfold Mpe.bytes32
    rw [hx.rl, hx.bl, if_pos (by omega), if_pos (by omega), hadd, nblkM_blocks, eo_total]
    omega
  · unfold Mpe.bytes32 Mpe.taken32
    rw [hx.rl, hx.bl, if_pos (by omega), if_pos (by omega), hadd]
    omega

example (f : Nat → BitVec 8) : ∃ x, buildMpe32 .mpe1 ⟨some f, none, none⟩ 64 64 (textOf samplePairs) = ok x ∧
    x.bytes32 = 384 := by
  obtain ⟨x, e, h, -⟩ := C94_mpe_size (X := samplePairs) .mpe1 (by decide)
    (fitsMpe_of_length _ (by decide)) f none none 64 64
  refine ⟨x, e, h.trans ?_⟩
  decide +kernel

/-- `RANK_MPE2` is never larger than the others. -/
theorem C94_mpe2_smallest (ty : MpeType) (h0 : X ≠ []) (hX : FitsMpe ty X) (f : Nat → BitVec 8)
    (b : Option (Nat → BitVec 8)) (r : Option (Nat → Nat)) (aB aR : Nat) :
    ∃ x y, buildMpe32 .mpe2 ⟨some f, b, r⟩ aB aR (textOf X) = ok x ∧ buildMpe32 ty ⟨some f, b, r⟩ aB aR (textOf X) = ok y ∧
      x.bytes32 ≤ y.bytes32 := by
  have key : ∀ n, Text.total (blockBytes .mpe2) X n ≤ Text.total (blockBytes ty) X n := by
    intro n
    rw [← eo_total, ← eo_total]
    induction n with
    | zero => exact Nat.le_refl _
    | succ n ih =>
      rw [eo_succ, eo_succ]
      have : sl .mpe2 (textOf X) n ≤ sl ty (textOf X) n := by
        rw [sl_bytes, sl_bytes]
        generalize Text.zeros X n = z
        generalize Text.fulls X n = g
        cases ty <;> simp only [blockBytes, Text.bytes1, Text.bytes2, Text.bytes3] <;> (repeat' split) <;> omega
      split <;> omega
  have hle := key (Text.blocks128 X)
  have hX2 : FitsMpe .mpe2 X := ⟨hX.1, by have := hX.2; omega⟩
  obtain ⟨x, e, hx, -⟩ := C94_mpe_size .mpe2 h0 hX2 f b r aB aR
  obtain ⟨y, e', hy, -⟩ := C94_mpe_size ty h0 hX f b r aB aR
  refine ⟨x, y, e, e', ?_⟩
  omega

example (f : Nat → BitVec 8) : ∃ x y, buildMpe32 .mpe2 ⟨some f, none, none⟩ 64 64 (textOf samplePairs) = ok x ∧
    buildMpe32 .mpe1 ⟨some f, none, none⟩ 64 64 (textOf samplePairs) = ok y ∧ x.bytes32 ≤ y.bytes32 :=
  C94_mpe2_smallest .mpe1 (by decide) (fitsMpe_of_length _ (by decide)) f none none 64 64

/-! ## C95: `save` and `load` -/

/-- What is read back does for every position of the blocks what the saved object does, even where that is
undefined; what follows in the file stays; a file that was cut is rejected.  Missing from the full claim: the
end of a text of whole blocks, see `C95_mpe_end_lost`. -/
theorem C95_mpe_file_partial (ty : MpeType) (h0 : X ≠ []) (hX : FitsMpe ty X) (f : Nat → BitVec 8)
    (b : Option (Nat → BitVec 8)) (r : Option (Nat → Nat)) (aB aR : Nat) :
    ∃ x, buildMpe32 ty ⟨some f, b, r⟩ aB aR (textOf X) = ok x ∧ ∃ F : File, (∀ f, x.save32 f = ok (f ++ F)) ∧ ∀ bB bR,
      (∃ y, (∀ f, Mpe.load32 bB bR (F ++ f) = ok (y, f)) ∧ y.textLen = X.length ∧ y.bytes32 = x.bytes32 ∧
        ∀ s i, i < 1024 * Text.blocks128 X → i < 2 ^ 32 → rankMpe32 ty s y i = rankMpe32 ty s x i) ∧
      ∀ k, k < F.length → Mpe.load32 bB bR (F.take k) = abort := by
  obtain ⟨x, e, hx⟩ := buildMpe32_ok (ty := ty) (t := textOf X) (g := ⟨some f, b, r⟩) (f := f) (aB := aB)
    (aR := aR) rfl (nblkM_pos h0) hX.1 hX.room
  refine ⟨x, e, x.file32, mpe_save32 hx, fun bB bR => ⟨⟨x.back32 bB bR, (mpe_load32 hx hX.1 hX.room bB bR).1, hx.tl, rfl,
    fun s i hi hi2 => ?_⟩, (mpe_load32 hx hX.1 hX.room bB bR).2⟩⟩
  rw [← nblkM_blocks] at hi
  exact rankMpe32_same hx (hx.back bB bR) hX.1 s hi hi2

/-- So the answers of `C92_mpe_rank_partial` hold after reading back, although `load` leaves memory after
the arrays unwritten. -/
theorem C95_mpe_answers (ty : MpeType) (h0 : X ≠ []) (hX : FitsMpe ty X) (f b : Nat → BitVec 8)
    (r : Option (Nat → Nat)) (aB aR bB bR : Nat) :
    ∃ x F y, buildMpe32 ty ⟨some f, some b, r⟩ aB aR (textOf X) = ok x ∧ x.save32 [] = ok F ∧ Mpe.load32 bB bR F = ok (y, []) ∧
      ∀ i, i < 1024 * Text.blocks128 X → i < 2 ^ 32 → rankMpe32 ty false y i = ok (ones (Text.bits X) i) := by
  obtain ⟨x, e, F, h1, h2⟩ := C95_mpe_file_partial ty h0 hX f (some b) r aB aR
  obtain ⟨y, h3, -, -, h4⟩ := (h2 bB bR).1
  obtain ⟨x', e', h⟩ := C92_mpe_rank_partial ty h0 hX f b r aB aR
  rw [e] at e'
  injection e' with e'
  subst e'
  refine ⟨x, F, y, e, h1 [], ?_, fun i hi hi2 => (h4 false i hi hi2).trans (h i hi hi2)⟩
  have := h3 []
  rw [List.append_nil] at this
  exact this

example (ty : MpeType) (f b : Nat → BitVec 8) : ∃ x F y,
    buildMpe32 ty ⟨some f, some b, none⟩ 64 64 (textOf samplePairs) = ok x ∧ x.save32 [] = ok F ∧
    Mpe.load32 16 32 F = ok (y, []) ∧ rankMpe32 ty false y 2552 = ok 1028 := by
  obtain ⟨x, F, y, e, h1, h2, h⟩ := C95_mpe_answers (X := samplePairs) ty (by decide)
    (fitsMpe_of_length ty (by decide)) f b none 64 64 16 32
  refine ⟨x, F, y, e, h1, h2, ?_⟩
  rw [h 2552 (by decide) (by decide)]
  exact congrArg ok (by decide +kernel)

/-- With 15 blocks (or 15 more than a multiple of 16) the count of all ones needs a rank that is not
saved: it is answered before, if memory can be read, and undefined after. -/
theorem C95_mpe_end_lost (ty : MpeType) (hp : 8 * X.length < 2 ^ 32) (h15 : X.length % 2048 = 1920) (f b : Nat → BitVec 8)
    (r : Nat → Nat) (aB aR bB bR : Nat) (hB : aB % 16 = 0) (hR : aR % 16 = 0) :
    ∃ x F y, buildMpe32 ty ⟨some f, some b, some r⟩ aB aR (textOf X) = ok x ∧ x.save32 [] = ok F ∧
      Mpe.load32 bB bR F = ok (y, []) ∧ rankMpe32 ty false x (8 * X.length) = ok ((Text.bits X).count true) ∧
      ∃ e, rankMpe32 ty false y (8 * X.length) = ub e := by
  have h0 : X ≠ [] := fun h => by rw [h] at h15; exact absurd h15 (by decide)
  have hX : FitsMpe ty X := fitsMpe_of_length ty (by omega)
  obtain ⟨x, e, hx⟩ := buildMpe32_ok (ty := ty) (t := textOf X) (g := ⟨some f, some b, some r⟩) (f := f) (aB := aB)
    (aR := aR) rfl (nblkM_pos h0) hX.1 hX.room
  have hn : 1024 * nblkM (textOf X) = 8 * X.length ∧ nblkM (textOf X) % 16 = 15 := by
    rw [nblkM_blocks]
    unfold Text.blocks128
    omega
  have h1 := (mpe_load32 hx hX.1 hX.room bB bR).1 []
  rw [List.append_nil] at h1
  have h2 := rankMpe32_end hx hX.1 (nblkM_pos h0) (by omega) (strict := false) (Or.inl rfl) hB (by omega) rfl rfl rfl
  rw [hn.1, ← ones_T, all_ones (Nat.le_refl _)] at h2
  have h3 := rankMpe32_lost (hx.back bB bR) hn.2 rfl false
  rw [hn.1] at h3
  exact ⟨x, x.file32, x.back32 bB bR, e, mpe_save32 hx [], h1, h2, h3⟩

example : (List.replicate 1920 0x55#8).length % 2048 = 1920 := by rw [List.length_replicate]

end MRS.Props
