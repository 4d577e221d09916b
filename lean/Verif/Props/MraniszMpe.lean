import Verif.Proofs.Mranisz.MpeFile
import Verif.Props.Mranisz

/-!
# Properties of the compressed rank that leaves out pairs (`RankMPE64`), C75-C78

`X` is the text, `ty` one of `RANK_MPE1`, `RANK_MPE2`, `RANK_MPE3`; `aB`, `aR` are the addresses that
`new[]` returns.  `build` and `rank` read memory that was never written: the flags of blocks that do not
exist, and bytes and ranks after the last ones.  `⟨some f, some b, some r⟩` says that these reads give the
values `f`, `b`, `r`; with `none` they are undefined.  The first argument of `rankMpe` after the type says
whether reading eight bytes at an address that is not a multiple of 8 is undefined.
-/

set_option autoImplicit false
set_option maxRecDepth 8192

namespace MRS.Props
open MRS.Mran Outcome Spec

variable {X : List (BitVec 8)}

/-- Zeros, ones, and an incomplete block of four ones with 62 pairs of zeros. -/
def samplePairs : List (BitVec 8) :=
  List.replicate 128 0#8 ++ List.replicate 128 255#8 ++ ([0x81#8, 0x10#8] ++ List.replicate 60 0#8 ++ [1#8])

/-- Two blocks that are not homogeneous; the first is stored in 18 or 10 bytes. -/
def samplePairs2 : List (BitVec 8) := [0x81#8, 0x10#8] ++ List.replicate 126 0#8 ++ [1#8]

theorem nblkM_pos (h0 : X ≠ []) : 0 < nblkM (textOf X) := by
  have : 0 < X.length := List.length_pos_iff.2 h0
  rw [nblkM_blocks]
  unfold Text.blocks128
  omega

theorem len128 (X : List (BitVec 8)) : 8 * X.length ≤ 1024 * Text.blocks128 X := by
  unfold Text.blocks128
  omega

theorem all_ones {i : Nat} (h : 8 * X.length ≤ i) : ones (Text.bits X) i = (Text.bits X).count true := by
  unfold ones
  rw [List.take_of_length_le (by rw [bits_length]; exact h)]

/-! ## C75: answers -/

/-- Every position of the blocks that the text touches, whatever memory holds.  Missing from the full claim
(every text, every `i ≤ 8 * textLen`): the empty text (`C75_mpe_empty`), the end of a text of whole blocks
(`C75_mpe_end_partial`), and memory that may not be read before it is written (C76). -/
theorem C75_mpe_rank_partial (ty : MpeType) (h0 : X ≠ []) (hlen : X.length < 2 ^ 60) (f b : Nat → BitVec 8)
    (r : Option (Nat → Nat)) (aB aR : Nat) : ∃ x, buildMpe ty ⟨some f, some b, r⟩ aB aR (textOf X) = ok x ∧
      ∀ i, i < 1024 * Text.blocks128 X → rankMpe ty false x i = ok (ones (Text.bits X) i) := by
  obtain ⟨x, e, hx⟩ := buildMpe_ok (ty := ty) (t := textOf X) (g := ⟨some f, some b, r⟩) (f := f) (aB := aB)
    (aR := aR) rfl (nblkM_pos h0) hlen
  refine ⟨x, e, fun i hi => ?_⟩
  rw [← nblkM_blocks] at hi
  rw [ones_T]
  exact rankMpe_ok hx hlen hi (Or.inl rfl) (Or.inr ⟨b, rfl⟩)

example (ty : MpeType) (f b : Nat → BitVec 8) :
    ∃ x, buildMpe ty ⟨some f, some b, none⟩ 64 64 (textOf samplePairs) = ok x ∧ rankMpe ty false x 2552 = ok 1028 := by
  obtain ⟨x, e, h⟩ := C75_mpe_rank_partial (X := samplePairs) ty (by decide) (by decide) f b none 64 64
  refine ⟨x, e, ?_⟩
  rw [h 2552 (by decide)]
  exact congrArg ok (by decide +kernel)

/-- With arrays from `new[]` at multiples of 16, the end of a text of whole blocks too. -/
theorem C75_mpe_end_partial (ty : MpeType) (h0 : X ≠ []) (hlen : X.length < 2 ^ 60) (f b : Nat → BitVec 8)
    (r : Nat → Nat) (aB aR : Nat) (hB : aB % 16 = 0) (hR : aR % 16 = 0) :
    ∃ x, buildMpe ty ⟨some f, some b, some r⟩ aB aR (textOf X) = ok x ∧
      ∀ i, i ≤ 8 * X.length → rankMpe ty false x i = ok (ones (Text.bits X) i) := by
  obtain ⟨x, e, hx⟩ := buildMpe_ok (ty := ty) (t := textOf X) (g := ⟨some f, some b, some r⟩) (f := f) (aB := aB)
    (aR := aR) rfl (nblkM_pos h0) hlen
  refine ⟨x, e, fun i hi => ?_⟩
  have hl := len128 X
  rw [← nblkM_blocks] at hl
  rw [ones_T]
  by_cases hi' : i < 1024 * nblkM (textOf X)
  · exact rankMpe_ok hx hlen hi' (Or.inl rfl) (Or.inr ⟨b, rfl⟩)
  · have : i = 1024 * nblkM (textOf X) := by omega
    rw [this]
    exact rankMpe_end hx hlen (nblkM_pos h0) (Or.inl rfl) hB (by omega) rfl rfl rfl

example (ty : MpeType) (f b : Nat → BitVec 8) (r : Nat → Nat) :
    ∃ x, buildMpe ty ⟨some f, some b, some r⟩ 64 64 (textOf (List.replicate 128 0x81#8)) = ok x ∧
      rankMpe ty false x 1024 = ok 256 := by
  obtain ⟨x, e, h⟩ := C75_mpe_end_partial (X := List.replicate 128 0x81#8) ty (by decide) (by decide) f b r 64 64
    (by decide) (by decide)
  refine ⟨x, e, ?_⟩
  rw [h 1024 (by decide)]
  exact congrArg ok (by decide +kernel)

/-- The empty text cannot be built: the offset of the block before the first is read. -/
theorem C75_mpe_empty (ty : MpeType) (g : Junk) (aB aR : Nat) : buildMpe ty g aB aR (textOf []) = ub .oob :=
  buildMpe_empty ty _ aB aR g rfl

/-- So the full claim is false even if memory that was not written may be read. -/
theorem C75_mpe_rank_false (ty : MpeType) (f b : Nat → BitVec 8) (r : Nat → Nat) :
    ¬ ∀ (X : List (BitVec 8)), X.length < 2 ^ 60 →
      ∃ x, buildMpe ty ⟨some f, some b, some r⟩ 64 64 (textOf X) = ok x ∧
        ∀ i, i ≤ 8 * X.length → rankMpe ty false x i = ok (ones (Text.bits X) i) := by
  intro h
  obtain ⟨x, e, -⟩ := h [] (by decide)
  rw [C75_mpe_empty] at e
  cases e

/-! ## C76: memory that was not written, and alignment -/

/-- `build` reads the flag of a block that does not exist, for every text. -/
theorem C76_mpe_build_unwritten (ty : MpeType) (hlen : X.length < 2 ^ 60) (b : Option (Nat → BitVec 8))
    (r : Option (Nat → Nat)) (aB aR : Nat) :
    buildMpe ty ⟨none, b, r⟩ aB aR (textOf X) = ub (if Text.blocks128 X % 16 = 0 then .oob else .uninit) := by
  rw [← nblkM_blocks]
  exact buildMpe_ub ty _ aB aR rfl hlen

example : buildMpe .mpe2 ⟨none, none, none⟩ 64 64 (textOf samplePairs) = ub .uninit :=
  (C76_mpe_build_unwritten .mpe2 (by decide) none none 64 64).trans (congrArg ub (by decide +kernel))

/-- If the flags can be read, a query needs only bytes that were written, except in the last block that is
not homogeneous. -/
theorem C76_mpe_rank_written_partial (ty : MpeType) (h0 : X ≠ []) (hlen : X.length < 2 ^ 60) (f : Nat → BitVec 8)
    (b : Option (Nat → BitVec 8)) (r : Option (Nat → Nat)) (aB aR : Nat) :
    ∃ x, buildMpe ty ⟨some f, b, r⟩ aB aR (textOf X) = ok x ∧
      ∀ i, i < 1024 * Text.blocks128 X →
        (Text.Homog128 X (i / 1024) ∨ (∃ q, i / 1024 < q ∧ q < Text.blocks128 X ∧ ¬ Text.Homog128 X q) ∨
          blockBytes ty (Text.zeros X (i / 1024)) (Text.fulls X (i / 1024)) = 128) →
        rankMpe ty false x i = ok (ones (Text.bits X) i) := by
  obtain ⟨x, e, hx⟩ := buildMpe_ok (ty := ty) (t := textOf X) (g := ⟨some f, b, r⟩) (f := f) (aB := aB)
    (aR := aR) rfl (nblkM_pos h0) hlen
  refine ⟨x, e, fun i hi hc => ?_⟩
  rw [← nblkM_blocks] at hi hc
  rw [ones_T]
  by_cases hh : HomM (textOf X) (i / 1024)
  · rw [rankMpe_pre hx hlen false hi, coreM hlen (by omega) (show i % 1024 < 1024 by omega) (fun h => absurd hh h)]
    congr 2
    omega
  · refine rankMpe_ok hx hlen hi (Or.inl rfl) (Or.inl ?_)
    rcases hc with hc | ⟨q, h1, h2, h3⟩ | hc
    · exact absurd ((homM_iff X _).1 hc) hh
    · have h4 := readM_le (ty := ty) hh
      have h5 := eo_mono ty (textOf X) (show i / 1024 + 1 ≤ q by omega)
      have h6 := eo_mono ty (textOf X) (show q + 1 ≤ nblkM (textOf X) by omega)
      rw [eo_succ, if_neg (fun h => h3 ((homM_iff X _).2 h))] at h6
      have h7 := (sl_bounds ty (textOf X) q).1
      omega
    · have hk : kd ty (textOf X) (i / 1024) = 0 := by
        unfold kd
        rw [zc_zeros, fc_fulls]
        revert hc
        generalize Text.zeros X (i / 1024) = z
        generalize Text.fulls X (i / 1024) = g
        cases ty <;> simp only [kindOf, blockBytes, Text.bytes1, Text.bytes2, Text.bytes3] <;>
          (repeat' split) <;> omega
      have h4 := readM_plain (ty := ty) hh hk
      have h5 := eo_mono ty (textOf X) (show i / 1024 + 1 ≤ nblkM (textOf X) by omega)
      omega

example (f : Nat → BitVec 8) : ∃ x, buildMpe .mpe3 ⟨some f, none, none⟩ 64 64 (textOf samplePairs2) = ok x ∧
    rankMpe .mpe3 false x 1020 = ok 3 := by
  obtain ⟨x, e, h⟩ := C76_mpe_rank_written_partial (X := samplePairs2) .mpe3 (by decide) (by decide) f none none 64 64
  refine ⟨x, e, ?_⟩
  rw [h 1020 (by decide) (Or.inr (Or.inl ⟨1, by decide, by decide, by decide +kernel⟩))]
  exact congrArg ok (by decide +kernel)

/-- There, they are not enough: if it ends with two zero bytes and has 18 such pairs, and some other bit,
then its last 16 positions are answered from bytes that were never written. -/
theorem C76_mpe_last_unwritten (ty : MpeType) (hlen : X.length < 2 ^ 60) (f : Nat → BitVec 8)
    (r : Option (Nat → Nat)) (aB aR q : Nat) (hq : q < Text.blocks128 X)
    (hl : ∀ k, q < k → k < Text.blocks128 X → Text.Homog128 X k) (hz : 18 ≤ Text.zeros X q)
    (h1 : ones (Text.bits X) (1024 * q) < ones (Text.bits X) (1024 * (q + 1)))
    (he : X.getD (128 * q + 126) 0#8 = 0#8 ∧ X.getD (128 * q + 127) 0#8 = 0#8) :
    ∃ x, buildMpe ty ⟨some f, none, r⟩ aB aR (textOf X) = ok x ∧
      ∀ i, 1024 * q + 1008 ≤ i → i < 1024 * q + 1024 → rankMpe ty false x i = ub .uninit := by
  rw [← nblkM_blocks] at hq hl
  obtain ⟨x, e, hx⟩ := buildMpe_ok (ty := ty) (t := textOf X) (g := ⟨some f, none, r⟩) (f := f) (aB := aB)
    (aR := aR) rfl (by omega) hlen
  refine ⟨x, e, fun i hi1 hi2 => ?_⟩
  have hiq : i / 1024 = q := by omega
  have hz' := hz
  rw [← zc_zeros] at hz'
  have hzp : zp (blk (textOf X) q) 63 = true := by
    unfold zp
    rw [blk_textOf, blk_textOf, he.1, he.2]
    rfl
  have hk : kd ty (textOf X) q = 1 ∨ kd ty (textOf X) q = 3 := by
    unfold kd
    generalize zc (blk (textOf X) q) 64 = z at *
    generalize fc (blk (textOf X) q) 64 = g
    cases ty <;> simp only [kindOf] <;> (repeat' split) <;> omega
  have hdp : dp (kd ty (textOf X) q) (blk (textOf X) q) 63 = true := by
    rcases hk with h | h
    · rw [h]; exact hzp
    · rw [h]
      show (zp (blk (textOf X) q) 63 || fp (blk (textOf X) q) 63) = true
      rw [hzp]; rfl
  have hcount : (T (textOf X) (1024 * (q + 1)) - T (textOf X) (1024 * q)) % 1024 ≠ 0 := by
    rw [ones_T, ones_T] at h1
    have h2 : T (textOf X) (1024 * (q + 1)) = T (textOf X) (1024 * q + 1008) := by
      have := T_dcnt (t := textOf X) (128 * q + 126) (Nat.le_refl 16)
      rw [tbyte_textOf, tbyte_textOf, he.1, show 128 * q + 126 + 1 = 128 * q + 127 by omega, he.2, dcnt_zero] at this
      rw [show 1024 * (q + 1) = 8 * (128 * q + 126) + 16 by omega, this,
        Nat.add_zero, show 8 * (128 * q + 126) = 1024 * q + 1008 by omega]
    have h3 := T_diff (textOf X) (1024 * q) 1008
    omega
  refine rankMpe_uninit hx hlen (by omega) (Or.inl rfl) rfl (by rw [hiq]; exact hcount) ?_
  have heo : ∀ d, q + 1 + d ≤ nblkM (textOf X) → eo ty (textOf X) (q + 1 + d) = eo ty (textOf X) (q + 1) := by
    intro d
    induction d with
    | zero => intro _; rfl
    | succ d ih =>
      intro h
      rw [← Nat.add_assoc, eo_succ, if_pos ((homM_iff X _).1 (hl _ (by omega) (by omega))), Nat.add_zero]
      exact ih (by omega)
  have h2 := heo (nblkM (textOf X) - (q + 1)) (by omega)
  rw [show q + 1 + (nblkM (textOf X) - (q + 1)) = nblkM (textOf X) by omega, eo_succ,
    if_neg (fun h => hcount (by
      have := h.count
      rw [show 1024 * q + 1024 = 1024 * (q + 1) by omega] at this
      exact this))] at h2
  rw [h2]
  unfold readM sl posM
  rw [hiq, show i % 1024 / 16 = 63 by omega, hdp, if_pos rfl]
  have h3 := kp_succ (kd ty (textOf X) q) (blk (textOf X) q) 63
  rw [hdp, if_pos rfl] at h3
  rw [h3]
  omega

example (ty : MpeType) (f : Nat → BitVec 8) :
    ∃ x, buildMpe ty ⟨some f, none, none⟩ 64 64 (textOf samplePairs) = ok x ∧ rankMpe ty false x 3060 = ub .uninit := by
  obtain ⟨x, e, h⟩ := C76_mpe_last_unwritten (X := samplePairs) ty (by decide) f none 64 64 2 (by decide)
    (by intro k h1 h2; rw [show Text.blocks128 samplePairs = 3 by decide] at h2; omega) (by decide +kernel)
    (by decide +kernel) (by decide +kernel)
  exact ⟨x, e, h 3060 (by decide) (by decide)⟩

/-- Where unaligned reads are undefined, a block is read just if it is stored at a multiple of 8. -/
theorem C76_mpe_aligned (ty : MpeType) (h0 : X ≠ []) (hlen : X.length < 2 ^ 60) (f b : Nat → BitVec 8)
    (r : Option (Nat → Nat)) (aB aR : Nat) : ∃ x, buildMpe ty ⟨some f, some b, r⟩ aB aR (textOf X) = ok x ∧
      ∀ i, i < 1024 * Text.blocks128 X →
        (Text.total (blockBytes ty) X (i / 1024) % 8 = 0 → rankMpe ty true x i = ok (ones (Text.bits X) i)) ∧
        (Text.total (blockBytes ty) X (i / 1024) % 8 ≠ 0 →
          ones (Text.bits X) (1024 * (i / 1024)) < ones (Text.bits X) (1024 * (i / 1024 + 1)) →
          ones (Text.bits X) (1024 * (i / 1024 + 1)) < ones (Text.bits X) (1024 * (i / 1024)) + 1024 →
          rankMpe ty true x i = ub .misaligned) := by
  obtain ⟨x, e, hx⟩ := buildMpe_ok (ty := ty) (t := textOf X) (g := ⟨some f, some b, r⟩) (f := f) (aB := aB)
    (aR := aR) rfl (nblkM_pos h0) hlen
  refine ⟨x, e, fun i hi => ?_⟩
  rw [← nblkM_blocks] at hi
  rw [ones_T, ones_T, ones_T, ← eo_total]
  refine ⟨fun h => rankMpe_ok hx hlen hi (Or.inr h) (Or.inr ⟨b, rfl⟩),
    fun h h1 h2 => rankMpe_mis hx hlen hi h ?_⟩
  omega

example (ty : MpeType) (f b : Nat → BitVec 8) :
    ∃ x, buildMpe ty ⟨some f, some b, none⟩ 64 64 (textOf samplePairs2) = ok x ∧ rankMpe ty true x 100 = ok 3 ∧
      rankMpe ty true x 1030 = ub .misaligned := by
  obtain ⟨x, e, h⟩ := C76_mpe_aligned (X := samplePairs2) ty (by decide) (by decide) f b none 64 64
  refine ⟨x, e, ((h 100 (by decide)).1 rfl).trans (congrArg ok (by decide +kernel)), (h 1030 (by decide)).2 ?_
    (by decide +kernel) (by decide +kernel)⟩
  cases ty <;> decide +kernel

/-! ## C77: sizes, and the wrapper -/

/-- `getSize()`: 80 bytes for each 16 blocks, and what is stored of the blocks that are not homogeneous.  It
is 1568 less than what the object takes. -/
theorem C77_mpe_size (ty : MpeType) (h0 : X ≠ []) (hlen : X.length < 2 ^ 60) (f : Nat → BitVec 8)
    (b : Option (Nat → BitVec 8)) (r : Option (Nat → Nat)) (aB aR : Nat) :
    ∃ x, buildMpe ty ⟨some f, b, r⟩ aB aR (textOf X) = ok x ∧
      x.bytes = 304 + 80 * (Text.blocks128 X / 16 + 1) + Text.total (blockBytes ty) X (Text.blocks128 X) ∧
      x.bytes + 1568 = x.taken := by
  obtain ⟨x, e, hx⟩ := buildMpe_ok (ty := ty) (t := textOf X) (g := ⟨some f, b, r⟩) (f := f) (aB := aB)
    (aR := aR) rfl (nblkM_pos h0) hlen
  refine ⟨x, e, ?_, ?_⟩
  · unfold Mpe.bytes
    rw [hx.rl, hx.bl, if_pos (by omega), if_pos (by omega), nblkM_blocks, eo_total]
    omega
  · unfold Mpe.bytes Mpe.taken
    rw [hx.rl, hx.bl, if_pos (by omega), if_pos (by omega)]
    omega

example (f : Nat → BitVec 8) : ∃ x, buildMpe .mpe1 ⟨some f, none, none⟩ 64 64 (textOf samplePairs) = ok x ∧
    x.bytes = 404 := by
  obtain ⟨x, e, h, -⟩ := C77_mpe_size (X := samplePairs) .mpe1 (by decide) (by decide) f none none 64 64
  refine ⟨x, e, h.trans ?_⟩
  decide +kernel

/-- No block takes more than its 128 bytes. -/
theorem C77_mpe_stored_le (ty : MpeType) (X : List (BitVec 8)) :
    Text.total (blockBytes ty) X (Text.blocks128 X) ≤ 128 * Text.mixed128 X := by
  rw [← eo_total, ← neM_mixed, nblkM_blocks]
  generalize Text.blocks128 X = n
  induction n with
  | zero => exact Nat.le_refl _
  | succ n ih =>
    rw [eo_succ, neM_succ]
    have := (sl_bounds ty (textOf X) n).2
    split <;> omega

/-- `RANK_MPE2` is never larger than the others. -/
theorem C77_mpe2_smallest (ty : MpeType) (h0 : X ≠ []) (hlen : X.length < 2 ^ 60) (f : Nat → BitVec 8)
    (b : Option (Nat → BitVec 8)) (r : Option (Nat → Nat)) (aB aR : Nat) :
    ∃ x y, buildMpe .mpe2 ⟨some f, b, r⟩ aB aR (textOf X) = ok x ∧ buildMpe ty ⟨some f, b, r⟩ aB aR (textOf X) = ok y ∧
      x.bytes ≤ y.bytes := by
  obtain ⟨x, e, hx, -⟩ := C77_mpe_size .mpe2 h0 hlen f b r aB aR
  obtain ⟨y, e', hy, -⟩ := C77_mpe_size ty h0 hlen f b r aB aR
  refine ⟨x, y, e, e', ?_⟩
  have key : ∀ n, Text.total (blockBytes .mpe2) X n ≤ Text.total (blockBytes ty) X n := by
    intro n
    rw [← eo_total, ← eo_total]
    induction n with
    | zero => exact Nat.le_refl _
    | succ n ih =>
      rw [eo_succ, eo_succ]
      have : sl .mpe2 (textOf X) n ≤ sl ty (textOf X) n := by
        rw [sl_bytes, sl_bytes]
        generalize Text.zeros X n = z
        generalize Text.fulls X n = g
        cases ty <;> simp only [blockBytes, Text.bytes1, Text.bytes2, Text.bytes3] <;> (repeat' split) <;> omega
      split <;> omega
  have := key (Text.blocks128 X)
  omega

/-- And it can be smaller than either: 62 pairs of zeros need one word, and 12 are enough to leave out. -/
example : Text.total (blockBytes .mpe2) samplePairs 3 < Text.total (blockBytes .mpe1) samplePairs 3 ∧
    Text.total (blockBytes .mpe2) (List.replicate 24 0#8 ++ List.replicate 104 1#8) 1 <
      Text.total (blockBytes .mpe3) (List.replicate 24 0#8 ++ List.replicate 104 1#8) 1 := by
  decide +kernel

/-- `size()` of the wrapper is the number of bits of the words. -/
theorem C77_wrapper_size (ty : MpeType) (ws : List (BitVec 64)) (h0 : ws ≠ []) (hlen : ws.length < 2 ^ 57)
    (f : Nat → BitVec 8) (b : Option (Nat → BitVec 8)) (r : Option (Nat → Nat)) (aB aR : Nat) :
    ∃ x, buildMpe ty ⟨some f, b, r⟩ aB aR (wordBytes (Vec.ofList ws)) = ok x ∧
      wrapperSize x.textLen = 64 * ws.length := by
  have hp : 0 < ws.length := List.length_pos_iff.2 h0
  rw [wordBytes_textOf]
  have hl := bytesOf_length ws
  obtain ⟨x, e, hx⟩ := buildMpe_ok (ty := ty) (t := textOf (Text.bytesOf ws)) (g := ⟨some f, b, r⟩) (f := f) (aB := aB)
    (aR := aR) rfl (nblkM_pos (fun h => by rw [h] at hl; simp only [List.length_nil] at hl; omega))
    (by show (Text.bytesOf ws).length < _; omega)
  refine ⟨x, e, ?_⟩
  rw [hx.tl]
  show (Text.bytesOf ws).length * 1 * 8 = _
  omega

/-- The wrapper counts as the library's own bitmaps do at whole bytes. -/
theorem C77_wrapper_rank_partial (ty : MpeType) (ws : List (BitVec 64)) (h0 : ws ≠ []) (hlen : ws.length < 2 ^ 57)
    (f b : Nat → BitVec 8) (r : Option (Nat → Nat)) (aB aR : Nat) :
    ∃ x, buildMpe ty ⟨some f, some b, r⟩ aB aR (wordBytes (Vec.ofList ws)) = ok x ∧
      ∀ m, m < 8 * ws.length → rankMpe ty false x (8 * m) = ok (ones (bitsOf ws) (8 * m)) := by
  have hp : 0 < ws.length := List.length_pos_iff.2 h0
  rw [wordBytes_textOf]
  have hl := bytesOf_length ws
  obtain ⟨x, e, h⟩ := C75_mpe_rank_partial (X := Text.bytesOf ws) ty
    (fun h => by rw [h] at hl; simp only [List.length_nil] at hl; omega) (by omega) f b r aB aR
  refine ⟨x, e, fun m hm => ?_⟩
  have := len128 (Text.bytesOf ws)
  rw [h _ (by omega), ones_bytes ws m (by omega)]

example (ty : MpeType) (f b : Nat → BitVec 8) :
    ∃ x, buildMpe ty ⟨some f, some b, none⟩ 64 64 (wordBytes (Vec.ofList [0xFF01#64, 3#64])) = ok x ∧
      rankMpe ty false x 72 = ok 11 := by
  obtain ⟨x, e, h⟩ := C77_wrapper_rank_partial ty [0xFF01#64, 3#64] (by decide) (by decide) f b none 64 64
  exact ⟨x, e, (h 9 (by decide)).trans (congrArg ok (by decide +kernel))⟩

/-- Elsewhere it counts the other end of the byte. -/
theorem C77_wrapper_rank_false (ty : MpeType) (f b : Nat → BitVec 8) :
    ∃ x, buildMpe ty ⟨some f, some b, none⟩ 64 64 (wordBytes (Vec.ofList [1#64])) = ok x ∧
      rankMpe ty false x 1 = ok 0 ∧ ones (bitsOf [1#64]) 1 = 1 := by
  rw [wordBytes_textOf]
  obtain ⟨x, e, h⟩ := C75_mpe_rank_partial (X := Text.bytesOf [1#64]) ty (by decide +kernel) (by decide +kernel) f b
    none 64 64
  exact ⟨x, e, (h 1 (by decide +kernel)).trans (congrArg ok (by decide +kernel)), by decide +kernel⟩

/-! ## C78: `save` and `load` -/

/-- What is read back does for every position of the blocks what the saved object does, even where that is
undefined; what follows in the file stays; a file that was cut is rejected.  Missing from the full claim: the
end of a text of whole blocks, see `C78_mpe_end_lost`. -/
theorem C78_mpe_file_partial (ty : MpeType) (h0 : X ≠ []) (hlen : X.length < 2 ^ 60) (f : Nat → BitVec 8)
    (b : Option (Nat → BitVec 8)) (r : Option (Nat → Nat)) (aB aR : Nat) :
    ∃ x, buildMpe ty ⟨some f, b, r⟩ aB aR (textOf X) = ok x ∧ ∃ F : File, (∀ f, x.save f = ok (f ++ F)) ∧ ∀ bB bR,
      (∃ y, (∀ f, Mpe.load bB bR (F ++ f) = ok (y, f)) ∧ y.textLen = X.length ∧ y.bytes = x.bytes ∧
        ∀ s i, i < 1024 * Text.blocks128 X → rankMpe ty s y i = rankMpe ty s x i) ∧
      ∀ k, k < F.length → Mpe.load bB bR (F.take k) = abort := by
  obtain ⟨x, e, hx⟩ := buildMpe_ok (ty := ty) (t := textOf X) (g := ⟨some f, b, r⟩) (f := f) (aB := aB)
    (aR := aR) rfl (nblkM_pos h0) hlen
  refine ⟨x, e, x.file, mpe_save hx, fun bB bR => ⟨⟨x.back bB bR, (mpe_load hx hlen bB bR).1, hx.tl, rfl,
    fun s i hi => ?_⟩, (mpe_load hx hlen bB bR).2⟩⟩
  rw [← nblkM_blocks] at hi
  exact rankMpe_same hx (hx.back bB bR) hlen s hi

/-- So the answers of `C75_mpe_rank_partial` hold after reading back, although `load` leaves memory after
the arrays unwritten. -/
theorem C78_mpe_answers (ty : MpeType) (h0 : X ≠ []) (hlen : X.length < 2 ^ 60) (f b : Nat → BitVec 8)
    (r : Option (Nat → Nat)) (aB aR bB bR : Nat) :
    ∃ x F y, buildMpe ty ⟨some f, some b, r⟩ aB aR (textOf X) = ok x ∧ x.save [] = ok F ∧ Mpe.load bB bR F = ok (y, []) ∧
      ∀ i, i < 1024 * Text.blocks128 X → rankMpe ty false y i = ok (ones (Text.bits X) i) := by
  obtain ⟨x, e, F, h1, h2⟩ := C78_mpe_file_partial ty h0 hlen f (some b) r aB aR
  obtain ⟨y, h3, -, -, h4⟩ := (h2 bB bR).1
  obtain ⟨x', e', h⟩ := C75_mpe_rank_partial ty h0 hlen f b r aB aR
  rw [e] at e'
  injection e' with e'
  subst e'
  refine ⟨x, F, y, e, h1 [], ?_, fun i hi => (h4 false i hi).trans (h i hi)⟩
  have := h3 []
  rw [List.append_nil] at this
  exact this

example (ty : MpeType) (f b : Nat → BitVec 8) : ∃ x F y,
    buildMpe ty ⟨some f, some b, none⟩ 64 64 (textOf samplePairs) = ok x ∧ x.save [] = ok F ∧
    Mpe.load 16 32 F = ok (y, []) ∧ rankMpe ty false y 2552 = ok 1028 := by
  obtain ⟨x, F, y, e, h1, h2, h⟩ := C78_mpe_answers (X := samplePairs) ty (by decide) (by decide) f b none 64 64 16 32
  refine ⟨x, F, y, e, h1, h2, ?_⟩
  rw [h 2552 (by decide)]
  exact congrArg ok (by decide +kernel)

/-- With 15 blocks (or 15 more than a multiple of 16) the count of all ones needs a rank that is not
saved: it is answered before, if memory can be read, and undefined after. -/
theorem C78_mpe_end_lost (ty : MpeType) (hlen : X.length < 2 ^ 60) (h15 : X.length % 2048 = 1920) (f b : Nat → BitVec 8)
    (r : Nat → Nat) (aB aR bB bR : Nat) (hB : aB % 16 = 0) (hR : aR % 16 = 0) :
    ∃ x F y, buildMpe ty ⟨some f, some b, some r⟩ aB aR (textOf X) = ok x ∧ x.save [] = ok F ∧
      Mpe.load bB bR F = ok (y, []) ∧ rankMpe ty false x (8 * X.length) = ok ((Text.bits X).count true) ∧
      ∃ e, rankMpe ty false y (8 * X.length) = ub e := by
  have h0 : X ≠ [] := fun h => by rw [h] at h15; exact absurd h15 (by decide)
  obtain ⟨x, e, hx⟩ := buildMpe_ok (ty := ty) (t := textOf X) (g := ⟨some f, some b, some r⟩) (f := f) (aB := aB)
    (aR := aR) rfl (nblkM_pos h0) hlen
  have hn : 1024 * nblkM (textOf X) = 8 * X.length ∧ nblkM (textOf X) % 16 = 15 := by
    rw [nblkM_blocks]
    unfold Text.blocks128
    omega
  have h1 := (mpe_load hx hlen bB bR).1 []
  rw [List.append_nil] at h1
  have h2 := rankMpe_end hx hlen (nblkM_pos h0) (strict := false) (Or.inl rfl) hB (by omega) rfl rfl rfl
  rw [hn.1, ← ones_T, all_ones (Nat.le_refl _)] at h2
  have h3 := rankMpe_lost (hx.back bB bR) hlen hn.2 rfl false
  rw [hn.1] at h3
  exact ⟨x, x.file, x.back bB bR, e, mpe_save hx [], h1, h2, h3⟩

example : (List.replicate 1920 0x55#8).length % 2048 = 1920 := by rw [List.length_replicate]

end MRS.Props
