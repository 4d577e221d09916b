import Verif.Proofs.Mranisz.FileRank
import Verif.Proofs.Mranisz.FileSel
import Verif.Props.Mranisz
import Verif.Props.MraniszSelect

/-!
# `save` and `load` of the compressed classes, C73-C74

A file is the list of its bytes (`none`: a byte of memory that was never written).  `f` is what is in
the file before `save`, or after the object.  `aB`, `aR`, `aS` are the addresses that `new[]` returns in
`build`, `bB`, `bR`, `bS` those in `load`.
-/

set_option autoImplicit false
set_option maxRecDepth 8192

namespace MRS.Props
open MRS.Mran Outcome Spec

variable {X : List (BitVec 8)} {L TH : Nat}

/-! ## C73: rank -/

/-- What is read back answers every query that the saved object answers, with the same number, and
nothing else; what follows in the file stays; a file that was cut is rejected. -/
theorem C73_basic_file (hlen : X.length < 2 ^ 60) (aB aR : Nat) :
    ∃ x, buildStd aB aR (textOf X) = ok x ∧ ∃ F : File, (∀ f, x.save f = ok (f ++ F)) ∧ ∀ bB bR,
      (∃ y, (∀ f, Basic.load bB bR (F ++ f) = ok (y, f)) ∧ y.textLen = X.length ∧ y.bytes = x.bytes ∧
        ∀ i r, rankStd y i = ok r ↔ rankStd x i = ok r) ∧
      ∀ k, k < F.length → Basic.load bB bR (F.take k) = abort := by
  obtain ⟨x, e, hx⟩ := buildStd_ok (textOf X) aB aR
  refine ⟨x, e, x.file, std_save hx, fun bB bR => ⟨⟨x.back bB bR, fun f => (std_load hx hlen bB bR f).1, hx.tl, rfl,
    fun i r => (std_load hx hlen bB bR []).2.1 i r⟩, (std_load hx hlen bB bR []).2.2⟩⟩

/-- The third block of the sample needs its words, and is read from another address. -/
example : ∃ x F y, buildStd 64 64 (textOf sampleText) = ok x ∧ x.save [some 7#8] = ok (some 7#8 :: F) ∧
    Basic.load 16 32 (F ++ [some 9#8]) = ok (y, [some 9#8]) ∧ rankStd y 1040 = ok 515 := by
  obtain ⟨x, e, F, h1, h2⟩ := C73_basic_file (X := sampleText) (by decide) 64 64
  obtain ⟨y, h3, -, -, h4⟩ := (h2 16 32).1
  refine ⟨x, F, y, e, h1 _, h3 _, (h4 _ _).2 ?_⟩
  obtain ⟨x', e', h⟩ := C66_basic_rank_partial (X := sampleText) (by decide) 64 64
  rw [e] at e'
  injection e' with e'
  subst e'
  rw [h 1040 (by decide)]
  exact congrArg ok (by decide +kernel)

/-- So the answers of `C66_basic_rank_partial` hold after reading back. -/
theorem C73_basic_answers (hlen : X.length < 2 ^ 60) (aB aR bB bR : Nat) :
    ∃ x F y, buildStd aB aR (textOf X) = ok x ∧ x.save [] = ok F ∧ Basic.load bB bR F = ok (y, []) ∧
      ∀ i, i < 512 * Text.blocks X → rankStd y i = ok (ones (Text.bits X) i) := by
  obtain ⟨x, e, F, h1, h2⟩ := C73_basic_file hlen aB aR
  obtain ⟨y, h3, -, -, h4⟩ := (h2 bB bR).1
  obtain ⟨x', e', h⟩ := C66_basic_rank_partial hlen aB aR
  rw [e] at e'
  injection e' with e'
  subst e'
  refine ⟨x, F, y, e, h1 [], ?_, fun i hi => (h4 i _).2 (h i hi)⟩
  have := h3 []
  rw [List.append_nil] at this
  exact this

/-- Whatever `build` read beyond its flags. -/
theorem C73_bch_file (hlen : X.length < 2 ^ 60) (aB aR : Nat) (g : Nat → Bool) :
    ∃ x, buildBch (some g) aB aR (textOf X) = ok x ∧ ∃ F : File, (∀ f, x.save f = ok (f ++ F)) ∧ ∀ bB bR,
      (∃ y, (∀ f, Basic.load bB bR (F ++ f) = ok (y, f)) ∧ y.textLen = X.length ∧ y.bytes = x.bytes ∧
        ∀ i r, rankBch y i = ok r ↔ rankBch x i = ok r) ∧
      ∀ k, k < F.length → Basic.load bB bR (F.take k) = abort := by
  obtain ⟨x, e, hx⟩ := buildBch_ok (textOf X) aB aR (beyond := some g) (g := g) (Or.inr rfl)
  refine ⟨x, e, x.file, bch_save hx, fun bB bR => ⟨⟨x.back bB bR, fun f => (bch_load hx hlen bB bR f).1, hx.tl, rfl,
    fun i r => (bch_load hx hlen bB bR []).2.1 i r⟩, (bch_load hx hlen bB bR []).2.2⟩⟩

example (g : Nat → Bool) : ∃ x F y, buildBch (some g) 64 64 (textOf sampleText) = ok x ∧ x.save [] = ok F ∧
    Basic.load 16 32 (F ++ [none]) = ok (y, [none]) ∧ rankBch y 1040 = ok 515 := by
  obtain ⟨x, e, F, h1, h2⟩ := C73_bch_file (X := sampleText) (by decide) 64 64 g
  obtain ⟨y, h3, -, -, h4⟩ := (h2 16 32).1
  refine ⟨x, F, y, e, h1 _, h3 _, (h4 _ _).2 ?_⟩
  obtain ⟨x', e', h⟩ := C67_bch_rank_partial (X := sampleText) (by decide) 64 64 g
  rw [e] at e'
  injection e' with e'
  subst e'
  rw [h 1040 (by decide)]
  exact congrArg ok (by decide +kernel)

/-- Texts that `build` accepts. -/
theorem C73_cf_file (hlen : X.length < 2 ^ 60) (aB : Nat)
    (h : X = [] ∨ ∃ q, q < Text.blocks X ∧ ¬ Text.Homog X q) :
    ∃ x, buildCF aB (textOf X) = ok x ∧ ∃ F : File, (∀ f, x.save f = ok (f ++ F)) ∧ ∀ bB,
      (∃ y, (∀ f, CF.load bB (F ++ f) = ok (y, f)) ∧ y.textLen = X.length ∧ y.bytes = x.bytes ∧
        ∀ i r, rankCF y i = ok r ↔ rankCF x i = ok r) ∧
      ∀ k, k < F.length → CF.load bB (F.take k) = abort := by
  have h' : 0 < ne (textOf X) (nblk (textOf X)) ∨ nblk (textOf X) = 0 := by
    rcases h with h | ⟨q, h1, h2⟩
    · subst h; exact Or.inr rfl
    · left
      have := stored_lt (t := textOf X) (q := q) (by rw [nblk_blocks]; exact h1)
        (fun hh => h2 ((homog_iff X q).2 hh))
      omega
  obtain ⟨x, e, hx⟩ := buildCF_ok (t := textOf X) aB hlen h'
  refine ⟨x, e, x.file, cf_save hx, fun bB => ⟨⟨x.back bB, fun f => (cf_load hx hlen bB f).1, hx.tl, rfl,
    fun i r => (cf_load hx hlen bB []).2.1 i r⟩, (cf_load hx hlen bB []).2.2⟩⟩

example : ∃ x F y, buildCF 64 (textOf sampleText) = ok x ∧ x.save [] = ok F ∧
    CF.load 16 (F ++ [none]) = ok (y, [none]) ∧ rankCF y 1040 = ok 515 := by
  obtain ⟨x, e, F, h1, h2⟩ := C73_cf_file (X := sampleText) (by decide) 64 (Or.inr ⟨2, by decide, by decide +kernel⟩)
  obtain ⟨y, h3, -, -, h4⟩ := (h2 16).1
  refine ⟨x, F, y, e, h1 _, h3 _, (h4 _ _).2 ?_⟩
  obtain ⟨x', e', h⟩ := C68_cf_rank_partial (X := sampleText) (by decide) 64 (Or.inr ⟨2, by decide, by decide +kernel⟩)
  rw [e] at e'
  injection e' with e'
  subst e'
  rw [h 1040 (by decide)]
  exact congrArg ok (by decide +kernel)

/-! ## C74: select -/

/-- The bytes of the only group do not fit the length that the first pass of `build` counted, and the
rest is not saved: fewer than `L` ones, the last at `p`; either `p = TH` and the positions take more than
the bits would, or the bits are stored and `p` is a multiple of 8. -/
def Unsaved (X : List (BitVec 8)) (L TH : Nat) : Prop :=
  ∃ p, Text.LastAt (Text.bits X) L p ∧
    ((p = TH ∧ (TH + 7) / 8 < 8 * (Text.bits X).count true) ∨ (p < TH ∧ p + 1 ≠ L ∧ p % 8 = 0))

theorem unsaved_iff (hL : 1 ≤ L) (h1 : 1 ≤ tot (textOf X)) : Unsaved X L TH ↔ Lost (textOf X) L TH := by
  unfold Unsaved Lost
  constructor
  · rintro ⟨p, h2, h3⟩
    rw [← tot_count] at h3
    exact ⟨p, (lastAt_iff hL h1).1 h2, h3⟩
  · rintro ⟨p, h2, h3⟩
    rw [tot_count] at h3
    exact ⟨p, (lastAt_iff hL h1).2 h2, h3⟩

/-- The saved object and the one that is read back give the same result for every one, unless part of the
group was not saved; then the last one cannot be found any more.  A file that was cut is rejected. -/
theorem C74_std_file_partial (hL : 1 ≤ L) (hLT : L < TH) (hlen : X.length < 2 ^ 57) (aS aB : Nat)
    (h1 : 1 ≤ (Text.bits X).count true) (ho : ¬ Overflow X L TH aB) :
    ∃ x, buildSel L TH aS aB (textOf X) = ok x ∧ ∃ F : File, (∀ f, x.save f = ok (f ++ F)) ∧ ∀ bS bB,
      (∃ y, (∀ f, Select.load bS bB (F ++ f) = ok (y, f)) ∧ y.textLen = X.length ∧ y.bytes = x.bytes ∧
        (¬ Unsaved X L TH → ∀ s i, 1 ≤ i → i ≤ (Text.bits X).count true →
          selectStd s L TH y i = selectStd s L TH x i) ∧
        (Unsaved X L TH → ∀ s, ∃ f, selectStd s L TH y ((Text.bits X).count true) = ub f)) ∧
      ∀ k, k < F.length → Select.load bS bB (F.take k) = abort := by
  unfold Overflow at ho
  rw [← tot_count] at *
  rw [unsaved_iff hL h1]
  rw [lastAt_iff hL h1] at ho
  obtain ⟨x, e, hx⟩ := (buildSel_cases (t := textOf X) (TH := TH) hL (lt57 hlen) h1 aS aB).1 ho
  have hbl : x.bitsLen < W64 := by
    have := bsz_lt (t := textOf X) (TH := TH) hL (by omega) hlen
    rw [show x.bitsLen = bsz (textOf X) L TH from hx.bl]
    simp only [W64]
    omega
  have htl : x.textLen < W64 := by
    rw [hx.text]
    show X.length < W64
    simp only [W64]
    omega
  refine ⟨x, e, x.file, Select.save_ok hx.slen hx.blen, fun bS bB => ?_⟩
  have hld := sel_load htl (selStd_fits hL (by omega) hlen h1 hx) hbl bS bB
  have hbk := selStd_back hL (Nat.le_of_lt hLT) hlen h1 hx bS bB
  exact ⟨⟨x.back bS bB, hld.1, hx.text, rfl, hbk.1, hbk.2⟩, hld.2⟩

/-- Nothing is lost from a text with at least `L` ones. -/
theorem C74_std_many (hL : 1 ≤ L) (hLT : L < TH) (hlen : X.length < 2 ^ 57) (aS aB bS bB : Nat)
    (hm : L ≤ (Text.bits X).count true) :
    ∃ x F y, buildSel L TH aS aB (textOf X) = ok x ∧ x.save [] = ok F ∧ Select.load bS bB F = ok (y, []) ∧
      ∀ s i, 1 ≤ i → i ≤ (Text.bits X).count true → selectStd s L TH y i = selectStd s L TH x i := by
  obtain ⟨x, e, F, h2, h3⟩ := C74_std_file_partial hL hLT hlen aS aB (by omega) (fun h => by have := h.1.1; omega)
  obtain ⟨y, h4, -, -, h5, -⟩ := (h3 bS bB).1
  refine ⟨x, F, y, e, h2 [], ?_, h5 ?_⟩
  · have := h4 []
    rw [List.append_nil] at this
    exact this
  · rintro ⟨p, h, -⟩
    have := h.1
    omega

example : ∃ x F y, buildSel 4 12 64 64 (textOf sampleOnes) = ok x ∧ x.save [] = ok F ∧
    Select.load 16 32 F = ok (y, []) ∧ ∃ p, selectStd false 4 12 y 6 = ok p ∧ IsSelect (Text.bits sampleOnes) 5 p := by
  have hc : (Text.bits sampleOnes).count true = 10 := by decide +kernel
  obtain ⟨x, F, y, e, h2, h3, h4⟩ := C74_std_many (X := sampleOnes) (L := 4) (TH := 12) (by decide) (by decide) (by decide)
    64 64 16 32 (by rw [hc]; decide)
  obtain ⟨x', e', h⟩ := C70_std_select_partial (X := sampleOnes) (L := 4) (TH := 12) (by decide) (by decide) 64 64
    (by rw [hc]; decide) (by unfold Overflow Text.LastAt; rw [hc]; decide)
  rw [e] at e'
  injection e' with e'
  subst e'
  refine ⟨x, F, y, e, h2, h3, ?_⟩
  rw [h4 false 6 (by decide) (by rw [hc]; decide)]
  refine h 6 (by decide) (by rw [hc]; decide) ?_
  rw [hc]
  rintro ⟨-, h⟩
  exact absurd h (by decide)

/-- A single one, in the first bit. -/
theorem unsaved_one : (Text.bits [0x80#8]).count true = 1 ∧ ¬ Overflow [0x80#8] 128 4096 64 ∧
    Unsaved [0x80#8] 128 4096 := by
  have hc : (Text.bits [0x80#8]).count true = 1 := by decide +kernel
  refine ⟨hc, ?_, 0, ⟨by rw [hc]; decide, by rw [hc]; decide +kernel⟩, Or.inr ⟨by decide, by decide, by decide⟩⟩
  unfold Overflow Text.LastAt
  rw [hc]
  decide +kernel

/-- Its position is found before saving, and not after. -/
theorem C74_std_lost : ∃ x F y, buildSel 128 4096 64 64 (textOf [0x80#8]) = ok x ∧ x.save [] = ok F ∧
    Select.load 64 64 F = ok (y, []) ∧ selectStd false 128 4096 x 1 = ok 0 ∧
    ∃ f, selectStd false 128 4096 y 1 = ub f := by
  obtain ⟨hc, ho, hu⟩ := unsaved_one
  obtain ⟨x, e, F, h2, h3⟩ := C74_std_file_partial (L := 128) (TH := 4096) (by decide) (by decide) (by decide) 64 64
    (by rw [hc]; decide) ho
  obtain ⟨y, h4, -, -, -, h5⟩ := (h3 64 64).1
  obtain ⟨x', e', h⟩ := C70_std_select_partial (X := [0x80#8]) (L := 128) (TH := 4096) (by decide) (by decide) 64 64
    (by rw [hc]; decide) ho
  rw [e] at e'
  injection e' with e'
  subst e'
  have h4 := h4 []
  rw [List.append_nil] at h4
  refine ⟨x, F, y, e, h2 [], h4, ?_, ?_⟩
  · obtain ⟨p, hp, hs⟩ := h 1 (by decide) (by rw [hc]; decide) (by
      rintro ⟨⟨-, a, h2, h3⟩, -⟩
      have ha := (upTo_iff (X := [0x80#8]) (by rw [tot_count, hc]; decide)).1 h2
      rw [hc, if_pos (by decide)] at ha
      subst ha
      rw [hc] at h3
      exact absurd h3 (by decide +kernel))
    rw [isSelect_sel [0x80#8] (i := 1) (by decide) (by rw [tot_count, hc]; decide)] at hs
    rw [hp, hs]
    exact congrArg ok (by decide +kernel)
  · have := h5 hu false
    rw [hc] at this
    exact this

/-- So the full claim is false. -/
theorem C74_std_file_false : ¬ ∀ (X : List (BitVec 8)) (aS aB bS bB : Nat), X.length < 2 ^ 57 →
    1 ≤ (Text.bits X).count true → ∀ x F y, buildSel 128 4096 aS aB (textOf X) = ok x → x.save [] = ok F →
    Select.load bS bB F = ok (y, []) → ∀ i p, 1 ≤ i → i ≤ (Text.bits X).count true →
      selectStd false 128 4096 x i = ok p → selectStd false 128 4096 y i = ok p := by
  intro h
  obtain ⟨x, F, y, h1, h2, h3, h4, f, h5⟩ := C74_std_lost
  have := h [0x80#8] 64 64 64 64 (by decide) (by decide +kernel) x F y h1 h2 h3 1 0 (by decide) (by decide +kernel) h4
  rw [h5] at this
  cases this

theorem C74_bch_file_partial (h : BchOk X L TH) (aS aB : Nat)
    (h1 : 1 ≤ (Text.bits X).count true) (ho : ¬ Overflow X L TH aB) :
    ∃ x, buildSelBch L TH aS aB (textOf X) = ok x ∧ ∃ F : File, (∀ f, x.save f = ok (f ++ F)) ∧ ∀ bS bB,
      (∃ y, (∀ f, Select.load bS bB (F ++ f) = ok (y, f)) ∧ y.textLen = X.length ∧ y.bytes = x.bytes ∧
        (¬ Unsaved X L TH → ∀ s i, 1 ≤ i → i ≤ (Text.bits X).count true →
          selectBch s L TH y i = selectBch s L TH x i) ∧
        (Unsaved X L TH → ∀ s, ∃ f, selectBch s L TH y ((Text.bits X).count true) = ub f)) ∧
      ∀ k, k < F.length → Select.load bS bB (F.take k) = abort := by
  have hn := h.nbk
  have hL := h.pos
  have hLT := h.lt
  have hlen := h.len
  unfold Overflow at ho
  rw [← tot_count] at *
  rw [unsaved_iff hL h1]
  rw [lastAt_iff hL h1] at ho
  obtain ⟨x, e, hx⟩ := (buildSelBch_cases (t := textOf X) (TH := TH) hL (lt57 hlen) h1 hn aS aB).1 ho
  have hbl : x.bitsLen < W64 := by
    have := bsz_lt (t := textOf X) (TH := TH) hL (by omega) hlen
    rw [show x.bitsLen = bsz (textOf X) L TH from hx.bl]
    simp only [W64]
    omega
  have htl : x.textLen < W64 := by
    rw [hx.text]
    show X.length < W64
    simp only [W64]
    omega
  refine ⟨x, e, x.file, Select.save_ok hx.slen hx.blen, fun bS bB => ?_⟩
  have hld := sel_load htl (selBch_fits hL (by omega) hlen h1 hx) hbl bS bB
  have hbk := selBch_back hL (Nat.le_of_lt hLT) h.small h.thr hn hlen h1 hx bS bB
  exact ⟨⟨x.back bS bB, hld.1, hx.text, rfl, hbk.1, hbk.2⟩, hld.2⟩

theorem C74_bch_many (h : BchOk X L TH) (aS aB bS bB : Nat) (hm : L ≤ (Text.bits X).count true) :
    ∃ x F y, buildSelBch L TH aS aB (textOf X) = ok x ∧ x.save [] = ok F ∧ Select.load bS bB F = ok (y, []) ∧
      ∀ s i, 1 ≤ i → i ≤ (Text.bits X).count true → selectBch s L TH y i = selectBch s L TH x i := by
  have hL := h.pos
  obtain ⟨x, e, F, h2, h3⟩ := C74_bch_file_partial h aS aB (by omega) (fun h => by have := h.1.1; omega)
  obtain ⟨y, h4, -, -, h5, -⟩ := (h3 bS bB).1
  refine ⟨x, F, y, e, h2 [], ?_, h5 ?_⟩
  · have := h4 []
    rw [List.append_nil] at this
    exact this
  · rintro ⟨p, h, -⟩
    have := h.1
    omega

example : ∃ x F y, buildSelBch 4 12 64 64 (textOf sampleOnes) = ok x ∧ x.save [] = ok F ∧
    Select.load 16 32 F = ok (y, []) ∧ ∀ s, selectBch s 4 12 y 6 = selectBch s 4 12 x 6 := by
  have hc : (Text.bits sampleOnes).count true = 10 := by decide +kernel
  obtain ⟨x, F, y, e, h2, h3, h4⟩ := C74_bch_many sampleBch 64 64 16 32 (by rw [hc]; decide)
  exact ⟨x, F, y, e, h2, h3, fun s => h4 s 6 (by decide) (by rw [hc]; decide)⟩

/-- The same loss. -/
theorem C74_bch_lost : ∃ x F y, buildSelBch 128 4096 64 64 (textOf [0x80#8]) = ok x ∧ x.save [] = ok F ∧
    Select.load 64 64 F = ok (y, []) ∧ selectBch false 128 4096 x 1 = ok 0 ∧
    ∃ f, selectBch false 128 4096 y 1 = ub f := by
  obtain ⟨hc, ho, hu⟩ := unsaved_one
  have hb : BchOk [0x80#8] 128 4096 :=
    ⟨by decide, by decide, by decide, by decide, by decide, by rw [hc]; decide⟩
  obtain ⟨x, e, F, h2, h3⟩ := C74_bch_file_partial hb 64 64 (by rw [hc]; decide) ho
  obtain ⟨y, h4, -, -, -, h5⟩ := (h3 64 64).1
  obtain ⟨x', e', h⟩ := C71_bch_select_partial hb 64 64 (by rw [hc]; decide) ho
  rw [e] at e'
  injection e' with e'
  subst e'
  have h4 := h4 []
  rw [List.append_nil] at h4
  refine ⟨x, F, y, e, h2 [], h4, ?_, ?_⟩
  · obtain ⟨p, hp, hs⟩ := h 1 (by decide) (by rw [hc]; decide) (by
      rintro ⟨⟨-, a, h2, h3⟩, -⟩
      have ha := (upTo_iff (X := [0x80#8]) (by rw [tot_count, hc]; decide)).1 h2
      rw [hc, if_pos (by decide)] at ha
      subst ha
      rw [hc] at h3
      exact absurd h3 (by decide +kernel))
    rw [isSelect_sel [0x80#8] (i := 1) (by decide) (by rw [tot_count, hc]; decide)] at hs
    rw [hp, hs]
    exact congrArg ok (by decide +kernel)
  · have := h5 hu false
    rw [hc] at this
    exact this

end MRS.Props
