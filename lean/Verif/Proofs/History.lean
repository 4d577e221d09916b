import Verif.Proofs.BitmapSpec
import Verif.Proofs.Align

/-!
# Lives of a bitmap object

Every valid sequence of calls succeeds and leaves a bitmap that represents the logical content.
-/

set_option autoImplicit false

namespace MRS
open Outcome Spec

theorem rebuilt_length {m : Nat} (hm : 0 < m) (old : List Bool) (ws : List Word) :
    (rebuilt m old ws).length = m * ceilDiv (64 * ws.length) m := by
  have h := pad_length (B := bitsOf ws) hm
  rw [bitsOf_length] at h
  rw [← h]
  unfold rebuilt pad
  simp [bitsOf_length]

theorem rebuilt_get {m : Nat} {old : List Bool} {ws : List Word} {i : Nat}
    (hi : i < (rebuilt m old ws).length) :
    (rebuilt m old ws)[i]? = some (if i < 64 * ws.length then (ws.getD (i / 64) 0#64).getLsbD (i % 64)
      else old.getD i false) := by
  unfold rebuilt at hi ⊢
  by_cases h : i < 64 * ws.length
  · rw [List.getElem?_append_left (by rw [bitsOf_length]; exact h), bitsOf_get ws i h, if_pos h]
  · rw [List.getElem?_append_right (by rw [bitsOf_length]; omega), if_neg h]
    have hl := bitsOf_length ws
    rw [List.length_append, List.length_map, List.length_range'] at hi
    rw [List.getElem?_map, List.getElem?_range' (by omega)]
    simp only [Option.map_some, Option.some.injEq, Nat.one_mul]
    congr 1; omega

/-- On an empty object the padding is zero. -/
theorem rebuilt_nil (m : Nat) (ws : List Word) : rebuilt m [] ws = pad (bitsOf ws) m := by
  unfold rebuilt pad
  congr 1
  simp [List.eq_replicate_iff]

theorem Width.bits_pos (w : Width) : 0 < w.bits := by cases w <;> decide

theorem Config.Valid.blocks {c : Config} {addr nw : Nat} (h : c.Valid addr nw) :
    ceilDiv nw c.blk.width.words ≤ 2 ^ 24 := by
  have h1 := h.fits
  have hW := Width.words_pos c.blk.width
  rw [Width.bits_eq] at h1
  unfold ceilDiv
  have : nw ≤ 2 ^ 24 * c.blk.width.words := by
    have : nw * 64 ≤ 2 ^ 24 * c.blk.width.words * 64 := by
      rw [Nat.mul_assoc, Nat.mul_comm c.blk.width.words 64]; exact h1
    exact Nat.le_of_mul_le_mul_right this (by decide)
  apply Nat.lt_succ_iff.1
  rw [Nat.div_lt_iff_lt_mul hW, Nat.succ_mul]
  omega

theorem Config.Valid.aligned {c : Config} {addr nw : Nat} (h : c.Valid addr nw) :
    c.fam.Aligned c.b addr (ceilDiv nw c.blk.width.words) c.H := by
  obtain ⟨h1, h2⟩ := tree_height_range (fam := c.fam) h.blocks
  rw [← h.height] at h1 h2
  exact aligned_of_addr h1 h2 h.align

/-- The words after `build` spell the rebuilt bitmap. -/
theorem rebuilt_rep {m : Nat} {ws : List Word} {bits : Vec Word} {B : List Bool}
    (hl : B.length = 64 * bits.len) (hr : Rep bits.f B) :
    Rep (builtWords (Vec.ofList ws) bits ws.length) (rebuilt m B ws) := by
  refine ⟨fun i hi => ?_⟩
  rw [rebuilt_get hi]
  congr 1
  unfold fbit builtWords
  by_cases h1 : i < 64 * ws.length
  · rw [if_pos h1, if_pos (by omega)]; rfl
  · rw [if_neg h1, if_neg (by omega)]
    by_cases h2 : i / 64 < bits.len
    · rw [if_pos h2, List.getD_eq_getElem?_getD, hr.bit i (by omega)]; rfl
    · rw [if_neg h2, List.getD_eq_getElem?_getD, List.getElem?_eq_none (by omega)]; simp

/-- Ones of a block, read off the bits. -/
theorem blkCnt_ones {W n : Nat} {f : Nat → Word} {R : List Bool} (hr : Rep f R)
    (hl : R.length = 64 * (W * n)) {q : Nat} (hq : q < n) :
    blkCnt W n f q + ones R (64 * W * q) = ones R (64 * W * (q + 1)) := by
  have h1 : W * (q + 1) ≤ W * n := Nat.mul_le_mul_left _ hq
  rw [Nat.mul_succ] at h1
  have e1 : 64 * W * q = 64 * (W * q) := Nat.mul_assoc ..
  have e2 : 64 * W * (q + 1) = 64 * (W * q) + 64 * W := by rw [Nat.mul_succ, e1]
  rw [e1, e2, hr.ones (by omega), hr.ones (by omega), fcnt_shift]
  unfold blkCnt
  rw [if_pos hq]
  omega

/-- `build` on an object holding `B`, when the typed accesses are aligned. -/
theorem rebuild_words {c : Config} {addr : Nat} {ws : List Word} {bm : Bitmap} {B : List Bool}
    (hsup : c.blk.Supported) (h0 : 0 < ws.length) (hblk : ceilDiv ws.length c.blk.width.words ≤ 2 ^ 24)
    (hH : c.H = c.fam.height (ceilDiv ws.length c.blk.width.words))
    (ha : c.fam.Aligned c.b addr (ceilDiv ws.length c.blk.width.words) c.H)
    (hd : c.DebugOK (rebuilt c.blk.width.bits B ws))
    (hl : B.length = 64 * bm.bits.len) (hr : Rep bm.bits.f B) :
    ∃ bm', bmBuild c addr (Vec.ofList ws) ws.length bm = ok bm' ∧
      BmInv c (ceilDiv ws.length c.blk.width.words) bm' ∧ bm'.index.mem.addr = addr ∧
      ∀ j, bm'.bits.f j = builtWords (Vec.ofList ws) bm.bits ws.length j := by
  have hrep := rebuilt_rep (m := c.blk.width.bits) (ws := ws) hl hr
  have hlen : (rebuilt c.blk.width.bits B ws).length =
      64 * (c.blk.width.words * ceilDiv ws.length c.blk.width.words) := by
    rw [rebuilt_length (Width.bits_pos _), Width.bits_eq,
      ceilDiv_scale _ _ (Width.words_pos _), Nat.mul_assoc]
  obtain ⟨bm', e, hinv, hadr, hf⟩ := bmBuild_ok (bm := bm) (addr := addr)
    (input := Vec.ofList ws) (nw := ws.length) hsup h0 (Nat.le_refl _) rfl hblk hH
    (hd.imp_right (fun hd q => by
      by_cases hq : q < ceilDiv ws.length c.blk.width.words
      · have := blkCnt_ones hrep hlen hq
        have := hd q
        rw [Width.bits_eq] at *
        omega
      · unfold blkCnt; rw [if_neg hq]; exact Nat.zero_le _)) ha
  exact ⟨bm', e, hinv, hadr, hf⟩

theorem rebuild_rep_of_aligned {c : Config} {addr : Nat} {ws : List Word} {bm : Bitmap}
    {B : List Bool} (hsup : c.blk.Supported) (h0 : 0 < ws.length)
    (hblk : ceilDiv ws.length c.blk.width.words ≤ 2 ^ 24)
    (hH : c.H = c.fam.height (ceilDiv ws.length c.blk.width.words))
    (ha : c.fam.Aligned c.b addr (ceilDiv ws.length c.blk.width.words) c.H)
    (hd : c.DebugOK (rebuilt c.blk.width.bits B ws))
    (hl : B.length = 64 * bm.bits.len) (hr : Rep bm.bits.f B) :
    ∃ bm', bmBuild c addr (Vec.ofList ws) ws.length bm = ok bm' ∧
      BmRep c (ceilDiv ws.length c.blk.width.words) bm' (rebuilt c.blk.width.bits B ws) ∧
      bm'.index.mem.addr = addr := by
  obtain ⟨bm', e, hinv, hadr, hf⟩ := rebuild_words hsup h0 hblk hH ha hd hl hr
  refine ⟨bm', e, ⟨hinv, ?_, ?_⟩, hadr⟩
  · rw [rebuilt_length (Width.bits_pos _), hinv.len, Width.bits_eq,
      ceilDiv_scale _ _ (Width.words_pos _), Nat.mul_assoc]
  · rw [show bm'.bits.f = _ from funext hf]
    exact rebuilt_rep hl hr

theorem rebuild_rep {c : Config} {addr : Nat} {ws : List Word} {bm : Bitmap} {B : List Bool}
    (h : c.Valid addr ws.length) (hd : c.DebugOK (rebuilt c.blk.width.bits B ws))
    (hl : B.length = 64 * bm.bits.len) (hr : Rep bm.bits.f B) :
    ∃ bm', bmBuild c addr (Vec.ofList ws) ws.length bm = ok bm' ∧
      BmRep c (ceilDiv ws.length c.blk.width.words) bm' (rebuilt c.blk.width.bits B ws) ∧
      bm'.index.mem.addr = addr :=
  rebuild_rep_of_aligned h.sup h.some h.blocks h.height h.aligned hd hl hr

/-- Only `avx512` trees over 512-bit blocks are concerned by the assertion on the values. -/
theorem Config.DebugOK.of_fam {c : Config} (h : ¬ (c.fam = .avx512 ∧ c.blk.width = .w512))
    (R : List Bool) : c.DebugOK R := by
  refine Or.inr fun q => ?_
  have h1 : c.blk.width.bits ≤ c.fam.family.maxVal := by
    obtain ⟨b, fam, H, blk⟩ := c
    cases fam with
    | avx2 => exact Width.bits_le _
    | avx512 =>
      show blk.width.bits ≤ 256
      cases hw : blk.width
      · decide
      · decide
      · exact absurd ⟨rfl, hw⟩ h
  have h2 : ones R (c.blk.width.bits * (q + 1)) ≤ ones R (c.blk.width.bits * q) + c.blk.width.bits := by
    rw [Nat.mul_succ]
    unfold ones
    rw [List.take_add, List.count_append]
    have h1 := List.count_le_length (a := true) (l := (R.drop (c.blk.width.bits * q)).take c.blk.width.bits)
    have h2 := List.length_take_le c.blk.width.bits (R.drop (c.blk.width.bits * q))
    omega
  omega

/-- The object holds the bits `B`, and queries find the index where it may be read. -/
structure Held (c : Config) (bm : Bitmap) (B : List Bool) : Prop where
  len : B.length = 64 * bm.bits.len
  rep : Rep bm.bits.f B
  inv : B = [] ∨ ∃ n, BmInv c n bm

/-- The state of an object during a valid life: `flip` may be called, too. -/
structure Alive (c : Config) (bm : Bitmap) (B : List Bool) : Prop extends Held c bm B where
  up : B = [] ∨ c.fam.UpAligned c.b bm.index.mem.addr c.H

theorem Held.start (c : Config) : Held c Bitmap.empty [] :=
  ⟨rfl, ⟨fun i hi => absurd hi (Nat.not_lt_zero i)⟩, Or.inl rfl⟩

theorem Alive.start (c : Config) : Alive c Bitmap.empty [] := ⟨Held.start c, Or.inl rfl⟩

theorem Held.bmRep {c : Config} {bm : Bitmap} {B : List Bool} (h : Held c bm B) (hB : B ≠ []) :
    ∃ n, BmRep c n bm B := by
  rcases h.inv with hb | ⟨n, hn⟩
  · exact absurd hb hB
  · exact ⟨n, hn, h.len, h.rep⟩

theorem Held.bmRep_lt {c : Config} {bm : Bitmap} {B : List Bool} (h : Held c bm B) {i : Nat}
    (hi : i < B.length) : ∃ n, BmRep c n bm B :=
  h.bmRep (by rintro rfl; exact absurd hi (Nat.not_lt_zero i))

theorem Alive.step {c : Config} {bm : Bitmap} {B : List Bool} (h : Alive c bm B) {o : Op}
    (ho : c.OpOK B o) : ∃ bm', c.step bm o = ok bm' ∧ Alive c bm' (o.apply c.blk.width.bits B) := by
  cases o with
  | build addr ws =>
    obtain ⟨bm', e, hr, ha⟩ := rebuild_rep ho.1 ho.2 h.len h.rep
    exact ⟨bm', e, ⟨hr.len, hr.rep, Or.inr ⟨_, hr.inv⟩⟩,
      Or.inr (by rw [ha]; exact upAligned_of_addr ho.1.align)⟩
  | flip i =>
    obtain ⟨n, hn⟩ := h.bmRep_lt ho
    have hu := h.up.resolve_left (by rintro rfl; exact absurd ho (Nat.not_lt_zero i))
    obtain ⟨bm', e, hr, ha⟩ := hn.flip hu ho
    exact ⟨bm', e, ⟨hr.len, hr.rep, Or.inr ⟨_, hr.inv⟩⟩, Or.inr (by rw [ha]; exact hu)⟩

theorem Alive.exec {c : Config} (ops : List Op) : ∀ {bm : Bitmap} {B : List Bool}, Alive c bm B →
    c.OpsOK B ops →
    ∃ bm', c.exec bm ops = ok bm' ∧ Alive c bm' (ops.foldl (Op.apply c.blk.width.bits) B) := by
  induction ops with
  | nil => intro bm B h _; exact ⟨bm, rfl, h⟩
  | cons o os ih =>
    intro bm B h ho
    obtain ⟨bm1, e1, h1⟩ := h.step ho.1
    obtain ⟨bm2, e2, h2⟩ := ih h1 ho.2
    refine ⟨bm2, ?_, h2⟩
    unfold Config.exec
    rw [e1, ok_bind]; exact e2

theorem Config.run_ok {c : Config} {ops : List Op} (h : c.Life ops) :
    ∃ bm, c.run ops = ok bm ∧ Alive c bm (c.logical ops) := Alive.exec ops (Alive.start c) h

/-- Same, from the result. -/
theorem Config.run_alive {c : Config} {ops : List Op} (h : c.Life ops) {bm : Bitmap}
    (e : c.run ops = ok bm) : Alive c bm (c.logical ops) := by
  obtain ⟨bm', e', ha⟩ := Config.run_ok h
  rw [e] at e'
  have : bm = bm' := by injection e'
  rw [this]; exact ha

section
variable {c : Config} {bm : Bitmap} {B : List Bool}

theorem Held.size (h : Held c bm B) : bmSize bm = B.length := by
  rw [h.len]
  rcases h.inv with hb | ⟨n, hn⟩
  · have hz : bm.bits.len = 0 := by
      have := h.len; rw [hb] at this; simp at this; omega
    unfold bmSize; rw [hz]; rfl
  · exact hn.size

theorem Held.access (h : Held c bm B) {i : Nat} (hi : i < B.length) :
    bmAccess c bm i = ok B[i] := by
  obtain ⟨n, hn⟩ := h.bmRep_lt hi
  exact hn.access hi

theorem Alive.flip (h : Alive c bm B) {i : Nat} (hi : i < B.length) :
    ∃ bm', bmFlip c bm i = ok bm' ∧ Alive c bm' (Spec.flip B i) := h.step (o := .flip i) hi

theorem Held.rank (h : Held c bm B) {g : Scratch} (hg : g.sums 0 = 0) {i : Nat}
    (hi : i < B.length) : bmRank c g bm i = ok (Spec.rank B i) := by
  obtain ⟨n, hn⟩ := h.bmRep_lt hi
  exact hn.rank hg hi

theorem Held.select (h : Held c bm B) {g : Scratch} (hg : g.sums 0 = 0)
    (hs : c.SelectSafe (ones B B.length)) {k : Nat} (hk : k < ones B B.length) :
    ∃ p, bmSelect c g bm k = ok p ∧ IsSelect B k p := by
  obtain ⟨n, hn⟩ := h.bmRep (by rintro rfl; simp [Spec.ones] at hk)
  exact hn.select hg hs hk

theorem Held.select_sharp (h : Held c bm B) {g : Scratch} (hg : g.sums 0 = 0) {k : Nat}
    (hs : ¬ c.SelectBad B k) (hk : k < ones B B.length) :
    ∃ p, bmSelect c g bm k = ok p ∧ IsSelect B k p := by
  obtain ⟨n, hn⟩ := h.bmRep (by rintro rfl; simp [Spec.ones] at hk)
  exact hn.select_sharp hg hs hk

end

/-- A build followed by flips is a valid life. -/
theorem life_buildFlips {c : Config} {addr : Nat} {ws : List Word} {is : List Nat}
    (h : c.Valid addr ws.length) (hd : c.DebugOK (pad (bitsOf ws) c.blk.width.bits))
    (hi : ∀ i ∈ is, i < (pad (bitsOf ws) c.blk.width.bits).length) :
    c.Life (buildFlips addr ws is) := by
  refine ⟨⟨h, by rw [rebuilt_nil]; exact hd⟩, ?_⟩
  show c.OpsOK (rebuilt c.blk.width.bits [] ws) (is.map .flip)
  rw [rebuilt_nil]
  generalize pad (bitsOf ws) c.blk.width.bits = B at hi
  induction is generalizing B with
  | nil => trivial
  | cons i is ih =>
    refine ⟨hi i (by simp), ?_⟩
    exact ih (Spec.flip B i) (fun j hj => by rw [flip_length]; exact hi j (by simp [hj]))

/-- The positions flipped in a valid life are below the size. -/
theorem life_buildFlips_lt {c : Config} {addr : Nat} {ws : List Word} {is : List Nat}
    (h : c.Life (buildFlips addr ws is)) :
    ∀ i ∈ is, i < (pad (bitsOf ws) c.blk.width.bits).length := by
  have h2 : c.OpsOK (rebuilt c.blk.width.bits [] ws) (is.map .flip) := h.2
  rw [rebuilt_nil] at h2
  clear h
  generalize pad (bitsOf ws) c.blk.width.bits = B at h2
  induction is generalizing B with
  | nil => intro i hi; cases hi
  | cons j js ih =>
    intro i hi
    rcases List.mem_cons.1 hi with rfl | hi
    · exact h2.1
    · have := ih (Spec.flip B j) h2.2 i hi
      rw [flip_length] at this
      exact this

theorem logical_buildFlips (c : Config) (addr : Nat) (ws : List Word) (is : List Nat) :
    c.logical (buildFlips addr ws is) = content c.blk.width.bits ws is := by
  show (is.map Op.flip).foldl (Op.apply c.blk.width.bits) (rebuilt c.blk.width.bits [] ws) = _
  rw [rebuilt_nil, List.foldl_map]
  rfl

end MRS
