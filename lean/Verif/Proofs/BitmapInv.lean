import Verif.Proofs.TreeFam
import Verif.Proofs.BlockSelect

/-!
# The invariant of `mutable_bitmap`

The index holds the number of ones of every block of `m_bits`; `build` establishes this and
`flip` keeps it, and the queries follow from it.
-/

set_option autoImplicit false

namespace MRS
open Outcome Spec

/-- 0 or 1. -/
def ind (f : Nat → Bool) (j : Nat) : Nat := if f j then 1 else 0

theorem fcnt_ind (ws : Nat → Word) (t : Nat) : fcnt ws t = psum (ind (fbit ws)) t := rfl

/-- Inverting one bit changes the counts beyond it by one. -/
theorem psum_flip {f g : Nat → Bool} {i : Nat} (h : ∀ t, g t = if t = i then !f i else f t) (k : Nat) :
    psum (ind g) k + (if i < k ∧ f i = true then 1 else 0) =
      psum (ind f) k + (if i < k ∧ f i = false then 1 else 0) := by
  induction k with
  | zero => simp [psum]
  | succ k ih =>
    rw [psum_succ, psum_succ]
    have hk := h k
    unfold ind at hk ⊢
    unfold ind at ih
    by_cases e : k = i
    · subst e
      rw [if_pos rfl] at hk
      rw [hk]
      cases hf : f k <;> simp [hf] at ih ⊢ <;> omega
    · rw [if_neg e] at hk
      rw [hk]
      have : i < k + 1 ↔ i < k := by omega
      simp only [this]
      omega

theorem fbit_shift (ws : Nat → Word) (a t : Nat) :
    fbit (fun j => ws (a + j)) t = fbit ws (64 * a + t) := by
  unfold fbit
  show (ws (a + t / 64)).getLsbD (t % 64) = _
  rw [show (64 * a + t) / 64 = a + t / 64 by omega, show (64 * a + t) % 64 = t % 64 by omega]

theorem fcnt_shift (ws : Nat → Word) (a t : Nat) :
    fcnt ws (64 * a + t) = fcnt ws (64 * a) + fcnt (fun j => ws (a + j)) t := by
  induction t with
  | zero => rfl
  | succ t ih =>
    rw [← Nat.add_assoc, fcnt_ind, psum_succ, ← fcnt_ind, ih, fcnt_ind (fun j => ws (a + j)) (t + 1),
      psum_succ, ← fcnt_ind]
    unfold ind
    rw [fbit_shift]
    omega

theorem fcnt_congr {f g : Nat → Word} {t : Nat} (h : ∀ j, j < t → fbit f j = fbit g j) :
    fcnt f t = fcnt g t := by
  rw [fcnt_ind, fcnt_ind]
  exact psum_congr (fun j hj => by unfold ind; rw [h j hj])

/-- Number of ones of block `q`; 0 beyond the `n` blocks. -/
def blkCnt (W n : Nat) (ws : Nat → Word) (q : Nat) : Nat :=
  if q < n then fcnt (fun j => ws (W * q + j)) (64 * W) else 0

theorem blkCnt_le (W n : Nat) (ws : Nat → Word) (q : Nat) : blkCnt W n ws q ≤ 64 * W := by
  unfold blkCnt
  split
  · exact fcnt_le _ _
  · omega

theorem blkCnt_zero {W n : Nat} (ws : Nat → Word) {q : Nat} (h : n ≤ q) : blkCnt W n ws q = 0 := by
  unfold blkCnt; rw [if_neg (by omega)]

theorem psum_blkCnt {W n : Nat} (ws : Nat → Word) {q : Nat} (h : q ≤ n) :
    psum (blkCnt W n ws) q = fcnt ws (64 * (W * q)) := by
  induction q with
  | zero => rfl
  | succ q ih =>
    rw [psum_succ, ih (by omega), Nat.mul_succ, Nat.mul_add, fcnt_shift]
    congr 1
    unfold blkCnt
    rw [if_pos (by omega)]

/-- A block count seen from the whole sequence. -/
theorem blkCnt_eq {W n : Nat} (ws : Nat → Word) {q : Nat} (h : q < n) :
    fcnt ws (64 * (W * q) + 64 * W) = fcnt ws (64 * (W * q)) + blkCnt W n ws q := by
  rw [fcnt_shift]; unfold blkCnt; rw [if_pos h]

theorem blkCnt_flip {W n : Nat} {f g : Nat → Word} {i : Nat} (hW : 0 < W)
    (h : ∀ t, fbit g t = if t = i then !fbit f i else fbit f t) (hi : i < 64 * (W * n)) :
    blkCnt W n g = updA (blkCnt W n f) (i / (64 * W)) (fbit f i) ∧
      (fbit f i = true → 1 ≤ blkCnt W n f (i / (64 * W))) ∧
      (fbit f i = false → blkCnt W n f (i / (64 * W)) + 1 ≤ 64 * W) := by
  have hb : 0 < 64 * W := by omega
  have hqn : i / (64 * W) < n := by
    rw [Nat.div_lt_iff_lt_mul hb, Nat.mul_comm]; rw [← Nat.mul_assoc] at hi; exact hi
  have hdm := Nat.div_add_mod i (64 * W)
  have hml := Nat.mod_lt i hb
  have key : ∀ q, q < n → q = i / (64 * W) ∨ 64 * (W * q) + 64 * W ≤ i ∨ i < 64 * (W * q) := by
    intro q _
    have e : 64 * (W * q) = 64 * W * q := by rw [Nat.mul_assoc]
    rcases Nat.lt_trichotomy q (i / (64 * W)) with h1 | h1 | h1
    · right; left
      have : 64 * W * (q + 1) ≤ 64 * W * (i / (64 * W)) := Nat.mul_le_mul_left _ h1
      rw [Nat.mul_succ] at this; omega
    · left; exact h1
    · right; right
      have : 64 * W * (i / (64 * W) + 1) ≤ 64 * W * q := Nat.mul_le_mul_left _ h1
      rw [Nat.mul_succ] at this; omega
  have h1 := fun q => psum_flip h (64 * (W * q))
  have h2 := fun q => psum_flip h (64 * (W * q) + 64 * W)
  have e : 64 * (W * (i / (64 * W))) = 64 * W * (i / (64 * W)) := by rw [Nat.mul_assoc]
  have hle := blkCnt_le W n g (i / (64 * W))
  have a1 := h1 (i / (64 * W))
  have a2 := h2 (i / (64 * W))
  have b1 := blkCnt_eq (W := W) f hqn
  have b2 := blkCnt_eq (W := W) g hqn
  rw [fcnt_ind, fcnt_ind] at b1 b2
  have t1 : ¬ (i < 64 * (W * (i / (64 * W)))) := by omega
  have t2 : i < 64 * (W * (i / (64 * W))) + 64 * W := by omega
  simp only [t1, t2, true_and, false_and, if_false] at a1 a2
  have hA : blkCnt W n g (i / (64 * W)) + (if fbit f i = true then 1 else 0) =
      blkCnt W n f (i / (64 * W)) + (if fbit f i = false then 1 else 0) := by omega
  refine ⟨?_, ?_, ?_⟩
  · funext q
    unfold updA
    by_cases hq : q < n
    · rcases key q hq with rfl | h3 | h3
      · rw [if_pos rfl]
        cases hf : fbit f i <;> simp [hf] at hA ⊢ <;> omega
      · have hne : q ≠ i / (64 * W) := by rintro rfl; omega
        rw [if_neg hne]
        have c1 := blkCnt_eq (W := W) f hq
        have c2 := blkCnt_eq (W := W) g hq
        rw [fcnt_ind, fcnt_ind] at c1 c2
        have d1 := h1 q
        have d2 := h2 q
        rw [if_neg (by omega), if_neg (by omega)] at d1 d2
        omega
      · have hne : q ≠ i / (64 * W) := by rintro rfl; omega
        rw [if_neg hne]
        have c1 := blkCnt_eq (W := W) f hq
        have c2 := blkCnt_eq (W := W) g hq
        rw [fcnt_ind, fcnt_ind] at c1 c2
        have d1 := h1 q
        have d2 := h2 q
        cases hf : fbit f i
        · simp only [hf, and_true, show i < 64 * (W * q) from h3,
            show i < 64 * (W * q) + 64 * W by omega] at d1 d2
          simp at d1 d2
          omega
        · simp only [hf, and_true, show i < 64 * (W * q) from h3,
            show i < 64 * (W * q) + 64 * W by omega] at d1 d2
          simp at d1 d2
          omega
    · rw [if_neg (show q ≠ i / (64 * W) by omega)]
      unfold blkCnt
      rw [if_neg hq, if_neg hq]
  · intro hf
    rw [hf] at hA
    simp at hA
    omega
  · intro hf
    rw [hf] at hA
    simp at hA
    omega

/-- The words after inverting bit `i`. -/
theorem fbit_xor {f g : Nat → Word} {i : Nat}
    (hg : ∀ j, g j = if j = i / 64 then f (i / 64) ^^^ (1#64 <<< (i % 64)) else f j) (t : Nat) :
    fbit g t = if t = i then !fbit f i else fbit f t := by
  unfold fbit
  rw [hg]
  by_cases h1 : t / 64 = i / 64
  · rw [if_pos h1, BitVec.getLsbD_xor]
    have hs : (1#64 <<< (i % 64)).getLsbD (t % 64) = decide (t % 64 = i % 64) := by
      rw [BitVec.getLsbD_shiftLeft, BitVec.getLsbD_one]
      have : t % 64 < 64 := Nat.mod_lt _ (by decide)
      by_cases e : t % 64 = i % 64
      · simp [e, Nat.mod_lt]
      · by_cases l : t % 64 < i % 64
        · simp [l, e]
        · have : t % 64 - i % 64 ≠ 0 := by omega
          simp [e, this]
    rw [hs]
    by_cases h2 : t = i
    · subst h2; simp
    · have : ¬ t % 64 = i % 64 := by omega
      rw [if_neg h2, h1]; simp [this]
  · rw [if_neg h1, if_neg (by rintro rfl; exact h1 rfl)]

/-! ## The invariant -/

/-- `bm` is a consistent bitmap of `n` blocks. -/
structure BmInv (c : Config) (n : Nat) (bm : Bitmap) : Prop where
  sup : c.blk.Supported
  hlo : 1 ≤ c.H
  hhi : c.H ≤ c.fam.maxH
  len : bm.bits.len = c.blk.width.words * n
  tree : c.fam.Inv c.H c.blk.width.bits (blkCnt c.blk.width.words n bm.bits.f) n bm.index
  align : c.fam.Aligned c.b bm.index.mem.addr n c.H

theorem Width.words_pos (w : Width) : 0 < w.words := by cases w <;> decide
theorem Width.words_le (w : Width) : w.words ≤ 8 := by cases w <;> decide
theorem Width.bits_le (w : Width) : w.bits ≤ 512 := by cases w <;> decide

section
variable {c : Config} {n : Nat} {bm : Bitmap}

theorem BmInv.npos (h : BmInv c n bm) : 0 < n := TreeInv.npos h.tree
theorem BmInv.nle (h : BmInv c n bm) : n ≤ 2 ^ 24 := TreeInv.nle h.tree

theorem BmInv.len_le (h : BmInv c n bm) : bm.bits.len ≤ 2 ^ 27 := by
  rw [h.len]
  calc c.blk.width.words * n ≤ 8 * 2 ^ 24 := Nat.mul_le_mul (Width.words_le _) h.nle
    _ = 2 ^ 27 := by decide

theorem bmSize_eq (h : bm.bits.len ≤ 2 ^ 27) : bmSize bm = 64 * bm.bits.len := by
  have hw : W64 = 2 ^ 64 := rfl
  unfold bmSize
  rw [mul64_eq (a := bm.bits.len) (by omega), mul64_eq (by omega)]; omega

theorem BmInv.size (h : BmInv c n bm) : bmSize bm = 64 * bm.bits.len := bmSize_eq h.len_le

theorem bmAccess_ok' (c : Config) (hl : bm.bits.len ≤ 2 ^ 27) {i : Nat} (hi : i < 64 * bm.bits.len) :
    bmAccess c bm i = ok (fbit bm.bits.f i) := by
  unfold bmAccess
  rw [bmSize_eq hl, massert_ok (by simpa using hi), ok_bind, Vec.get_ok (by omega), ok_bind]
  rfl

theorem bmAccess_ok (h : BmInv c n bm) {i : Nat} (hi : i < 64 * bm.bits.len) :
    bmAccess c bm i = ok (fbit bm.bits.f i) := bmAccess_ok' c h.len_le hi

theorem bmFlip_ok (h : BmInv c n bm) (hu : c.fam.UpAligned c.b bm.index.mem.addr c.H) {i : Nat}
    (hi : i < 64 * bm.bits.len) :
    ∃ bm', bmFlip c bm i = ok bm' ∧ BmInv c n bm' ∧ bm'.bits.len = bm.bits.len ∧
      bm'.index.mem.addr = bm.index.mem.addr ∧
      ∀ t, fbit bm'.bits.f t = if t = i then !fbit bm.bits.f i else fbit bm.bits.f t := by
  have hW := Width.words_pos c.blk.width
  have hb := Width.bits_eq c.blk.width
  unfold bmFlip
  rw [h.size, massert_ok (by simpa using hi), ok_bind, bmAccess_ok h hi, ok_bind,
    Vec.get_ok (by omega), ok_bind, shl64_ok (Nat.mod_lt _ (by decide)), ok_bind,
    Vec.set_ok _ (by omega), ok_bind]
  have hf := fbit_xor (f := bm.bits.f) (g := fun j => if j = i / 64 then
    bm.bits.f (i / 64) ^^^ (1#64 <<< (i % 64)) else bm.bits.f j) (i := i) (fun j => rfl)
  have hi' : i < 64 * (c.blk.width.words * n) := by rw [← h.len]; exact hi
  obtain ⟨hA, hp, hq⟩ := blkCnt_flip hW hf hi'
  have hqn : i / c.blk.width.bits < n := by
    rw [hb, Nat.div_lt_iff_lt_mul (by omega), Nat.mul_comm]
    rw [← Nat.mul_assoc] at hi'; exact hi'
  rw [← hb] at hA hp hq
  obtain ⟨t', e, ha, ht⟩ := tree_update_ok h.hlo h.hhi h.tree (Width.bits_le _) h.align hu hqn hp hq
  rw [e, ok_bind]
  refine ⟨_, rfl, ⟨h.sup, h.hlo, h.hhi, h.len, ?_, ?_⟩, rfl, ha, hf⟩
  · show c.fam.Inv _ _ (blkCnt _ _ (fun j => if j = i / 64 then
      bm.bits.f (i / 64) ^^^ (1#64 <<< (i % 64)) else bm.bits.f j)) n t'
    rw [hA]; exact ht
  · show c.fam.Aligned c.b t'.mem.addr n c.H
    rw [ha]; exact h.align

theorem Vec.ptr_ok {v : Vec Word} {W q n : Nat} (hW : 0 < W) (hl : v.len = W * n) (hq : q < n) :
    ∃ p, v.ptr (W * q) = ok p ∧ PtrOK p W (fun j => v.f (W * q + j)) := by
  have h1 : W * (q + 1) ≤ W * n := Nat.mul_le_mul_left _ hq
  rw [Nat.mul_succ] at h1
  unfold Vec.ptr
  rw [Vec.get_ok (by omega), ok_bind]
  refine ⟨_, rfl, ?_⟩
  intro j hj
  exact Vec.get_ok (by show W * q + j < v.len; omega)

theorem bmRank_ok (h : BmInv c n bm) {g : Scratch} (hg : g.sums 0 = 0) {i : Nat}
    (hi : i < 64 * bm.bits.len) :
    bmRank c g bm i = ok (fcnt bm.bits.f (i + 1)) := by
  have hW := Width.words_pos c.blk.width
  have hb := Width.bits_eq c.blk.width
  have hW8 := Width.words_le c.blk.width
  have hn := h.nle
  have hw : W64 = 2 ^ 64 := rfl
  unfold bmRank
  rw [h.size, massert_ok (by simpa using hi), ok_bind]
  have hi' : i < c.blk.width.bits * n := by
    rw [hb, Nat.mul_assoc, ← h.len]; exact hi
  have hqn : i / c.blk.width.bits < n := by
    rw [Nat.div_lt_iff_lt_mul (by omega), Nat.mul_comm]; exact hi'
  have hmod := Nat.mod_lt i (show 0 < c.blk.width.bits by omega)
  have hdm := Nat.div_add_mod i c.blk.width.bits
  generalize i / c.blk.width.bits = q at hqn hdm
  generalize i % c.blk.width.bits = o at hmod hdm
  have hs : (if q ≠ 0 then c.fam.sum c.b c.H bm.index (q - 1) else ok 0)
      = ok (fcnt bm.bits.f (64 * (c.blk.width.words * q))) := by
    by_cases hq : q ≠ 0
    · rw [if_pos hq, tree_sum_ok h.hlo h.hhi h.tree (Width.bits_le _) h.align (by omega),
        psum_blkCnt _ (by omega), Nat.sub_add_cancel (by omega)]
    · have : q = 0 := by omega
      subst this; rw [if_neg hq]; rfl
  show (do
    let s ← (if q ≠ 0 then c.fam.sum c.b c.H bm.index (q - 1) else ok 0)
    let p ← bm.bits.ptr (mul64 c.blk.width.words q)
    let r ← c.blk.rank c.b g p o
    ok (add64 s r)) = _
  rw [hs, ok_bind]
  have hmul : c.blk.width.words * q ≤ 8 * 2 ^ 24 := Nat.mul_le_mul hW8 (by omega)
  rw [mul64_eq (by omega)]
  obtain ⟨p, e, hp⟩ := Vec.ptr_ok hW h.len hqn
  rw [e, ok_bind, BlockType.rank_ok c.b h.sup hg hp hmod, ok_bind]
  have hsum := fcnt_shift bm.bits.f (c.blk.width.words * q) (o + 1)
  have hle := fcnt_le bm.bits.f (64 * (c.blk.width.words * q) + (o + 1))
  have hbl := Width.bits_le c.blk.width
  rw [add64_eq (by omega), ← hsum]
  congr 2
  rw [hb, Nat.mul_assoc] at hdm
  omega

theorem bmSelect_sharp (h : BmInv c n bm) {g : Scratch} (hg : g.sums 0 = 0) {k : Nat}
    (hsafe : ¬ c.fam.SearchBad c.b c.H (psum (blkCnt c.blk.width.words n bm.bits.f)) k)
    (hk : k < fcnt bm.bits.f (64 * bm.bits.len)) :
    ∃ p, bmSelect c g bm k = ok p ∧ p < 64 * bm.bits.len ∧ fbit bm.bits.f p = true ∧
      fcnt bm.bits.f p = k := by
  have hW := Width.words_pos c.blk.width
  have hb := Width.bits_eq c.blk.width
  have hW8 := Width.words_le c.blk.width
  have hn := h.nle
  have hw : W64 = 2 ^ 64 := rfl
  have hlen := h.len_le
  have htot := fcnt_le bm.bits.f (64 * bm.bits.len)
  have hps : psum (blkCnt c.blk.width.words n bm.bits.f) n = fcnt bm.bits.f (64 * bm.bits.len) := by
    rw [psum_blkCnt _ (Nat.le_refl _), h.len]
  unfold bmSelect
  rw [h.size, massert_ok (by simpa using (show k < 64 * bm.bits.len by omega)), ok_bind]
  obtain ⟨⟨q, s⟩, e, hr⟩ := tree_search_sharp (b := c.b) h.hlo h.hhi h.tree (Width.bits_le _) h.align
    hsafe (by rw [hps]; exact hk)
  have hqn : q < n := hr.lt
  have hs : s = psum _ q := hr.sum
  have hlo : psum _ q ≤ k := hr.lo
  have hhi : k < psum _ (q + 1) := hr.hi
  rw [psum_blkCnt _ (by omega)] at hs hlo
  rw [psum_blkCnt _ (by omega), Nat.mul_succ, Nat.mul_add, fcnt_shift] at hhi
  rw [e, ok_bind]
  show ∃ p, (do
    let pp ← bm.bits.ptr (mul64 c.blk.width.words q)
    let r ← c.blk.select c.b g pp (sub64 k s)
    ok (add64 (mul64 c.blk.width.bits q) r)) = ok p ∧ _
  have hmul : c.blk.width.words * q ≤ 8 * 2 ^ 24 := Nat.mul_le_mul hW8 (by omega)
  have hbq : c.blk.width.bits * q = 64 * (c.blk.width.words * q) := by rw [hb, Nat.mul_assoc]
  rw [mul64_eq (by omega), sub64_eq (by omega) (by omega)]
  obtain ⟨p, ep, hp⟩ := Vec.ptr_ok hW h.len hqn
  rw [ep, ok_bind]
  obtain ⟨r, er, hsel⟩ := BlockType.select_ok c.b h.sup hg hp (k := k - s)
    (by rw [hb, hs]; omega)
  rw [er, ok_bind]
  have hrl := hsel.lt
  rw [mul64_eq (by omega), add64_eq (by omega), hbq]
  have h1 : c.blk.width.words * (q + 1) ≤ c.blk.width.words * n := Nat.mul_le_mul_left _ hqn
  rw [Nat.mul_succ, ← h.len] at h1
  refine ⟨_, rfl, by omega, ?_, ?_⟩
  · rw [← fbit_shift]; exact hsel.bit
  · rw [fcnt_shift, hsel.cnt]; omega

theorem bmSelect_ok (h : BmInv c n bm) {g : Scratch} (hg : g.sums 0 = 0)
    (hsafe : c.fam.SearchSafe c.b c.H c.blk.width.bits (fcnt bm.bits.f (64 * bm.bits.len))) {k : Nat}
    (hk : k < fcnt bm.bits.f (64 * bm.bits.len)) :
    ∃ p, bmSelect c g bm k = ok p ∧ p < 64 * bm.bits.len ∧ fbit bm.bits.f p = true ∧
      fcnt bm.bits.f p = k := by
  have hps : psum (blkCnt c.blk.width.words n bm.bits.f) n = fcnt bm.bits.f (64 * bm.bits.len) := by
    rw [psum_blkCnt _ (Nat.le_refl _), h.len]
  exact bmSelect_sharp h hg (not_searchBad_of_safe h.tree (by rw [hps]; exact hsafe)
    (by rw [hps]; exact hk)) hk

/-! ## Construction -/

theorem blockVal_ok {v : Vec Word} {i : Nat}
    (hi : i + c.blk.width.words ≤ v.len) :
    blockVal c v i = ok (fcnt (fun j => v.f (i + j)) (64 * c.blk.width.words)) := by
  have hW8 := Width.words_le c.blk.width
  unfold blockVal
  obtain ⟨s, e, hs⟩ := forN_inv (body := fun j val => do
      let w ← v.get (i + j)
      ok ((val + popcnt w) % 2 ^ 16)) (fun j val => val = psum (wones (fun j => v.f (i + j))) j)
    c.blk.width.words 0 rfl (by
      intro j s hj hs
      rw [Vec.get_ok (by omega), ok_bind]
      refine ⟨_, rfl, ?_⟩
      have hb := psum_wones_lt (fun j => v.f (i + j)) (Nat.succ_le_of_lt hj) hW8
      rw [hs, popcnt_eq, psum_succ] at *
      show (_ + wones (fun j => v.f (i + j)) j) % 2 ^ 16 = _
      rw [Nat.mod_eq_of_lt (by omega)])
  rw [e, ok_bind]
  have hle := fcnt_le (fun j => v.f (i + j)) (64 * c.blk.width.words)
  rw [← fcnt_words] at hs
  rw [hs, massert_ok (by rw [Width.bits_eq]; simpa using hle), ok_bind]

theorem blockVals_ok {v : Vec Word} {n : Nat} (hl : v.len = c.blk.width.words * n) :
    ∃ vals, blockVals c v n = ok vals ∧ vals.len = n ∧
      ∀ q, q < n → vals.f q = blkCnt c.blk.width.words n v.f q := by
  unfold blockVals
  obtain ⟨s, e, h1, h2⟩ := forN_inv (body := fun q (acc : Vec Nat) => do
      let val ← blockVal c v (c.blk.width.words * q)
      ok (⟨acc.len + 1, fun j => if j = acc.len then val else acc.f j⟩ : Vec Nat))
    (fun q acc => acc.len = q ∧ ∀ j, j < q → acc.f j = blkCnt c.blk.width.words n v.f j)
    n ⟨0, fun _ => 0⟩ ⟨rfl, fun j hj => absurd hj (Nat.not_lt_zero j)⟩ (by
      rintro q acc hq ⟨hlen, hacc⟩
      have h1 : c.blk.width.words * (q + 1) ≤ c.blk.width.words * n := Nat.mul_le_mul_left _ hq
      rw [Nat.mul_succ] at h1
      rw [blockVal_ok (by omega), ok_bind]
      refine ⟨_, rfl, by show acc.len + 1 = _; omega, ?_⟩
      intro j hj
      show (if j = acc.len then _ else _) = _
      by_cases e : j = acc.len
      · rw [if_pos e, e, hlen]
        unfold blkCnt; rw [if_pos hq]
      · rw [if_neg e]; exact hacc j (by omega))
  exact ⟨s, e, h1, h2⟩

/-- The words of `m_bits` after `build`. -/
def builtWords (input old : Vec Word) (nw j : Nat) : Word :=
  if j < nw then input.f j else if j < old.len then old.f j else 0#64

theorem ceilDiv_mul_ge {m f : Nat} (hf : 0 < f) : m ≤ f * ceilDiv m f := by
  unfold ceilDiv
  have h1 := Nat.div_add_mod (m + f - 1) f
  have h2 := Nat.mod_lt (m + f - 1) hf
  omega

/-- `build` up to the construction of the index. -/
theorem bmBuild_eq {addr nw : Nat} {input : Vec Word} (h0 : 0 < nw)
    (hin : nw ≤ input.len) (hn : n = ceilDiv nw c.blk.width.words) (hle : n ≤ 2 ^ 24) :
    0 < n ∧ ∃ (vals : Vec Nat) (v : Vec Word), vals.len = n ∧ v.len = c.blk.width.words * n ∧
      (∀ j, v.f j = builtWords input bm.bits nw j) ∧
      (∀ q, q < n → vals.f q = blkCnt c.blk.width.words n v.f q) ∧
      bmBuild c addr input nw bm =
        (treeBuild c.b c.fam.family c.H addr vals n bm.index >>= fun t => ok ⟨t, v⟩) := by
  have hW := Width.words_pos c.blk.width
  have hb := Width.bits_eq c.blk.width
  have hW8 := Width.words_le c.blk.width
  have hw : W64 = 2 ^ 64 := rfl
  have hge := ceilDiv_mul_ge (m := nw) hW
  rw [← hn] at hge
  have hmul : c.blk.width.words * n ≤ 8 * 2 ^ 24 := Nat.mul_le_mul hW8 hle
  have hnpos : 0 < n := by
    rcases Nat.eq_zero_or_pos n with h | h
    · rw [h] at hge; omega
    · exact h
  refine ⟨hnpos, ?_⟩
  unfold bmBuild
  have hsize : mul64 nw 64 ≤ 2 ^ 24 * c.blk.width.bits := by
    rw [mul64_eq (by omega), hb]
    have : c.blk.width.words * n ≤ c.blk.width.words * 2 ^ 24 := Nat.mul_le_mul_left _ hle
    omega
  rw [massert_ok (by simpa using hsize), ok_bind, ← hn]
  show ∃ (vals : Vec Nat) (v : Vec Word), _ ∧ _ ∧ _ ∧ _ ∧ (do
    let bits ← copyWords (resizeWords bm.bits (mul64 c.blk.width.words n)) input nw
    let vals ← blockVals c bits (bits.len / c.blk.width.words)
    let index ← treeBuild c.b c.fam.family c.H addr vals vals.len bm.index
    ok (⟨index, bits⟩ : Bitmap)) = _
  rw [mul64_eq (by omega)]
  unfold copyWords
  rw [if_pos ⟨hin, show nw ≤ c.blk.width.words * n from hge⟩, ok_bind]
  generalize hv : (⟨(resizeWords bm.bits (c.blk.width.words * n)).len, fun j =>
    if j < nw then input.f j else (resizeWords bm.bits (c.blk.width.words * n)).f j⟩ : Vec Word) = v
  have hvl : v.len = c.blk.width.words * n := by rw [← hv]; rfl
  have hvf : ∀ j, v.f j = builtWords input bm.bits nw j := by rw [← hv]; intro j; rfl
  rw [show v.len / c.blk.width.words = n by rw [hvl]; exact Nat.mul_div_cancel_left _ hW]
  obtain ⟨vals, e, hlen, hvals⟩ := blockVals_ok (c := c) hvl
  refine ⟨vals, v, hlen, hvl, hvf, hvals, ?_⟩
  rw [e, ok_bind, hlen]

theorem bmBuild_ok {addr nw : Nat} {input : Vec Word} (hsup : c.blk.Supported) (h0 : 0 < nw)
    (hin : nw ≤ input.len) (hn : n = ceilDiv nw c.blk.width.words) (hle : n ≤ 2 ^ 24)
    (hH : c.H = c.fam.height n)
    (hdbg : c.b.ndebug = true ∨ ∀ q,
      blkCnt c.blk.width.words n (builtWords input bm.bits nw) q ≤ c.fam.family.maxVal)
    (ha : c.fam.Aligned c.b addr n c.H) :
    ∃ bm', bmBuild c addr input nw bm = ok bm' ∧ BmInv c n bm' ∧ bm'.index.mem.addr = addr ∧
      ∀ j, bm'.bits.f j = builtWords input bm.bits nw j := by
  obtain ⟨hnpos, vals, v, hlen, hvl, hvf, hvals, e⟩ :=
    bmBuild_eq (c := c) (bm := bm) (addr := addr) h0 hin hn hle
  have hb := Width.bits_eq c.blk.width
  obtain ⟨hH1, hH2⟩ := tree_height_range (fam := c.fam) hle
  rw [← hH] at hH1 hH2
  rw [e]
  have hcl : ∀ j, blkCnt c.blk.width.words n v.f j ≤ c.blk.width.bits := by
    intro j; rw [hb]; exact blkCnt_le _ _ _ _
  obtain ⟨t', et, hta, hti⟩ := tree_build_ok (b := c.b) (fam := c.fam) (t := bm.index) hnpos hle hH
    (Width.bits_le c.blk.width)
    (InputOK.mk (A := blkCnt c.blk.width.words n v.f) hlen hvals hcl
      (fun j hj => blkCnt_zero _ hj) (by rw [show v.f = _ from funext hvf]; exact hdbg)) ha
  rw [et, ok_bind]
  refine ⟨_, rfl, ⟨hsup, hH1, hH2, hvl, hti, ?_⟩, hta, hvf⟩
  show c.fam.Aligned c.b t'.mem.addr n c.H
  rw [hta]; exact ha

end

end MRS
