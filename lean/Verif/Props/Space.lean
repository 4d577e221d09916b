import Verif.Proofs.History

/-!
# C39: space accounting
-/

set_option autoImplicit false

namespace MRS.Props
open MRS Outcome Spec

/-- `n / m` rounded up. -/
def upDiv (n m : Nat) : Nat := if n % m = 0 then n / m else n / m + 1

/-- Bytes of the index over `n` blocks: a header of one 32-bit integer per level, then the nodes.  A
leaf covers 128 (512) blocks in 288 (1088) bytes; the levels above cover 64 times 128 in 288, 64 times
that in 288 and 32 times that in 160 (256 times 512 in 1088 and 128 times that in 576). -/
def indexBytes : TreeFam → Nat → Nat → Nat
  | .avx2, H, n => 4 * H + upDiv n 128 * 288 + (if 2 ≤ H then upDiv n (128 * 64) * 288 else 0) +
      (if 3 ≤ H then upDiv n (128 * 64 * 64) * 288 else 0) +
      (if 4 ≤ H then upDiv n (128 * 64 * 64 * 32) * 160 else 0)
  | .avx512, H, n => 4 * H + upDiv n 512 * 1088 + (if 2 ≤ H then upDiv n (512 * 256) * 1088 else 0) +
      (if 3 ≤ H then upDiv n (512 * 256 * 128) * 576 else 0)

theorem ceilDiv_up (n : Nat) {m : Nat} (hm : 0 < m) : ceilDiv n m = upDiv n m := by
  unfold ceilDiv upDiv
  have h1 := Nat.div_add_mod n m
  have h2 := Nat.mod_lt n hm
  generalize n / m = q at *
  generalize n % m = r at *
  subst h1
  by_cases hr : r = 0
  · rw [if_pos hr, hr, show m * q + 0 + m - 1 = m * q + (m - 1) by omega, Nat.mul_add_div hm,
      Nat.div_eq_of_lt (by omega), Nat.add_zero]
  · rw [if_neg hr, show m * q + r + m - 1 = m * (q + 1) + (r - 1) by rw [Nat.mul_succ]; omega,
      Nat.mul_add_div hm, Nat.div_eq_of_lt (by omega), Nat.add_zero]

theorem msize_eq {fam : TreeFam} {H M n : Nat} {A : Nat → Nat} {t : Tree} (h1 : 1 ≤ H)
    (h2 : H ≤ fam.maxH) (h : fam.Inv H M A n t) : t.mem.size = indexBytes fam H n := by
  have hm := TreeInv.msize h
  rcases TreeFam.maxH_cases h1 h2 with ⟨hf, hH⟩ | ⟨hf, hH⟩
  · subst hf
    rcases hH with hH | hH | hH | hH <;> subst hH
    · rw [show t.mem.size = 4 * 1 + ceilDiv n 128 * 288 from hm, ceilDiv_up _ (by omega)]
      simp [indexBytes]
    · rw [show t.mem.size = 4 * 2 + (ceilDiv n 8192 * 288 + ceilDiv n 128 * 288) from hm,
        ceilDiv_up _ (by omega), ceilDiv_up _ (by omega)]
      simp [indexBytes]; omega
    · rw [show t.mem.size = 4 * 3 + (ceilDiv n 524288 * 288 + (ceilDiv n 8192 * 288 +
        ceilDiv n 128 * 288)) from hm, ceilDiv_up _ (by omega), ceilDiv_up _ (by omega),
        ceilDiv_up _ (by omega)]
      simp [indexBytes]; omega
    · rw [show t.mem.size = 4 * 4 + (ceilDiv n 16777216 * 160 + (ceilDiv n 524288 * 288 +
        (ceilDiv n 8192 * 288 + ceilDiv n 128 * 288))) from hm, ceilDiv_up _ (by omega),
        ceilDiv_up _ (by omega), ceilDiv_up _ (by omega), ceilDiv_up _ (by omega)]
      simp [indexBytes]; omega
  · subst hf
    rcases hH with hH | hH | hH <;> subst hH
    · rw [show t.mem.size = 4 * 1 + ceilDiv n 512 * 1088 from hm, ceilDiv_up _ (by omega)]
      simp [indexBytes]
    · rw [show t.mem.size = 4 * 2 + (ceilDiv n 131072 * 1088 + ceilDiv n 512 * 1088) from hm,
        ceilDiv_up _ (by omega), ceilDiv_up _ (by omega)]
      simp [indexBytes]; omega
    · rw [show t.mem.size = 4 * 3 + (ceilDiv n 16777216 * 576 + (ceilDiv n 131072 * 1088 +
        ceilDiv n 512 * 1088)) from hm, ceilDiv_up _ (by omega), ceilDiv_up _ (by omega),
        ceilDiv_up _ (by omega)]
      simp [indexBytes]; omega

section
variable {c : Config} {ops : List Op} {bm : Bitmap}

/-- C39: `bytes()` of a bitmap of `n` blocks is the bytes of its bits, 20 bytes for the three scalar
members of the index, the index buffer, and whatever `essentials::vec_bytes` adds to the size of a
vector (`ov`, 8 in the upstream library).  It does not depend on the history. -/
theorem C39 (h : c.Life ops) (e : c.run ops = ok bm) (h0 : c.logical ops ≠ []) (ov : Nat) :
    bmBytes ov bm = (c.logical ops).length / 8 + 20 + ov +
      indexBytes c.fam c.H ((c.logical ops).length / c.blk.width.bits) := by
  have ha := Config.run_alive h e
  have hsz := ha.size
  obtain ⟨n, hn⟩ := ha.bmRep_lt (i := 0) (List.length_pos_iff.2 h0)
  have hl : (c.logical ops).length = c.blk.width.bits * n := by
    rw [hn.len, hn.inv.len, Width.bits_eq, Nat.mul_assoc]
  have hd : (c.logical ops).length / c.blk.width.bits = n := by
    rw [hl, Nat.mul_div_cancel_left _ (Width.bits_pos _)]
  unfold bmBytes treeBytes
  rw [hsz, msize_eq hn.inv.hlo hn.inv.hhi hn.inv.tree, hd]
  omega

/-- Before the first `build`. -/
theorem C39_empty (ov : Nat) : c.run [] = ok Bitmap.empty ∧ bmBytes ov Bitmap.empty = 20 + ov :=
  ⟨rfl, rfl⟩

/-- The index takes less than 2.2858 (`avx2`) or 2.1334 (`avx512`) bytes per block and a constant. -/
theorem C39_index {H n : Nat} (fam : TreeFam) (h1 : 1 ≤ H) (h2 : H ≤ fam.maxH) :
    (fam = .avx2 → 524288 * indexBytes fam H n ≤ 1198368 * n + 524288 * 1040 + 5 * n) ∧
    (fam = .avx512 → 131072 * indexBytes fam H n ≤ 279616 * n + 131072 * 2764 + 5 * n) := by
  constructor
  · rintro rfl
    have h2 : H ≤ 4 := h2
    unfold indexBytes upDiv
    simp only
    repeat' split
    all_goals omega
  · rintro rfl
    have h2 : H ≤ 3 := h2
    unfold indexBytes upDiv
    simp only
    repeat' split
    all_goals omega

/-- C39, overhead: with 256-bit blocks `bytes()` is at most 7.15% more than the bits and with 512-bit
blocks at most 3.58%, plus less than 3 KiB. -/
theorem C39_overhead (h : c.Life ops) (e : c.run ops = ok bm) (h0 : c.logical ops ≠ []) (ov : Nat) :
    (c.blk.width = .w256 →
      10000 * bmBytes ov bm ≤ 10715 * ((c.logical ops).length / 8) + 10000 * (ov + 2784)) ∧
    (c.blk.width = .w512 →
      10000 * bmBytes ov bm ≤ 10358 * ((c.logical ops).length / 8) + 10000 * (ov + 2784)) := by
  have ha := Config.run_alive h e
  obtain ⟨n, hn⟩ := ha.bmRep_lt (i := 0) (List.length_pos_iff.2 h0)
  have hl : (c.logical ops).length = c.blk.width.bits * n := by
    rw [hn.len, hn.inv.len, Width.bits_eq, Nat.mul_assoc]
  have hd : (c.logical ops).length / c.blk.width.bits = n := by
    rw [hl, Nat.mul_div_cancel_left _ (Width.bits_pos _)]
  have hb := C39 h e h0 ov
  rw [hd] at hb
  obtain ⟨i1, i2⟩ := C39_index (n := n) c.fam hn.inv.hlo hn.inv.hhi
  have hf : c.fam = .avx2 ∨ c.fam = .avx512 := by cases c.fam <;> simp
  constructor
  · intro hw
    rw [hw] at hl
    have hl : (c.logical ops).length = 256 * n := hl
    rcases hf with hf | hf
    · have := i1 hf; omega
    · have := i2 hf; omega
  · intro hw
    rw [hw] at hl
    have hl : (c.logical ops).length = 512 * n := hl
    rcases hf with hf | hf
    · have := i1 hf; omega
    · have := i2 hf; omega

end

/-- Five words in 256-bit blocks: 64 bytes of bits, 20 + 8 bytes of members, 4 + 288 of index. -/
example : ∃ bm, (⟨⟨true, true, true, false⟩, .avx2, 1, block256A⟩ : Config).run
    [.build 16 [1#64, 2#64, 3#64, 4#64, 5#64]] = ok bm ∧ bmBytes 8 bm = 64 + 20 + 8 + 292 := by
  have hl : Config.Life ⟨⟨true, true, true, false⟩, .avx2, 1, block256A⟩
      [.build 16 [1#64, 2#64, 3#64, 4#64, 5#64]] :=
    ⟨⟨⟨by decide, by decide, by decide, by decide, by decide⟩, Or.inl rfl⟩, trivial⟩
  obtain ⟨bm, e, _⟩ := Config.run_ok hl
  exact ⟨bm, e, (C39 hl e (by decide +kernel) 8).trans (by decide +kernel)⟩

end MRS.Props
