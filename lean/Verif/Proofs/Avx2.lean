import Verif.Proofs.TreeInv

/-! # The avx2 segment tree: sum, update, search for every height -/

set_option autoImplicit false
set_option linter.unusedVariables false
set_option linter.unusedSimpArgs false
set_option maxRecDepth 4000

namespace MRS
open Outcome Spec

attribute [local irreducible] psum

/-- Inner classes of `avx2::segment_tree<H>`, root first. -/
def avx2Cs : Nat → List NodeCfg
  | 1 => []
  | 2 => [avx2Node64]
  | 3 => [avx2Node64, avx2Node64]
  | _ => [avx2Node32, avx2Node64, avx2Node64]

theorem avx2_fits1 : LevelFits 512 avx2Node128 1 := ⟨by decide, by decide⟩
theorem avx2_fits2 : LevelFits 512 avx2Node64 128 := ⟨by decide, by decide⟩
theorem avx2_fits3 : LevelFits 512 avx2Node64 8192 := ⟨by decide, by decide⟩
theorem avx2_fits4 : LevelFits 512 avx2Node32 524288 := ⟨by decide, by decide⟩
theorem avx2_simd1 : LevelSimd 512 avx2Node128 1 := ⟨by decide, by decide⟩
theorem avx2_simd2 : LevelSimd 512 avx2Node64 128 := ⟨by decide, by decide⟩
theorem avx2_simd3 : LevelSimd 512 avx2Node64 8192 := ⟨by decide, by decide⟩
/-- Only with blocks of at most 256 bits are the comparisons of `node32` always adequate. -/
theorem avx2_simd4 : LevelSimd 256 avx2Node32 524288 := ⟨by decide, by decide⟩

section
variable {b : Build} {M n : Nat} {A : Nat → Nat} {t : Tree}

/-! ### Height 1 -/

theorem avx2_lvl1 {m : Mem} (hsp : n ≤ 128) (hpos : 0 < n) :
    LvlRep M A n m avx2Node128 4 (avx2Cs 1) ↔
      LeafLvl M A n m avx2Node128 4 := by
  have hc : ceilDiv n 128 = 1 := by
    show (n + 128 - 1) / 128 = 1
    omega
  have e : LvlRep M A n m avx2Node128 4 (avx2Cs 1) ↔ LeafLvl M A n m avx2Node128 4 := Iff.rfl
  rw [e]

theorem avx2_al1 {addr : Nat} (hsp : n ≤ 128) (hpos : 0 < n)
    (h : TreeAlign b addr n avx2Node128 (avx2Cs 1)) :
    (∀ idx, idx < ceilDiv n 128 → AlignOK b avx2Node128 addr (4 + idx * 288)) := by
  have h1 : (∀ idx, idx < ceilDiv n 128 → AlignOK b avx2Node128 addr (4 + idx * 288)) := h.lvl
  exact h1

theorem avx2Sum1_ok (h : TreeInv avx2Node128 (avx2Cs 1) M A n t) (hM : M ≤ 512)
    (ha : TreeAlign b t.mem.addr n avx2Node128 (avx2Cs 1)) {i : Nat} (hi : i < n) :
    avx2Sum1 b t i = ok (psum A (i + 1)) := by
  have hsp : n ≤ 128 := h.nspan
  have hpos := h.npos
  have hnle := h.nle
  obtain l1 := (avx2_lvl1 hsp hpos).1 h.lvl
  obtain a1 := avx2_al1 hsp hpos ha
  have hbig := psum_total_lt h.le hM h.nle (i + 1) h.zero
  have h0 : psum A 0 = 0 := psum_zero A
  unfold avx2Sum1
  rw [Tree.base_ok h.ptr]
  simp only [ok_bind]
  rw [show 4 * ((avx2Cs 1).length + 1) = 4 from rfl]
  rw [leaf_sum' (idx := 0) (child := i) (lo := 0) (hi := i + 1) avx2Node128_wf (avx2_fits1.mono hM)
      l1 (show i < 128 by omega) (show 0 * 128 + i < n by omega)
      (by simp)
      (show _ = 0 * 128 by omega) (by omega) a1]
  simp only [ok_bind, h0, Nat.sub_zero]

theorem avx2Update1_ok (h : TreeInv avx2Node128 (avx2Cs 1) M A n t) (hM : M ≤ 512)
    (ha : TreeAlign b t.mem.addr n avx2Node128 (avx2Cs 1))
    (hu : b.strictAlign = true → b.simd2 = true → (t.mem.addr + 4 * 1) % 32 = 0)
    {i : Nat} {sign : Bool} (hi : i < n)
    (hp : sign = true → 1 ≤ A i) (hq : sign = false → A i + 1 ≤ M) :
    ∃ t', avx2Update1 b t i sign = ok t' ∧ t'.mem.addr = t.mem.addr ∧
      TreeInv avx2Node128 (avx2Cs 1) M (updA A i sign) n t' := by
  have hsp : n ≤ 128 := h.nspan
  have hpos := h.npos
  have hnle := h.nle
  obtain l1 := (avx2_lvl1 hsp hpos).1 h.lvl
  obtain a1 := avx2_al1 hsp hpos ha
  unfold avx2Update1
  rw [Tree.base_ok h.ptr]
  simp only [ok_bind]
  rw [show 4 * ((avx2Cs 1).length + 1) = 4 from rfl]
  obtain ⟨m1, e1, u1, s1⟩ := leaf_update' (b := b) (idx := 0)
    (o := 4) (i := i)
    (child := i) (sign := sign) avx2Node128_wf
    (avx2_fits1.mono hM) l1
    (show i < 128 by omega)
    (by simp)
    a1 (fun hs _ h2 => by
      have := hu hs h2
      show (t.mem.addr + (4 + 0 * 288)) % 32 = 0
      omega) (show i = 0 * 128 + i by omega) hi hp hq
  replace s1 : SameOff _ m1 4 (4 + ceilDiv n 128 * 288) := s1
  rw [e1]
  simp only [ok_bind]
  refine ⟨_, rfl, ?_, h.size, h.num, h.ptr, h.npos, h.nspan, h.nle,
    updA_le h.le hq, updA_zero h.zero hi, ?_, ?_, ?_⟩
  · show m1.addr = _
    rw [s1.addr]
  · show m1.size = _
    rw [s1.size]; exact h.msize
  · intro l k hk
    have hl' : l < 1 := (List.getElem?_eq_some_iff.1 hk).1
    show rd m1 _ _ = _
    rw [s1.rd (by omega)]
    exact h.hdr l k hk
  · exact (avx2_lvl1 hsp hpos).2 u1

theorem avx2Search1_ok (h : TreeInv avx2Node128 (avx2Cs 1) M A n t) (hM : M ≤ 512)
    (ha : TreeAlign b t.mem.addr n avx2Node128 (avx2Cs 1)) {x : Nat} (hx : x < psum A n) :
    ∃ r, avx2Search1 b t x = ok r ∧ Searched A n x r := by
  have hsp : n ≤ 128 := h.nspan
  have hpos := h.npos
  have hnle := h.nle
  obtain l1 := (avx2_lvl1 hsp hpos).1 h.lvl
  obtain a1 := avx2_al1 hsp hpos ha
  have hbig := psum_total_lt h.le hM h.nle n h.zero
  have h0 : psum A 0 = 0 := psum_zero A
  obtain ⟨lo0, hlo0⟩ : ∃ z, z = 0 := ⟨_, rfl⟩
  obtain ⟨hi0, hhi0⟩ : ∃ z, z = lo0 + 128 := ⟨_, rfl⟩
  have hz0 : psum A lo0 = 0 := by rw [hlo0]; exact h0
  have hx0 : x < psum A hi0 - psum A lo0 := by
    rw [psum_beyond h.zero (show n ≤ hi0 by omega)]; omega
  clear h0
  unfold avx2Search1
  rw [Tree.base_ok h.ptr]
  simp only [ok_bind]
  rw [show 4 * ((avx2Cs 1).length + 1) = 4 from rfl]
  obtain ⟨p1, lo1, e1, b1, hlo1, f1, c1, d1⟩ := leaf_search' (b := b) (idx := 0)
    (o := 4) (x := x) (lo := lo0)
    avx2Node128_wf (avx2_fits1.mono hM) (avx2_simd1.mono hM) h.zero l1 (show (0) * 128 < n by omega)
    (by simp)
    (show _ = (0) * 128 by omega) a1 (by simp only [W64]; omega) (show _ = _ + 128 from hhi0) hx0
  replace b1 : p1 < 128 := b1
  rw [e1]
  simp only [hz0, Nat.sub_zero] at c1 d1 ⊢
  exact ⟨_, rfl, by show p1 < n; omega, by show _ = psum A p1; rw [hlo1, hlo0, Nat.zero_add],
    by show psum A p1 ≤ x; rw [hlo1, hlo0, Nat.zero_add] at c1; exact c1,
    by show x < psum A (p1 + 1); rw [hlo1, hlo0, Nat.zero_add] at d1; exact d1⟩

/-! ### Height 2 -/

theorem avx2_lvl2 {m : Mem} (hsp : n ≤ 8192) (hpos : 0 < n) :
    LvlRep M A n m avx2Node128 8 (avx2Cs 2) ↔
      InnerLvl A n m avx2Node64 128 8 ∧
      LeafLvl M A n m avx2Node128 296 := by
  have hc : ceilDiv n 8192 = 1 := by
    show (n + 8192 - 1) / 8192 = 1
    omega
  have e : LvlRep M A n m avx2Node128 8 (avx2Cs 2) ↔ InnerLvl A n m avx2Node64 128 8 ∧ LeafLvl M A n m avx2Node128 (8 + ceilDiv n 8192 * 288) := Iff.rfl
  rw [e]
  rw [hc]

theorem avx2_al2 {addr : Nat} (hsp : n ≤ 8192) (hpos : 0 < n)
    (h : TreeAlign b addr n avx2Node128 (avx2Cs 2)) :
    (∀ idx, idx < ceilDiv n 8192 → AlignOK b avx2Node64 addr (8 + idx * 288)) ∧
    (∀ idx, idx < ceilDiv n 128 → AlignOK b avx2Node128 addr (296 + idx * 288)) := by
  have h1 : (∀ idx, idx < ceilDiv n 8192 → AlignOK b avx2Node64 addr (8 + idx * 288)) ∧ (∀ idx, idx < ceilDiv n 128 → AlignOK b avx2Node128 addr ((8 + ceilDiv n 8192 * 288) + idx * 288)) := h.lvl
  have hc : ceilDiv n 8192 = 1 := by
    show (n + 8192 - 1) / 8192 = 1
    omega
  rw [hc] at h1 ⊢
  exact h1

theorem avx2Sum2_ok (h : TreeInv avx2Node128 (avx2Cs 2) M A n t) (hM : M ≤ 512)
    (ha : TreeAlign b t.mem.addr n avx2Node128 (avx2Cs 2)) {i : Nat} (hi : i < n) :
    avx2Sum2 b t i = ok (psum A (i + 1)) := by
  have hsp : n ≤ 8192 := h.nspan
  have hpos := h.npos
  have hnle := h.nle
  obtain ⟨l1, l2⟩ := (avx2_lvl2 hsp hpos).1 h.lvl
  obtain ⟨a1, a2⟩ := avx2_al2 hsp hpos ha
  have hbig := psum_total_lt h.le hM h.nle (i + 1) h.zero
  have h0 : psum A 0 = 0 := psum_zero A
  unfold avx2Sum2
  rw [Tree.base_ok h.ptr]
  simp only [ok_bind]
  rw [show 4 * ((avx2Cs 2).length + 1) = 8 from rfl]
  rw [inner_sum' (idx := 0) (child := i / 128) (lo := 0) (hi := i / 128 * 128) avx2Node64_wf h.le (avx2_fits2.mono hM) l1
      (by omega) (show 0 * (64 * 128) < n by omega) (show i / 128 < 64 by omega)
      (by simp)
      (show _ = 0 * (64 * 128) by omega) (by omega) a1]
  rw [leaf_sum' (idx := i / 128) (child := i % 128) (lo := i / 128 * 128) (hi := i + 1) avx2Node128_wf (avx2_fits1.mono hM)
      l2 (show i % 128 < 128 by omega) (show i / 128 * 128 + i % 128 < n by omega)
      (by
        show 8 + add64 288 (mul64 (i / 128) 288) = 296 + (i / 128) * 288
        arith64)
      (show _ = i / 128 * 128 by omega) (by omega) a2]
  obtain ⟨z1, hz1⟩ : ∃ z, z = i / 128 * 128 := ⟨_, rfl⟩
  rw [← hz1]
  have m1 := psum_mono A (show z1 ≤ (i + 1) by omega)
  simp only [ok_bind, h0, Nat.sub_zero]
  clear h0
  congr 1
  arith64

theorem avx2Update2_ok (h : TreeInv avx2Node128 (avx2Cs 2) M A n t) (hM : M ≤ 512)
    (ha : TreeAlign b t.mem.addr n avx2Node128 (avx2Cs 2))
    (hu : b.strictAlign = true → b.simd2 = true → (t.mem.addr + 4 * 2) % 32 = 0)
    {i : Nat} {sign : Bool} (hi : i < n)
    (hp : sign = true → 1 ≤ A i) (hq : sign = false → A i + 1 ≤ M) :
    ∃ t', avx2Update2 b t i sign = ok t' ∧ t'.mem.addr = t.mem.addr ∧
      TreeInv avx2Node128 (avx2Cs 2) M (updA A i sign) n t' := by
  have hsp : n ≤ 8192 := h.nspan
  have hpos := h.npos
  have hnle := h.nle
  obtain ⟨l1, l2⟩ := (avx2_lvl2 hsp hpos).1 h.lvl
  obtain ⟨a1, a2⟩ := avx2_al2 hsp hpos ha
  have hc : ceilDiv n 8192 = 1 := by
    show (n + 8192 - 1) / 8192 = 1
    omega
  unfold avx2Update2
  rw [Tree.base_ok h.ptr]
  simp only [ok_bind]
  rw [show 4 * ((avx2Cs 2).length + 1) = 8 from rfl]
  obtain ⟨m1, e1, u1, s1⟩ := inner_update' (b := b) (idx := 0)
    (o := 8) (i := i)
    (child := i / 128) (k := add64 (i / 128) 1) (sign := sign) (lo := 0) avx2Node64_wf rfl h.le
    (avx2_fits2.mono hM) l1 (by omega)
    (show 0 * (64 * 128) < n by omega) (show i / 128 < 64 by omega)
    (by simp)
    (show _ = 0 * (64 * 128) by omega) (by simp only [add64, W64]; omega) a1 (by omega) (by omega) hp
  replace s1 : SameOff _ m1 8 (8 + ceilDiv n 8192 * 288) := s1
  rw [hc] at s1
  rw [e1]
  simp only [ok_bind]
  obtain ⟨m2, e2, u2, s2⟩ := leaf_update' (b := b) (idx := i / 128)
    (o := 8 + add64 avx2Node64.bytes (mul64 (i / 128) avx2Node128.bytes)) (i := i)
    (child := i % 128) (sign := sign) avx2Node128_wf
    (avx2_fits1.mono hM) ((l2).frame avx2Node128_wf s1 (Or.inr (by omega)))
    (show i % 128 < 128 by omega)
    (by
        show 8 + add64 288 (mul64 (i / 128) 288) = 296 + (i / 128) * 288
        arith64)
    (by rw [s1.addr]; exact a2) (fun hs _ h2 => by
      have := hu hs h2
      rw [s1.addr]
      show (t.mem.addr + (296 + i / 128 * 288)) % 32 = 0
      omega) (show i = i / 128 * 128 + i % 128 by omega) hi hp hq
  replace s2 : SameOff _ m2 296 (296 + ceilDiv n 128 * 288) := s2
  rw [e2]
  simp only [ok_bind]
  refine ⟨_, rfl, ?_, h.size, h.num, h.ptr, h.npos, h.nspan, h.nle,
    updA_le h.le hq, updA_zero h.zero hi, ?_, ?_, ?_⟩
  · show m2.addr = _
    rw [s2.addr, s1.addr]
  · show m2.size = _
    rw [s2.size, s1.size]; exact h.msize
  · intro l k hk
    have hl' : l < 2 := (List.getElem?_eq_some_iff.1 hk).1
    show rd m2 _ _ = _
    rw [s2.rd (by omega), s1.rd (by omega)]
    exact h.hdr l k hk
  · exact (avx2_lvl2 hsp hpos).2 ⟨((u1).frame avx2Node64_wf s2 (Or.inl (by show _ + ceilDiv n 8192 * 288 ≤ _; omega))), u2⟩

theorem avx2Search2_ok (h : TreeInv avx2Node128 (avx2Cs 2) M A n t) (hM : M ≤ 512)
    (ha : TreeAlign b t.mem.addr n avx2Node128 (avx2Cs 2)) {x : Nat} (hx : x < psum A n) :
    ∃ r, avx2Search2 b t x = ok r ∧ Searched A n x r := by
  have hsp : n ≤ 8192 := h.nspan
  have hpos := h.npos
  have hnle := h.nle
  obtain ⟨l1, l2⟩ := (avx2_lvl2 hsp hpos).1 h.lvl
  obtain ⟨a1, a2⟩ := avx2_al2 hsp hpos ha
  have hbig := psum_total_lt h.le hM h.nle n h.zero
  have h0 : psum A 0 = 0 := psum_zero A
  obtain ⟨lo0, hlo0⟩ : ∃ z, z = 0 := ⟨_, rfl⟩
  obtain ⟨hi0, hhi0⟩ : ∃ z, z = lo0 + 8192 := ⟨_, rfl⟩
  have hz0 : psum A lo0 = 0 := by rw [hlo0]; exact h0
  have hx0 : x < psum A hi0 - psum A lo0 := by
    rw [psum_beyond h.zero (show n ≤ hi0 by omega)]; omega
  clear h0
  unfold avx2Search2
  rw [Tree.base_ok h.ptr]
  simp only [ok_bind]
  rw [show 4 * ((avx2Cs 2).length + 1) = 8 from rfl]
  obtain ⟨p1, lo1, hi1, e1, b1, hlo1, hhi1, c1, d1⟩ := inner_search' (b := b) (idx := 0)
    (o := 8) (x := x) (lo := lo0)
    avx2Node64_wf h.le (avx2_fits2.mono hM) (by decide) l1 (by omega) (by simp only [Nat.zero_mul]; exact hpos)
    (by simp)
    (show _ = (0) * (64 * 128) by omega) a1 (by simp only [W64]; omega) (by rw [show avx2Node64.fanout * 128 = 8192 by decide]; omega) hx0
    (fun _ => inner_simd' avx2Node64_wf h.le (avx2_simd2.mono hM) (by rw [show avx2Node64.fanout * 128 = 8192 by decide]; omega) hx0)
  replace b1 : p1 < 64 := b1
  rw [e1]
  simp only [ok_bind]
  have i1 : sub64 (p1 + 1) 1 = p1 := by
    simp only [sub64, W64]; omega
  have hb1 := psum_total_lt h.le hM h.nle hi1 h.zero
  have hk1 := psum_mono A (show lo0 ≤ lo1 by omega)
  have hm1 := psum_mono A (show lo1 ≤ hi1 by omega)
  have hlt1 := psum_lt_idx h.zero (show psum A lo1 < psum A hi1 by omega)
  have hxe1 : sub64 (x) (psum A lo1 - psum A lo0) = x - psum A lo1 := by
    rw [sub64_eq c1 (by simp only [W64]; omega)]; omega
  simp only [i1, hxe1]
  have hx1 : x - psum A lo1 < psum A hi1 - psum A lo1 := by omega
  obtain ⟨p2, lo2, e2, b2, hlo2, f2, c2, d2⟩ := leaf_search' (b := b) (idx := p1)
    (o := 8 + add64 avx2Node64.bytes (mul64 p1 avx2Node128.bytes)) (x := x - psum A lo1) (lo := lo1)
    avx2Node128_wf (avx2_fits1.mono hM) (avx2_simd1.mono hM) h.zero l2 (show (p1) * 128 < n by omega)
    (by
        show 8 + add64 288 (mul64 p1 288) = 296 + (p1) * 288
        arith64)
    (show _ = (p1) * 128 by omega) a2 (by simp only [W64]; omega) (show _ = _ + 128 from hhi1) hx1
  replace b2 : p2 < 128 := b2
  rw [e2]
  have hm := psum_mono A (show lo1 ≤ lo2 by omega)
  have hb := psum_total_lt h.le hM h.nle lo2 h.zero
  have r1 : add64 (mul64 p1 128) p2 = lo2 := by
    arith64
  have r2 : add64 (psum A lo1 - psum A lo0) (psum A lo2 - psum A lo1) = psum A lo2 := by
    arith64
  simp only [ok_bind, r1, r2]
  exact ⟨_, rfl, f2, rfl, by show psum A lo2 ≤ x; omega, by
    show x < psum A (lo2 + 1)
    omega⟩

/-! ### Height 3 -/

theorem avx2_lvl3 {m : Mem} (hsp : n ≤ 524288) (hpos : 0 < n) :
    LvlRep M A n m avx2Node128 12 (avx2Cs 3) ↔
      InnerLvl A n m avx2Node64 8192 12 ∧
      InnerLvl A n m avx2Node64 128 300 ∧
      LeafLvl M A n m avx2Node128 (300 + ceilDiv n 8192 * 288) := by
  have hc : ceilDiv n 524288 = 1 := by
    show (n + 524288 - 1) / 524288 = 1
    omega
  have e : LvlRep M A n m avx2Node128 12 (avx2Cs 3) ↔ InnerLvl A n m avx2Node64 8192 12 ∧ InnerLvl A n m avx2Node64 128 (12 + ceilDiv n 524288 * 288) ∧ LeafLvl M A n m avx2Node128 ((12 + ceilDiv n 524288 * 288) + ceilDiv n 8192 * 288) := Iff.rfl
  rw [e]
  rw [hc]

theorem avx2_al3 {addr : Nat} (hsp : n ≤ 524288) (hpos : 0 < n)
    (h : TreeAlign b addr n avx2Node128 (avx2Cs 3)) :
    (∀ idx, idx < ceilDiv n 524288 → AlignOK b avx2Node64 addr (12 + idx * 288)) ∧
    (∀ idx, idx < ceilDiv n 8192 → AlignOK b avx2Node64 addr (300 + idx * 288)) ∧
    (∀ idx, idx < ceilDiv n 128 → AlignOK b avx2Node128 addr ((300 + ceilDiv n 8192 * 288) + idx * 288)) := by
  have h1 : (∀ idx, idx < ceilDiv n 524288 → AlignOK b avx2Node64 addr (12 + idx * 288)) ∧ (∀ idx, idx < ceilDiv n 8192 → AlignOK b avx2Node64 addr ((12 + ceilDiv n 524288 * 288) + idx * 288)) ∧ (∀ idx, idx < ceilDiv n 128 → AlignOK b avx2Node128 addr (((12 + ceilDiv n 524288 * 288) + ceilDiv n 8192 * 288) + idx * 288)) := h.lvl
  have hc : ceilDiv n 524288 = 1 := by
    show (n + 524288 - 1) / 524288 = 1
    omega
  rw [hc] at h1 ⊢
  exact h1

theorem avx2Sum3_ok (h : TreeInv avx2Node128 (avx2Cs 3) M A n t) (hM : M ≤ 512)
    (ha : TreeAlign b t.mem.addr n avx2Node128 (avx2Cs 3)) {i : Nat} (hi : i < n) :
    avx2Sum3 b t i = ok (psum A (i + 1)) := by
  have hsp : n ≤ 524288 := h.nspan
  have hpos := h.npos
  have hnle := h.nle
  obtain ⟨l1, l2, l3⟩ := (avx2_lvl3 hsp hpos).1 h.lvl
  obtain ⟨a1, a2, a3⟩ := avx2_al3 hsp hpos ha
  have n1 : t.nn b 1 = ok (ceilDiv n 8192) := by
    rw [Tree.nn_ok h.num (by rw [h.msize]; show 1 * 4 + 4 ≤ 12 + _; omega) ha.hdr,
      h.hdr 1 _ rfl]
    rfl
  have hN1 : ceilDiv n 8192 ≤ 64 := by
    show (n + 8192 - 1) / 8192 ≤ 64
    omega
  have hbig := psum_total_lt h.le hM h.nle (i + 1) h.zero
  have h0 : psum A 0 = 0 := psum_zero A
  unfold avx2Sum3
  rw [Tree.base_ok h.ptr]
  simp only [ok_bind, n1]
  rw [show 4 * ((avx2Cs 3).length + 1) = 12 from rfl]
  rw [inner_sum' (idx := 0) (child := i / (128 * 64)) (lo := 0) (hi := i / 8192 * 8192) avx2Node64_wf h.le (avx2_fits3.mono hM) l1
      (by omega) (show 0 * (64 * 8192) < n by omega) (show i / (128 * 64) < 64 by omega)
      (by simp)
      (show _ = 0 * (64 * 8192) by omega) (by omega) a1]
  rw [inner_sum' (idx := i / 8192) (child := i % (128 * 64) / 128) (lo := i / 8192 * 8192) (hi := i / 128 * 128) avx2Node64_wf h.le (avx2_fits2.mono hM) l2
      (by omega) (show i / 8192 * (64 * 128) < n by omega) (show i % (128 * 64) / 128 < 64 by omega)
      (by
        show 12 + mul64 (add64 (i / (128 * 64)) 1) 288 = 300 + (i / 8192) * 288
        arith64)
      (show _ = i / 8192 * (64 * 128) by omega) (by omega) a2]
  rw [leaf_sum' (idx := i / 128) (child := i % (128 * 64) % 128) (lo := i / 128 * 128) (hi := i + 1) avx2Node128_wf (avx2_fits1.mono hM)
      l3 (show i % (128 * 64) % 128 < 128 by omega) (show i / 128 * 128 + i % (128 * 64) % 128 < n by omega)
      (by
        show 12 + add64 (mul64 ((1 + (ceilDiv n 8192)) % 2 ^ 32) 288) (mul64 (add64 (i % (128 * 64) / 128) (mul64 (i / (128 * 64)) 64)) 288) = (300 + ceilDiv n 8192 * 288) + (i / 128) * 288
        arith64)
      (show _ = i / 128 * 128 by omega) (by omega) a3]
  obtain ⟨z1, hz1⟩ : ∃ z, z = i / 8192 * 8192 := ⟨_, rfl⟩
  obtain ⟨z2, hz2⟩ : ∃ z, z = i / 128 * 128 := ⟨_, rfl⟩
  rw [← hz1, ← hz2]
  have m1 := psum_mono A (show z1 ≤ z2 by omega)
  have m2 := psum_mono A (show z2 ≤ (i + 1) by omega)
  simp only [ok_bind, h0, Nat.sub_zero]
  clear h0
  congr 1
  arith64

theorem avx2Update3_ok (h : TreeInv avx2Node128 (avx2Cs 3) M A n t) (hM : M ≤ 512)
    (ha : TreeAlign b t.mem.addr n avx2Node128 (avx2Cs 3))
    (hu : b.strictAlign = true → b.simd2 = true → (t.mem.addr + 4 * 3) % 32 = 0)
    {i : Nat} {sign : Bool} (hi : i < n)
    (hp : sign = true → 1 ≤ A i) (hq : sign = false → A i + 1 ≤ M) :
    ∃ t', avx2Update3 b t i sign = ok t' ∧ t'.mem.addr = t.mem.addr ∧
      TreeInv avx2Node128 (avx2Cs 3) M (updA A i sign) n t' := by
  have hsp : n ≤ 524288 := h.nspan
  have hpos := h.npos
  have hnle := h.nle
  obtain ⟨l1, l2, l3⟩ := (avx2_lvl3 hsp hpos).1 h.lvl
  obtain ⟨a1, a2, a3⟩ := avx2_al3 hsp hpos ha
  have n1 : t.nn b 1 = ok (ceilDiv n 8192) := by
    rw [Tree.nn_ok h.num (by rw [h.msize]; show 1 * 4 + 4 ≤ 12 + _; omega) ha.hdr,
      h.hdr 1 _ rfl]
    rfl
  have hN1 : ceilDiv n 8192 ≤ 64 := by
    show (n + 8192 - 1) / 8192 ≤ 64
    omega
  have hc : ceilDiv n 524288 = 1 := by
    show (n + 524288 - 1) / 524288 = 1
    omega
  unfold avx2Update3
  rw [Tree.base_ok h.ptr]
  simp only [ok_bind, n1]
  rw [show 4 * ((avx2Cs 3).length + 1) = 12 from rfl]
  obtain ⟨m1, e1, u1, s1⟩ := inner_update' (b := b) (idx := 0)
    (o := 12) (i := i)
    (child := i / (128 * 64)) (k := add64 (i / (128 * 64)) 1) (sign := sign) (lo := 0) avx2Node64_wf rfl h.le
    (avx2_fits3.mono hM) l1 (by omega)
    (show 0 * (64 * 8192) < n by omega) (show i / (128 * 64) < 64 by omega)
    (by simp)
    (show _ = 0 * (64 * 8192) by omega) (by simp only [add64, W64]; omega) a1 (by omega) (by omega) hp
  replace s1 : SameOff _ m1 12 (12 + ceilDiv n 524288 * 288) := s1
  rw [hc] at s1
  rw [e1]
  simp only [ok_bind]
  obtain ⟨m2, e2, u2, s2⟩ := inner_update' (b := b) (idx := i / 8192)
    (o := 12 + mul64 (add64 (i / (128 * 64)) 1) avx2Node64.bytes) (i := i)
    (child := i % (128 * 64) / 128) (k := add64 (i % (128 * 64) / 128) 1) (sign := sign) (lo := i / 8192 * 8192) avx2Node64_wf rfl h.le
    (avx2_fits2.mono hM) ((l2).frame avx2Node64_wf s1 (Or.inr (by omega))) (by omega)
    (show i / 8192 * (64 * 128) < n by omega) (show i % (128 * 64) / 128 < 64 by omega)
    (by
        show 12 + mul64 (add64 (i / (128 * 64)) 1) 288 = 300 + (i / 8192) * 288
        arith64)
    (show _ = i / 8192 * (64 * 128) by omega) (by simp only [add64, W64]; omega) (by rw [s1.addr]; exact a2) (by omega) (by omega) hp
  replace s2 : SameOff _ m2 300 (300 + ceilDiv n 8192 * 288) := s2
  rw [e2]
  simp only [ok_bind]
  obtain ⟨m3, e3, u3, s3⟩ := leaf_update' (b := b) (idx := i / 128)
    (o := 12 + add64 (mul64 ((1 + (ceilDiv n 8192)) % 2 ^ 32) avx2Node64.bytes) (mul64 (add64 (i % (128 * 64) / 128) (mul64 (i / (128 * 64)) 64)) avx2Node128.bytes)) (i := i)
    (child := i % (128 * 64) % 128) (sign := sign) avx2Node128_wf
    (avx2_fits1.mono hM) ((((l3).frame avx2Node128_wf s1 (Or.inr (by omega)))).frame avx2Node128_wf s2 (Or.inr (by omega)))
    (show i % (128 * 64) % 128 < 128 by omega)
    (by
        show 12 + add64 (mul64 ((1 + (ceilDiv n 8192)) % 2 ^ 32) 288) (mul64 (add64 (i % (128 * 64) / 128) (mul64 (i / (128 * 64)) 64)) 288) = (300 + ceilDiv n 8192 * 288) + (i / 128) * 288
        arith64)
    (by rw [s2.addr, s1.addr]; exact a3) (fun hs _ h2 => by
      have := hu hs h2
      rw [s2.addr, s1.addr]
      show (t.mem.addr + (300 + ceilDiv n 8192 * 288 + i / 128 * 288)) % 32 = 0
      omega) (show i = i / 128 * 128 + i % (128 * 64) % 128 by omega) hi hp hq
  replace s3 : SameOff _ m3 (300 + ceilDiv n 8192 * 288) ((300 + ceilDiv n 8192 * 288) + ceilDiv n 128 * 288) := s3
  rw [e3]
  simp only [ok_bind]
  refine ⟨_, rfl, ?_, h.size, h.num, h.ptr, h.npos, h.nspan, h.nle,
    updA_le h.le hq, updA_zero h.zero hi, ?_, ?_, ?_⟩
  · show m3.addr = _
    rw [s3.addr, s2.addr, s1.addr]
  · show m3.size = _
    rw [s3.size, s2.size, s1.size]; exact h.msize
  · intro l k hk
    have hl' : l < 3 := (List.getElem?_eq_some_iff.1 hk).1
    show rd m3 _ _ = _
    rw [s3.rd (by omega), s2.rd (by omega), s1.rd (by omega)]
    exact h.hdr l k hk
  · exact (avx2_lvl3 hsp hpos).2 ⟨((((u1).frame avx2Node64_wf s2 (Or.inl (by show _ + ceilDiv n 524288 * 288 ≤ _; omega)))).frame avx2Node64_wf s3 (Or.inl (by show _ + ceilDiv n 524288 * 288 ≤ _; omega))), ((u2).frame avx2Node64_wf s3 (Or.inl (by show _ + ceilDiv n 8192 * 288 ≤ _; omega))), u3⟩

theorem avx2Search3_ok (h : TreeInv avx2Node128 (avx2Cs 3) M A n t) (hM : M ≤ 512)
    (ha : TreeAlign b t.mem.addr n avx2Node128 (avx2Cs 3)) {x : Nat} (hx : x < psum A n) :
    ∃ r, avx2Search3 b t x = ok r ∧ Searched A n x r := by
  have hsp : n ≤ 524288 := h.nspan
  have hpos := h.npos
  have hnle := h.nle
  obtain ⟨l1, l2, l3⟩ := (avx2_lvl3 hsp hpos).1 h.lvl
  obtain ⟨a1, a2, a3⟩ := avx2_al3 hsp hpos ha
  have n1 : t.nn b 1 = ok (ceilDiv n 8192) := by
    rw [Tree.nn_ok h.num (by rw [h.msize]; show 1 * 4 + 4 ≤ 12 + _; omega) ha.hdr,
      h.hdr 1 _ rfl]
    rfl
  have hN1 : ceilDiv n 8192 ≤ 64 := by
    show (n + 8192 - 1) / 8192 ≤ 64
    omega
  have hbig := psum_total_lt h.le hM h.nle n h.zero
  have h0 : psum A 0 = 0 := psum_zero A
  obtain ⟨lo0, hlo0⟩ : ∃ z, z = 0 := ⟨_, rfl⟩
  obtain ⟨hi0, hhi0⟩ : ∃ z, z = lo0 + 524288 := ⟨_, rfl⟩
  have hz0 : psum A lo0 = 0 := by rw [hlo0]; exact h0
  have hx0 : x < psum A hi0 - psum A lo0 := by
    rw [psum_beyond h.zero (show n ≤ hi0 by omega)]; omega
  clear h0
  unfold avx2Search3
  rw [Tree.base_ok h.ptr]
  simp only [ok_bind, n1]
  rw [show 4 * ((avx2Cs 3).length + 1) = 12 from rfl]
  obtain ⟨p1, lo1, hi1, e1, b1, hlo1, hhi1, c1, d1⟩ := inner_search' (b := b) (idx := 0)
    (o := 12) (x := x) (lo := lo0)
    avx2Node64_wf h.le (avx2_fits3.mono hM) (by decide) l1 (by omega) (by simp only [Nat.zero_mul]; exact hpos)
    (by simp)
    (show _ = (0) * (64 * 8192) by omega) a1 (by simp only [W64]; omega) (by rw [show avx2Node64.fanout * 8192 = 524288 by decide]; omega) hx0
    (fun _ => inner_simd' avx2Node64_wf h.le (avx2_simd3.mono hM) (by rw [show avx2Node64.fanout * 8192 = 524288 by decide]; omega) hx0)
  replace b1 : p1 < 64 := b1
  rw [e1]
  simp only [ok_bind]
  have i1 : sub64 (p1 + 1) 1 = p1 := by
    simp only [sub64, W64]; omega
  have hb1 := psum_total_lt h.le hM h.nle hi1 h.zero
  have hk1 := psum_mono A (show lo0 ≤ lo1 by omega)
  have hm1 := psum_mono A (show lo1 ≤ hi1 by omega)
  have hlt1 := psum_lt_idx h.zero (show psum A lo1 < psum A hi1 by omega)
  have hxe1 : sub64 (x) (psum A lo1 - psum A lo0) = x - psum A lo1 := by
    rw [sub64_eq c1 (by simp only [W64]; omega)]; omega
  simp only [i1, hxe1]
  have hx1 : x - psum A lo1 < psum A hi1 - psum A lo1 := by omega
  obtain ⟨p2, lo2, hi2, e2, b2, hlo2, hhi2, c2, d2⟩ := inner_search' (b := b) (idx := p1)
    (o := 12 + mul64 (add64 p1 1) avx2Node64.bytes) (x := x - psum A lo1) (lo := lo1)
    avx2Node64_wf h.le (avx2_fits2.mono hM) (by decide) l2 (by omega) (show (p1) * (64 * 128) < n by omega)
    (by
        show 12 + mul64 (add64 p1 1) 288 = 300 + (p1) * 288
        arith64)
    (show _ = (p1) * (64 * 128) by omega) a2 (by simp only [W64]; omega) (by rw [show avx2Node64.fanout * 128 = 8192 by decide]; omega) hx1
    (fun _ => inner_simd' avx2Node64_wf h.le (avx2_simd2.mono hM) (by rw [show avx2Node64.fanout * 128 = 8192 by decide]; omega) hx1)
  replace b2 : p2 < 64 := b2
  rw [e2]
  simp only [ok_bind]
  have i2 : sub64 (p2 + 1) 1 = p2 := by
    simp only [sub64, W64]; omega
  have hb2 := psum_total_lt h.le hM h.nle hi2 h.zero
  have hk2 := psum_mono A (show lo1 ≤ lo2 by omega)
  have hm2 := psum_mono A (show lo2 ≤ hi2 by omega)
  have hlt2 := psum_lt_idx h.zero (show psum A lo2 < psum A hi2 by omega)
  have hxe2 : sub64 (x - psum A lo1) (psum A lo2 - psum A lo1) = x - psum A lo2 := by
    rw [sub64_eq c2 (by simp only [W64]; omega)]; omega
  simp only [i2, hxe2]
  have hx2 : x - psum A lo2 < psum A hi2 - psum A lo2 := by omega
  obtain ⟨p3, lo3, e3, b3, hlo3, f3, c3, d3⟩ := leaf_search' (b := b) (idx := (p1) * 64 + p2)
    (o := 12 + add64 (mul64 ((1 + (ceilDiv n 8192)) % 2 ^ 32) avx2Node64.bytes) (mul64 (add64 p2 (mul64 p1 64)) avx2Node128.bytes)) (x := x - psum A lo2) (lo := lo2)
    avx2Node128_wf (avx2_fits1.mono hM) (avx2_simd1.mono hM) h.zero l3 (show ((p1) * 64 + p2) * 128 < n by omega)
    (by
        show 12 + add64 (mul64 ((1 + (ceilDiv n 8192)) % 2 ^ 32) 288) (mul64 (add64 p2 (mul64 p1 64)) 288) = (300 + ceilDiv n 8192 * 288) + ((p1) * 64 + p2) * 288
        arith64)
    (show _ = ((p1) * 64 + p2) * 128 by omega) a3 (by simp only [W64]; omega) (show _ = _ + 128 from hhi2) hx2
  replace b3 : p3 < 128 := b3
  rw [e3]
  have hm := psum_mono A (show lo2 ≤ lo3 by omega)
  have hb := psum_total_lt h.le hM h.nle lo3 h.zero
  have r1 : add64 (add64 (mul64 (mul64 p1 128) 64) (mul64 p2 128)) p3 = lo3 := by
    arith64
  have r2 : add64 (add64 (psum A lo1 - psum A lo0) (psum A lo2 - psum A lo1)) (psum A lo3 - psum A lo2) = psum A lo3 := by
    arith64
  simp only [ok_bind, r1, r2]
  exact ⟨_, rfl, f3, rfl, by show psum A lo3 ≤ x; omega, by
    show x < psum A (lo3 + 1)
    omega⟩

/-! ### Height 4 -/

theorem avx2_lvl4 {m : Mem} (hsp : n ≤ 16777216) (hpos : 0 < n) :
    LvlRep M A n m avx2Node128 16 (avx2Cs 4) ↔
      InnerLvl A n m avx2Node32 524288 16 ∧
      InnerLvl A n m avx2Node64 8192 176 ∧
      InnerLvl A n m avx2Node64 128 (176 + ceilDiv n 524288 * 288) ∧
      LeafLvl M A n m avx2Node128 ((176 + ceilDiv n 524288 * 288) + ceilDiv n 8192 * 288) := by
  have hc : ceilDiv n 16777216 = 1 := by
    show (n + 16777216 - 1) / 16777216 = 1
    omega
  have e : LvlRep M A n m avx2Node128 16 (avx2Cs 4) ↔ InnerLvl A n m avx2Node32 524288 16 ∧ InnerLvl A n m avx2Node64 8192 (16 + ceilDiv n 16777216 * 160) ∧ InnerLvl A n m avx2Node64 128 ((16 + ceilDiv n 16777216 * 160) + ceilDiv n 524288 * 288) ∧ LeafLvl M A n m avx2Node128 (((16 + ceilDiv n 16777216 * 160) + ceilDiv n 524288 * 288) + ceilDiv n 8192 * 288) := Iff.rfl
  rw [e]
  rw [hc]

theorem avx2_al4 {addr : Nat} (hsp : n ≤ 16777216) (hpos : 0 < n)
    (h : TreeAlign b addr n avx2Node128 (avx2Cs 4)) :
    (∀ idx, idx < ceilDiv n 16777216 → AlignOK b avx2Node32 addr (16 + idx * 160)) ∧
    (∀ idx, idx < ceilDiv n 524288 → AlignOK b avx2Node64 addr (176 + idx * 288)) ∧
    (∀ idx, idx < ceilDiv n 8192 → AlignOK b avx2Node64 addr ((176 + ceilDiv n 524288 * 288) + idx * 288)) ∧
    (∀ idx, idx < ceilDiv n 128 → AlignOK b avx2Node128 addr (((176 + ceilDiv n 524288 * 288) + ceilDiv n 8192 * 288) + idx * 288)) := by
  have h1 : (∀ idx, idx < ceilDiv n 16777216 → AlignOK b avx2Node32 addr (16 + idx * 160)) ∧ (∀ idx, idx < ceilDiv n 524288 → AlignOK b avx2Node64 addr ((16 + ceilDiv n 16777216 * 160) + idx * 288)) ∧ (∀ idx, idx < ceilDiv n 8192 → AlignOK b avx2Node64 addr (((16 + ceilDiv n 16777216 * 160) + ceilDiv n 524288 * 288) + idx * 288)) ∧ (∀ idx, idx < ceilDiv n 128 → AlignOK b avx2Node128 addr ((((16 + ceilDiv n 16777216 * 160) + ceilDiv n 524288 * 288) + ceilDiv n 8192 * 288) + idx * 288)) := h.lvl
  have hc : ceilDiv n 16777216 = 1 := by
    show (n + 16777216 - 1) / 16777216 = 1
    omega
  rw [hc] at h1 ⊢
  exact h1

theorem avx2Sum4_ok (h : TreeInv avx2Node128 (avx2Cs 4) M A n t) (hM : M ≤ 512)
    (ha : TreeAlign b t.mem.addr n avx2Node128 (avx2Cs 4)) {i : Nat} (hi : i < n) :
    avx2Sum4 b t i = ok (psum A (i + 1)) := by
  have hsp : n ≤ 16777216 := h.nspan
  have hpos := h.npos
  have hnle := h.nle
  obtain ⟨l1, l2, l3, l4⟩ := (avx2_lvl4 hsp hpos).1 h.lvl
  obtain ⟨a1, a2, a3, a4⟩ := avx2_al4 hsp hpos ha
  have n1 : t.nn b 1 = ok (ceilDiv n 524288) := by
    rw [Tree.nn_ok h.num (by rw [h.msize]; show 1 * 4 + 4 ≤ 16 + _; omega) ha.hdr,
      h.hdr 1 _ rfl]
    rfl
  have n2 : t.nn b 2 = ok (ceilDiv n 8192) := by
    rw [Tree.nn_ok h.num (by rw [h.msize]; show 2 * 4 + 4 ≤ 16 + _; omega) ha.hdr,
      h.hdr 2 _ rfl]
    rfl
  have hN1 : ceilDiv n 524288 ≤ 32 := by
    show (n + 524288 - 1) / 524288 ≤ 32
    omega
  have hN2 : ceilDiv n 8192 ≤ 2048 := by
    show (n + 8192 - 1) / 8192 ≤ 2048
    omega
  have hbig := psum_total_lt h.le hM h.nle (i + 1) h.zero
  have h0 : psum A 0 = 0 := psum_zero A
  unfold avx2Sum4
  rw [Tree.base_ok h.ptr]
  simp only [ok_bind, n1, n2]
  rw [show 4 * ((avx2Cs 4).length + 1) = 16 from rfl]
  rw [inner_sum' (idx := 0) (child := i / (128 * 64 * 64)) (lo := 0) (hi := i / 524288 * 524288) avx2Node32_wf h.le (avx2_fits4.mono hM) l1
      (by omega) (show 0 * (32 * 524288) < n by omega) (show i / (128 * 64 * 64) < 32 by omega)
      (by simp)
      (show _ = 0 * (32 * 524288) by omega) (by omega) a1]
  rw [inner_sum' (idx := i / 524288) (child := i % (128 * 64 * 64) / (128 * 64)) (lo := i / 524288 * 524288) (hi := i / 8192 * 8192) avx2Node64_wf h.le (avx2_fits3.mono hM) l2
      (by omega) (show i / 524288 * (64 * 8192) < n by omega) (show i % (128 * 64 * 64) / (128 * 64) < 64 by omega)
      (by
        show 16 + add64 160 (mul64 (i / (128 * 64 * 64)) 288) = 176 + (i / 524288) * 288
        arith64)
      (show _ = i / 524288 * (64 * 8192) by omega) (by omega) a2]
  rw [inner_sum' (idx := i / 8192) (child := i % (128 * 64) / 128) (lo := i / 8192 * 8192) (hi := i / 128 * 128) avx2Node64_wf h.le (avx2_fits2.mono hM) l3
      (by omega) (show i / 8192 * (64 * 128) < n by omega) (show i % (128 * 64) / 128 < 64 by omega)
      (by
        show 16 + add64 (add64 160 (mul64 (ceilDiv n 524288) 288)) (mul64 (add64 (i % (128 * 64 * 64) / (128 * 64)) (mul64 (i / (128 * 64 * 64)) 64)) 288) = (176 + ceilDiv n 524288 * 288) + (i / 8192) * 288
        arith64)
      (show _ = i / 8192 * (64 * 128) by omega) (by omega) a3]
  rw [leaf_sum' (idx := i / 128) (child := i % (128 * 64) % 128) (lo := i / 128 * 128) (hi := i + 1) avx2Node128_wf (avx2_fits1.mono hM)
      l4 (show i % (128 * 64) % 128 < 128 by omega) (show i / 128 * 128 + i % (128 * 64) % 128 < n by omega)
      (by
        show 16 + add64 (add64 160 (mul64 (((ceilDiv n 524288) + (ceilDiv n 8192)) % 2 ^ 32) 288)) (mul64 (add64 (add64 (i % (128 * 64) / 128) (mul64 (i % (128 * 64 * 64) / (128 * 64)) 64)) (mul64 (mul64 (i / (128 * 64 * 64)) 64) 64)) 288) = ((176 + ceilDiv n 524288 * 288) + ceilDiv n 8192 * 288) + (i / 128) * 288
        arith64)
      (show _ = i / 128 * 128 by omega) (by omega) a4]
  obtain ⟨z1, hz1⟩ : ∃ z, z = i / 524288 * 524288 := ⟨_, rfl⟩
  obtain ⟨z2, hz2⟩ : ∃ z, z = i / 8192 * 8192 := ⟨_, rfl⟩
  obtain ⟨z3, hz3⟩ : ∃ z, z = i / 128 * 128 := ⟨_, rfl⟩
  rw [← hz1, ← hz2, ← hz3]
  have m1 := psum_mono A (show z1 ≤ z2 by omega)
  have m2 := psum_mono A (show z2 ≤ z3 by omega)
  have m3 := psum_mono A (show z3 ≤ (i + 1) by omega)
  simp only [ok_bind, h0, Nat.sub_zero]
  clear h0
  congr 1
  arith64

theorem avx2Update4_ok (h : TreeInv avx2Node128 (avx2Cs 4) M A n t) (hM : M ≤ 512)
    (ha : TreeAlign b t.mem.addr n avx2Node128 (avx2Cs 4))
    (hu : b.strictAlign = true → b.simd2 = true → (t.mem.addr + 4 * 4) % 32 = 0)
    {i : Nat} {sign : Bool} (hi : i < n)
    (hp : sign = true → 1 ≤ A i) (hq : sign = false → A i + 1 ≤ M) :
    ∃ t', avx2Update4 b t i sign = ok t' ∧ t'.mem.addr = t.mem.addr ∧
      TreeInv avx2Node128 (avx2Cs 4) M (updA A i sign) n t' := by
  have hsp : n ≤ 16777216 := h.nspan
  have hpos := h.npos
  have hnle := h.nle
  obtain ⟨l1, l2, l3, l4⟩ := (avx2_lvl4 hsp hpos).1 h.lvl
  obtain ⟨a1, a2, a3, a4⟩ := avx2_al4 hsp hpos ha
  have n1 : t.nn b 1 = ok (ceilDiv n 524288) := by
    rw [Tree.nn_ok h.num (by rw [h.msize]; show 1 * 4 + 4 ≤ 16 + _; omega) ha.hdr,
      h.hdr 1 _ rfl]
    rfl
  have n2 : t.nn b 2 = ok (ceilDiv n 8192) := by
    rw [Tree.nn_ok h.num (by rw [h.msize]; show 2 * 4 + 4 ≤ 16 + _; omega) ha.hdr,
      h.hdr 2 _ rfl]
    rfl
  have hN1 : ceilDiv n 524288 ≤ 32 := by
    show (n + 524288 - 1) / 524288 ≤ 32
    omega
  have hN2 : ceilDiv n 8192 ≤ 2048 := by
    show (n + 8192 - 1) / 8192 ≤ 2048
    omega
  have hc : ceilDiv n 16777216 = 1 := by
    show (n + 16777216 - 1) / 16777216 = 1
    omega
  unfold avx2Update4
  rw [Tree.base_ok h.ptr]
  simp only [ok_bind, n1, n2]
  rw [show 4 * ((avx2Cs 4).length + 1) = 16 from rfl]
  obtain ⟨m1, e1, u1, s1⟩ := inner_update' (b := b) (idx := 0)
    (o := 16) (i := i)
    (child := i / (128 * 64 * 64)) (k := add64 (i / (128 * 64 * 64)) 1) (sign := sign) (lo := 0) avx2Node32_wf rfl h.le
    (avx2_fits4.mono hM) l1 (by omega)
    (show 0 * (32 * 524288) < n by omega) (show i / (128 * 64 * 64) < 32 by omega)
    (by simp)
    (show _ = 0 * (32 * 524288) by omega) (by simp only [add64, W64]; omega) a1 (by omega) (by omega) hp
  replace s1 : SameOff _ m1 16 (16 + ceilDiv n 16777216 * 160) := s1
  rw [hc] at s1
  rw [e1]
  simp only [ok_bind]
  obtain ⟨m2, e2, u2, s2⟩ := inner_update' (b := b) (idx := i / 524288)
    (o := 16 + add64 avx2Node32.bytes (mul64 (i / (128 * 64 * 64)) avx2Node64.bytes)) (i := i)
    (child := i % (128 * 64 * 64) / (128 * 64)) (k := add64 (i % (128 * 64 * 64) / (128 * 64)) 1) (sign := sign) (lo := i / 524288 * 524288) avx2Node64_wf rfl h.le
    (avx2_fits3.mono hM) ((l2).frame avx2Node64_wf s1 (Or.inr (by omega))) (by omega)
    (show i / 524288 * (64 * 8192) < n by omega) (show i % (128 * 64 * 64) / (128 * 64) < 64 by omega)
    (by
        show 16 + add64 160 (mul64 (i / (128 * 64 * 64)) 288) = 176 + (i / 524288) * 288
        arith64)
    (show _ = i / 524288 * (64 * 8192) by omega) (by simp only [add64, W64]; omega) (by rw [s1.addr]; exact a2) (by omega) (by omega) hp
  replace s2 : SameOff _ m2 176 (176 + ceilDiv n 524288 * 288) := s2
  rw [e2]
  simp only [ok_bind]
  obtain ⟨m3, e3, u3, s3⟩ := inner_update' (b := b) (idx := i / 8192)
    (o := 16 + add64 (add64 avx2Node32.bytes (mul64 (ceilDiv n 524288) avx2Node64.bytes)) (mul64 (add64 (i % (128 * 64 * 64) / (128 * 64)) (mul64 (i / (128 * 64 * 64)) 64)) avx2Node64.bytes)) (i := i)
    (child := i % (128 * 64) / 128) (k := add64 (i % (128 * 64) / 128) 1) (sign := sign) (lo := i / 8192 * 8192) avx2Node64_wf rfl h.le
    (avx2_fits2.mono hM) ((((l3).frame avx2Node64_wf s1 (Or.inr (by omega)))).frame avx2Node64_wf s2 (Or.inr (by omega))) (by omega)
    (show i / 8192 * (64 * 128) < n by omega) (show i % (128 * 64) / 128 < 64 by omega)
    (by
        show 16 + add64 (add64 160 (mul64 (ceilDiv n 524288) 288)) (mul64 (add64 (i % (128 * 64 * 64) / (128 * 64)) (mul64 (i / (128 * 64 * 64)) 64)) 288) = (176 + ceilDiv n 524288 * 288) + (i / 8192) * 288
        arith64)
    (show _ = i / 8192 * (64 * 128) by omega) (by simp only [add64, W64]; omega) (by rw [s2.addr, s1.addr]; exact a3) (by omega) (by omega) hp
  replace s3 : SameOff _ m3 (176 + ceilDiv n 524288 * 288) ((176 + ceilDiv n 524288 * 288) + ceilDiv n 8192 * 288) := s3
  rw [e3]
  simp only [ok_bind]
  obtain ⟨m4, e4, u4, s4⟩ := leaf_update' (b := b) (idx := i / 128)
    (o := 16 + add64 (add64 avx2Node32.bytes (mul64 (((ceilDiv n 524288) + (ceilDiv n 8192)) % 2 ^ 32) avx2Node64.bytes)) (mul64 (add64 (add64 (i % (128 * 64) / 128) (mul64 (i % (128 * 64 * 64) / (128 * 64)) 64)) (mul64 (mul64 (i / (128 * 64 * 64)) 64) 64)) avx2Node128.bytes)) (i := i)
    (child := i % (128 * 64) % 128) (sign := sign) avx2Node128_wf
    (avx2_fits1.mono hM) ((((((l4).frame avx2Node128_wf s1 (Or.inr (by omega)))).frame avx2Node128_wf s2 (Or.inr (by omega)))).frame avx2Node128_wf s3 (Or.inr (by omega)))
    (show i % (128 * 64) % 128 < 128 by omega)
    (by
        show 16 + add64 (add64 160 (mul64 (((ceilDiv n 524288) + (ceilDiv n 8192)) % 2 ^ 32) 288)) (mul64 (add64 (add64 (i % (128 * 64) / 128) (mul64 (i % (128 * 64 * 64) / (128 * 64)) 64)) (mul64 (mul64 (i / (128 * 64 * 64)) 64) 64)) 288) = ((176 + ceilDiv n 524288 * 288) + ceilDiv n 8192 * 288) + (i / 128) * 288
        arith64)
    (by rw [s3.addr, s2.addr, s1.addr]; exact a4) (fun hs _ h2 => by
      have := hu hs h2
      rw [s3.addr, s2.addr, s1.addr]
      show (t.mem.addr + (176 + ceilDiv n 524288 * 288 + ceilDiv n 8192 * 288 + i / 128 * 288)) % 32 = 0
      omega) (show i = i / 128 * 128 + i % (128 * 64) % 128 by omega) hi hp hq
  replace s4 : SameOff _ m4 ((176 + ceilDiv n 524288 * 288) + ceilDiv n 8192 * 288) (((176 + ceilDiv n 524288 * 288) + ceilDiv n 8192 * 288) + ceilDiv n 128 * 288) := s4
  rw [e4]
  simp only [ok_bind]
  refine ⟨_, rfl, ?_, h.size, h.num, h.ptr, h.npos, h.nspan, h.nle,
    updA_le h.le hq, updA_zero h.zero hi, ?_, ?_, ?_⟩
  · show m4.addr = _
    rw [s4.addr, s3.addr, s2.addr, s1.addr]
  · show m4.size = _
    rw [s4.size, s3.size, s2.size, s1.size]; exact h.msize
  · intro l k hk
    have hl' : l < 4 := (List.getElem?_eq_some_iff.1 hk).1
    show rd m4 _ _ = _
    rw [s4.rd (by omega), s3.rd (by omega), s2.rd (by omega), s1.rd (by omega)]
    exact h.hdr l k hk
  · exact (avx2_lvl4 hsp hpos).2 ⟨((((((u1).frame avx2Node32_wf s2 (Or.inl (by show _ + ceilDiv n 16777216 * 160 ≤ _; omega)))).frame avx2Node32_wf s3 (Or.inl (by show _ + ceilDiv n 16777216 * 160 ≤ _; omega)))).frame avx2Node32_wf s4 (Or.inl (by show _ + ceilDiv n 16777216 * 160 ≤ _; omega))), ((((u2).frame avx2Node64_wf s3 (Or.inl (by show _ + ceilDiv n 524288 * 288 ≤ _; omega)))).frame avx2Node64_wf s4 (Or.inl (by show _ + ceilDiv n 524288 * 288 ≤ _; omega))), ((u3).frame avx2Node64_wf s4 (Or.inl (by show _ + ceilDiv n 8192 * 288 ≤ _; omega))), u4⟩

theorem avx2Search4_ok (h : TreeInv avx2Node128 (avx2Cs 4) M A n t) (hM : M ≤ 512)
    (ha : TreeAlign b t.mem.addr n avx2Node128 (avx2Cs 4)) {x : Nat} (hx : x < psum A n)
    (hsimd : b.simd2 = true → SimdOK avx2Node32 (innerS A 0 524288) x) :
    ∃ r, avx2Search4 b t x = ok r ∧ Searched A n x r := by
  have hsp : n ≤ 16777216 := h.nspan
  have hpos := h.npos
  have hnle := h.nle
  obtain ⟨l1, l2, l3, l4⟩ := (avx2_lvl4 hsp hpos).1 h.lvl
  obtain ⟨a1, a2, a3, a4⟩ := avx2_al4 hsp hpos ha
  have n1 : t.nn b 1 = ok (ceilDiv n 524288) := by
    rw [Tree.nn_ok h.num (by rw [h.msize]; show 1 * 4 + 4 ≤ 16 + _; omega) ha.hdr,
      h.hdr 1 _ rfl]
    rfl
  have n2 : t.nn b 2 = ok (ceilDiv n 8192) := by
    rw [Tree.nn_ok h.num (by rw [h.msize]; show 2 * 4 + 4 ≤ 16 + _; omega) ha.hdr,
      h.hdr 2 _ rfl]
    rfl
  have hN1 : ceilDiv n 524288 ≤ 32 := by
    show (n + 524288 - 1) / 524288 ≤ 32
    omega
  have hN2 : ceilDiv n 8192 ≤ 2048 := by
    show (n + 8192 - 1) / 8192 ≤ 2048
    omega
  have hbig := psum_total_lt h.le hM h.nle n h.zero
  have h0 : psum A 0 = 0 := psum_zero A
  obtain ⟨lo0, hlo0⟩ : ∃ z, z = 0 := ⟨_, rfl⟩
  obtain ⟨hi0, hhi0⟩ : ∃ z, z = lo0 + 16777216 := ⟨_, rfl⟩
  have hz0 : psum A lo0 = 0 := by rw [hlo0]; exact h0
  have hx0 : x < psum A hi0 - psum A lo0 := by
    rw [psum_beyond h.zero (show n ≤ hi0 by omega)]; omega
  clear h0
  unfold avx2Search4
  rw [Tree.base_ok h.ptr]
  simp only [ok_bind, n1, n2]
  rw [show 4 * ((avx2Cs 4).length + 1) = 16 from rfl]
  obtain ⟨p1, lo1, hi1, e1, b1, hlo1, hhi1, c1, d1⟩ := inner_search' (b := b) (idx := 0)
    (o := 16) (x := x) (lo := lo0)
    avx2Node32_wf h.le (avx2_fits4.mono hM) (by decide) l1 (by omega) (by simp only [Nat.zero_mul]; exact hpos)
    (by simp)
    (show _ = (0) * (32 * 524288) by omega) a1 (by simp only [W64]; omega) (by rw [show avx2Node32.fanout * 524288 = 16777216 by decide]; omega) hx0
    (by rw [hlo0]; exact hsimd)
  replace b1 : p1 < 32 := b1
  rw [e1]
  simp only [ok_bind]
  have i1 : sub64 (p1 + 1) 1 = p1 := by
    simp only [sub64, W64]; omega
  have hb1 := psum_total_lt h.le hM h.nle hi1 h.zero
  have hk1 := psum_mono A (show lo0 ≤ lo1 by omega)
  have hm1 := psum_mono A (show lo1 ≤ hi1 by omega)
  have hlt1 := psum_lt_idx h.zero (show psum A lo1 < psum A hi1 by omega)
  have hxe1 : sub64 (x) (psum A lo1 - psum A lo0) = x - psum A lo1 := by
    rw [sub64_eq c1 (by simp only [W64]; omega)]; omega
  simp only [i1, hxe1]
  have hx1 : x - psum A lo1 < psum A hi1 - psum A lo1 := by omega
  obtain ⟨p2, lo2, hi2, e2, b2, hlo2, hhi2, c2, d2⟩ := inner_search' (b := b) (idx := p1)
    (o := 16 + add64 avx2Node32.bytes (mul64 p1 avx2Node64.bytes)) (x := x - psum A lo1) (lo := lo1)
    avx2Node64_wf h.le (avx2_fits3.mono hM) (by decide) l2 (by omega) (show (p1) * (64 * 8192) < n by omega)
    (by
        show 16 + add64 160 (mul64 p1 288) = 176 + (p1) * 288
        arith64)
    (show _ = (p1) * (64 * 8192) by omega) a2 (by simp only [W64]; omega) (by rw [show avx2Node64.fanout * 8192 = 524288 by decide]; omega) hx1
    (fun _ => inner_simd' avx2Node64_wf h.le (avx2_simd3.mono hM) (by rw [show avx2Node64.fanout * 8192 = 524288 by decide]; omega) hx1)
  replace b2 : p2 < 64 := b2
  rw [e2]
  simp only [ok_bind]
  have i2 : sub64 (p2 + 1) 1 = p2 := by
    simp only [sub64, W64]; omega
  have hb2 := psum_total_lt h.le hM h.nle hi2 h.zero
  have hk2 := psum_mono A (show lo1 ≤ lo2 by omega)
  have hm2 := psum_mono A (show lo2 ≤ hi2 by omega)
  have hlt2 := psum_lt_idx h.zero (show psum A lo2 < psum A hi2 by omega)
  have hxe2 : sub64 (x - psum A lo1) (psum A lo2 - psum A lo1) = x - psum A lo2 := by
    rw [sub64_eq c2 (by simp only [W64]; omega)]; omega
  simp only [i2, hxe2]
  have hx2 : x - psum A lo2 < psum A hi2 - psum A lo2 := by omega
  obtain ⟨p3, lo3, hi3, e3, b3, hlo3, hhi3, c3, d3⟩ := inner_search' (b := b) (idx := (p1) * 64 + p2)
    (o := 16 + add64 (add64 avx2Node32.bytes (mul64 (ceilDiv n 524288) avx2Node64.bytes)) (mul64 (add64 p2 (mul64 p1 64)) avx2Node64.bytes)) (x := x - psum A lo2) (lo := lo2)
    avx2Node64_wf h.le (avx2_fits2.mono hM) (by decide) l3 (by omega) (show ((p1) * 64 + p2) * (64 * 128) < n by omega)
    (by
        show 16 + add64 (add64 160 (mul64 (ceilDiv n 524288) 288)) (mul64 (add64 p2 (mul64 p1 64)) 288) = (176 + ceilDiv n 524288 * 288) + ((p1) * 64 + p2) * 288
        arith64)
    (show _ = ((p1) * 64 + p2) * (64 * 128) by omega) a3 (by simp only [W64]; omega) (by rw [show avx2Node64.fanout * 128 = 8192 by decide]; omega) hx2
    (fun _ => inner_simd' avx2Node64_wf h.le (avx2_simd2.mono hM) (by rw [show avx2Node64.fanout * 128 = 8192 by decide]; omega) hx2)
  replace b3 : p3 < 64 := b3
  rw [e3]
  simp only [ok_bind]
  have i3 : sub64 (p3 + 1) 1 = p3 := by
    simp only [sub64, W64]; omega
  have hb3 := psum_total_lt h.le hM h.nle hi3 h.zero
  have hk3 := psum_mono A (show lo2 ≤ lo3 by omega)
  have hm3 := psum_mono A (show lo3 ≤ hi3 by omega)
  have hlt3 := psum_lt_idx h.zero (show psum A lo3 < psum A hi3 by omega)
  have hxe3 : sub64 (x - psum A lo2) (psum A lo3 - psum A lo2) = x - psum A lo3 := by
    rw [sub64_eq c3 (by simp only [W64]; omega)]; omega
  simp only [i3, hxe3]
  have hx3 : x - psum A lo3 < psum A hi3 - psum A lo3 := by omega
  obtain ⟨p4, lo4, e4, b4, hlo4, f4, c4, d4⟩ := leaf_search' (b := b) (idx := ((p1) * 64 + p2) * 64 + p3)
    (o := 16 + add64 (add64 avx2Node32.bytes (mul64 (((ceilDiv n 524288) + (ceilDiv n 8192)) % 2 ^ 32) avx2Node64.bytes)) (mul64 (add64 (add64 p3 (mul64 p2 64)) (mul64 (mul64 p1 64) 64)) avx2Node128.bytes)) (x := x - psum A lo3) (lo := lo3)
    avx2Node128_wf (avx2_fits1.mono hM) (avx2_simd1.mono hM) h.zero l4 (show (((p1) * 64 + p2) * 64 + p3) * 128 < n by omega)
    (by
        show 16 + add64 (add64 160 (mul64 (((ceilDiv n 524288) + (ceilDiv n 8192)) % 2 ^ 32) 288)) (mul64 (add64 (add64 p3 (mul64 p2 64)) (mul64 (mul64 p1 64) 64)) 288) = ((176 + ceilDiv n 524288 * 288) + ceilDiv n 8192 * 288) + (((p1) * 64 + p2) * 64 + p3) * 288
        arith64)
    (show _ = (((p1) * 64 + p2) * 64 + p3) * 128 by omega) a4 (by simp only [W64]; omega) (show _ = _ + 128 from hhi3) hx3
  replace b4 : p4 < 128 := b4
  rw [e4]
  have hm := psum_mono A (show lo3 ≤ lo4 by omega)
  have hb := psum_total_lt h.le hM h.nle lo4 h.zero
  have r1 : add64 (add64 (add64 (mul64 (mul64 (mul64 p1 128) 64) 64) (mul64 (mul64 p2 128) 64)) (mul64 p3 128)) p4 = lo4 := by
    arith64
  have r2 : add64 (add64 (add64 (psum A lo1 - psum A lo0) (psum A lo2 - psum A lo1)) (psum A lo3 - psum A lo2)) (psum A lo4 - psum A lo3) = psum A lo4 := by
    arith64
  simp only [ok_bind, r1, r2]
  exact ⟨_, rfl, f4, rfl, by show psum A lo4 ≤ x; omega, by
    show x < psum A (lo4 + 1)
    omega⟩

end

end MRS
