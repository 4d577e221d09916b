import Verif.Proofs.TreeInv

/-! # The avx512 segment tree: sum, update, search for every height -/

set_option autoImplicit false
set_option linter.unusedVariables false
set_option linter.unusedSimpArgs false
set_option maxRecDepth 4000

namespace MRS
open Outcome Spec

attribute [local irreducible] psum

/-- Inner classes of `avx512::segment_tree<H>`, root first. -/
def avx512Cs : Nat → List NodeCfg
  | 1 => []
  | 2 => [avx512Node256]
  | _ => [avx512Node128, avx512Node256]

theorem avx512_fits1 : LevelFits 512 avx512Node512 1 := ⟨by decide, by decide⟩
theorem avx512_fits2 : LevelFits 512 avx512Node256 512 := ⟨by decide, by decide⟩
theorem avx512_fits3 : LevelFits 512 avx512Node128 131072 := ⟨by decide, by decide⟩
theorem avx512_simd1 : LevelSimd 512 avx512Node512 1 := ⟨by decide, by decide⟩
theorem avx512_simd2 : LevelSimd 512 avx512Node256 512 := ⟨by decide, by decide⟩
theorem avx512_simd3 : LevelSimd 512 avx512Node128 131072 := ⟨by decide, by decide⟩

section
variable {b : Build} {M n : Nat} {A : Nat → Nat} {t : Tree}

/-! ### Height 1 -/

theorem avx512_lvl1 {m : Mem} (hsp : n ≤ 512) (hpos : 0 < n) :
    LvlRep M A n m avx512Node512 4 (avx512Cs 1) ↔
      LeafLvl M A n m avx512Node512 4 := by
  have hc : ceilDiv n 512 = 1 := by
    show (n + 512 - 1) / 512 = 1
    omega
  have e : LvlRep M A n m avx512Node512 4 (avx512Cs 1) ↔ LeafLvl M A n m avx512Node512 4 := Iff.rfl
  rw [e]

theorem avx512_al1 {addr : Nat} (hsp : n ≤ 512) (hpos : 0 < n)
    (h : TreeAlign b addr n avx512Node512 (avx512Cs 1)) :
    (∀ idx, idx < ceilDiv n 512 → AlignOK b avx512Node512 addr (4 + idx * 1088)) := by
  have h1 : (∀ idx, idx < ceilDiv n 512 → AlignOK b avx512Node512 addr (4 + idx * 1088)) := h.lvl
  exact h1

theorem avx512Sum1_ok (h : TreeInv avx512Node512 (avx512Cs 1) M A n t) (hM : M ≤ 512)
    (ha : TreeAlign b t.mem.addr n avx512Node512 (avx512Cs 1)) {i : Nat} (hi : i < n) :
    avx512Sum1 b t i = ok (psum A (i + 1)) := by
  have hsp : n ≤ 512 := h.nspan
  have hpos := h.npos
  have hnle := h.nle
  obtain l1 := (avx512_lvl1 hsp hpos).1 h.lvl
  obtain a1 := avx512_al1 hsp hpos ha
  have hbig := psum_total_lt h.le hM h.nle (i + 1) h.zero
  have h0 : psum A 0 = 0 := psum_zero A
  unfold avx512Sum1
  rw [Tree.base_ok h.ptr]
  simp only [ok_bind]
  rw [show 4 * ((avx512Cs 1).length + 1) = 4 from rfl]
  rw [leaf_sum' (idx := 0) (child := i) (lo := 0) (hi := i + 1) avx512Node512_wf (avx512_fits1.mono hM)
      l1 (show i < 512 by omega) (show 0 * 512 + i < n by omega)
      (by simp)
      (show _ = 0 * 512 by omega) (by omega) a1]
  simp only [ok_bind, h0, Nat.sub_zero]

theorem avx512Update1_ok (h : TreeInv avx512Node512 (avx512Cs 1) M A n t) (hM : M ≤ 512)
    (ha : TreeAlign b t.mem.addr n avx512Node512 (avx512Cs 1)) {i : Nat} {sign : Bool} (hi : i < n)
    (hp : sign = true → 1 ≤ A i) (hq : sign = false → A i + 1 ≤ M) :
    ∃ t', avx512Update1 b t i sign = ok t' ∧ t'.mem.addr = t.mem.addr ∧
      TreeInv avx512Node512 (avx512Cs 1) M (updA A i sign) n t' := by
  have hsp : n ≤ 512 := h.nspan
  have hpos := h.npos
  have hnle := h.nle
  obtain l1 := (avx512_lvl1 hsp hpos).1 h.lvl
  obtain a1 := avx512_al1 hsp hpos ha
  unfold avx512Update1
  rw [Tree.base_ok h.ptr]
  simp only [ok_bind]
  rw [show 4 * ((avx512Cs 1).length + 1) = 4 from rfl]
  obtain ⟨m1, e1, u1, s1⟩ := leaf_update' (b := b) (idx := 0)
    (o := 4) (i := i)
    (child := i) (sign := sign) avx512Node512_wf
    (avx512_fits1.mono hM) l1
    (show i < 512 by omega)
    (by simp)
    a1 (.of_unaligned rfl _ _) (show i = 0 * 512 + i by omega) hi hp hq
  replace s1 : SameOff _ m1 4 (4 + ceilDiv n 512 * 1088) := s1
  rw [e1]
  simp only [ok_bind]
  refine ⟨_, rfl, ?_, h.size, h.num, h.ptr, h.npos, h.nspan, h.nle,
    updA_le h.le hq, updA_zero h.zero hi, ?_, ?_, ?_⟩
  · show m1.addr = _
    rw [s1.addr]
  · show m1.size = _
    rw [s1.size]; exact h.msize
  · intro l k hk
    have hl' : l < 1 := (List.getElem?_eq_some_iff.1 hk).1
    show rd m1 _ _ = _
    rw [s1.rd (by omega)]
    exact h.hdr l k hk
  · exact (avx512_lvl1 hsp hpos).2 u1

theorem avx512Search1_ok (h : TreeInv avx512Node512 (avx512Cs 1) M A n t) (hM : M ≤ 512)
    (ha : TreeAlign b t.mem.addr n avx512Node512 (avx512Cs 1)) {x : Nat} (hx : x < psum A n) :
    ∃ r, avx512Search1 b t x = ok r ∧ Searched A n x r := by
  have hsp : n ≤ 512 := h.nspan
  have hpos := h.npos
  have hnle := h.nle
  obtain l1 := (avx512_lvl1 hsp hpos).1 h.lvl
  obtain a1 := avx512_al1 hsp hpos ha
  have hbig := psum_total_lt h.le hM h.nle n h.zero
  have h0 : psum A 0 = 0 := psum_zero A
  obtain ⟨lo0, hlo0⟩ : ∃ z, z = 0 := ⟨_, rfl⟩
  obtain ⟨hi0, hhi0⟩ : ∃ z, z = lo0 + 512 := ⟨_, rfl⟩
  have hz0 : psum A lo0 = 0 := by rw [hlo0]; exact h0
  have hx0 : x < psum A hi0 - psum A lo0 := by
    rw [psum_beyond h.zero (show n ≤ hi0 by omega)]; omega
  clear h0
  unfold avx512Search1
  rw [Tree.base_ok h.ptr]
  simp only [ok_bind]
  rw [show 4 * ((avx512Cs 1).length + 1) = 4 from rfl]
  obtain ⟨p1, lo1, e1, b1, hlo1, f1, c1, d1⟩ := leaf_search' (b := b) (idx := 0)
    (o := 4) (x := x) (lo := lo0)
    avx512Node512_wf (avx512_fits1.mono hM) (avx512_simd1.mono hM) h.zero l1 (show (0) * 512 < n by omega)
    (by simp)
    (show _ = (0) * 512 by omega) a1 (by simp only [W64]; omega) (show _ = _ + 512 from hhi0) hx0
  replace b1 : p1 < 512 := b1
  rw [e1]
  simp only [hz0, Nat.sub_zero] at c1 d1 ⊢
  exact ⟨_, rfl, by show p1 < n; omega, by show _ = psum A p1; rw [hlo1, hlo0, Nat.zero_add],
    by show psum A p1 ≤ x; rw [hlo1, hlo0, Nat.zero_add] at c1; exact c1,
    by show x < psum A (p1 + 1); rw [hlo1, hlo0, Nat.zero_add] at d1; exact d1⟩

/-! ### Height 2 -/

theorem avx512_lvl2 {m : Mem} (hsp : n ≤ 131072) (hpos : 0 < n) :
    LvlRep M A n m avx512Node512 8 (avx512Cs 2) ↔
      InnerLvl A n m avx512Node256 512 8 ∧
      LeafLvl M A n m avx512Node512 1096 := by
  have hc : ceilDiv n 131072 = 1 := by
    show (n + 131072 - 1) / 131072 = 1
    omega
  have e : LvlRep M A n m avx512Node512 8 (avx512Cs 2) ↔ InnerLvl A n m avx512Node256 512 8 ∧ LeafLvl M A n m avx512Node512 (8 + ceilDiv n 131072 * 1088) := Iff.rfl
  rw [e]
  rw [hc]

theorem avx512_al2 {addr : Nat} (hsp : n ≤ 131072) (hpos : 0 < n)
    (h : TreeAlign b addr n avx512Node512 (avx512Cs 2)) :
    (∀ idx, idx < ceilDiv n 131072 → AlignOK b avx512Node256 addr (8 + idx * 1088)) ∧
    (∀ idx, idx < ceilDiv n 512 → AlignOK b avx512Node512 addr (1096 + idx * 1088)) := by
  have h1 : (∀ idx, idx < ceilDiv n 131072 → AlignOK b avx512Node256 addr (8 + idx * 1088)) ∧ (∀ idx, idx < ceilDiv n 512 → AlignOK b avx512Node512 addr ((8 + ceilDiv n 131072 * 1088) + idx * 1088)) := h.lvl
  have hc : ceilDiv n 131072 = 1 := by
    show (n + 131072 - 1) / 131072 = 1
    omega
  rw [hc] at h1 ⊢
  exact h1

theorem avx512Sum2_ok (h : TreeInv avx512Node512 (avx512Cs 2) M A n t) (hM : M ≤ 512)
    (ha : TreeAlign b t.mem.addr n avx512Node512 (avx512Cs 2)) {i : Nat} (hi : i < n) :
    avx512Sum2 b t i = ok (psum A (i + 1)) := by
  have hsp : n ≤ 131072 := h.nspan
  have hpos := h.npos
  have hnle := h.nle
  obtain ⟨l1, l2⟩ := (avx512_lvl2 hsp hpos).1 h.lvl
  obtain ⟨a1, a2⟩ := avx512_al2 hsp hpos ha
  have hbig := psum_total_lt h.le hM h.nle (i + 1) h.zero
  have h0 : psum A 0 = 0 := psum_zero A
  unfold avx512Sum2
  rw [Tree.base_ok h.ptr]
  simp only [ok_bind]
  rw [show 4 * ((avx512Cs 2).length + 1) = 8 from rfl]
  rw [inner_sum' (idx := 0) (child := i / 512) (lo := 0) (hi := i / 512 * 512) avx512Node256_wf h.le (avx512_fits2.mono hM) l1
      (by omega) (show 0 * (256 * 512) < n by omega) (show i / 512 < 256 by omega)
      (by simp)
      (show _ = 0 * (256 * 512) by omega) (by omega) a1]
  rw [leaf_sum' (idx := i / 512) (child := i % 512) (lo := i / 512 * 512) (hi := i + 1) avx512Node512_wf (avx512_fits1.mono hM)
      l2 (show i % 512 < 512 by omega) (show i / 512 * 512 + i % 512 < n by omega)
      (by
        show 8 + add64 1088 (mul64 (i / 512) 1088) = 1096 + (i / 512) * 1088
        arith64)
      (show _ = i / 512 * 512 by omega) (by omega) a2]
  obtain ⟨z1, hz1⟩ : ∃ z, z = i / 512 * 512 := ⟨_, rfl⟩
  rw [← hz1]
  have m1 := psum_mono A (show z1 ≤ (i + 1) by omega)
  simp only [ok_bind, h0, Nat.sub_zero]
  clear h0
  congr 1
  arith64

theorem avx512Update2_ok (h : TreeInv avx512Node512 (avx512Cs 2) M A n t) (hM : M ≤ 512)
    (ha : TreeAlign b t.mem.addr n avx512Node512 (avx512Cs 2)) {i : Nat} {sign : Bool} (hi : i < n)
    (hp : sign = true → 1 ≤ A i) (hq : sign = false → A i + 1 ≤ M) :
    ∃ t', avx512Update2 b t i sign = ok t' ∧ t'.mem.addr = t.mem.addr ∧
      TreeInv avx512Node512 (avx512Cs 2) M (updA A i sign) n t' := by
  have hsp : n ≤ 131072 := h.nspan
  have hpos := h.npos
  have hnle := h.nle
  obtain ⟨l1, l2⟩ := (avx512_lvl2 hsp hpos).1 h.lvl
  obtain ⟨a1, a2⟩ := avx512_al2 hsp hpos ha
  have hc : ceilDiv n 131072 = 1 := by
    show (n + 131072 - 1) / 131072 = 1
    omega
  unfold avx512Update2
  rw [Tree.base_ok h.ptr]
  simp only [ok_bind]
  rw [show 4 * ((avx512Cs 2).length + 1) = 8 from rfl]
  obtain ⟨m1, e1, u1, s1⟩ := inner_update' (b := b) (idx := 0)
    (o := 8) (i := i)
    (child := i / 512) (k := add64 (i / 512) 1) (sign := sign) (lo := 0) avx512Node256_wf rfl h.le
    (avx512_fits2.mono hM) l1 (by omega)
    (show 0 * (256 * 512) < n by omega) (show i / 512 < 256 by omega)
    (by simp)
    (show _ = 0 * (256 * 512) by omega) (by simp only [add64, W64]; omega) a1 (by omega) (by omega) hp
  replace s1 : SameOff _ m1 8 (8 + ceilDiv n 131072 * 1088) := s1
  rw [hc] at s1
  rw [e1]
  simp only [ok_bind]
  obtain ⟨m2, e2, u2, s2⟩ := leaf_update' (b := b) (idx := i / 512)
    (o := 8 + add64 avx512Node256.bytes (mul64 (i / 512) avx512Node512.bytes)) (i := i)
    (child := i % 512) (sign := sign) avx512Node512_wf
    (avx512_fits1.mono hM) ((l2).frame avx512Node512_wf s1 (Or.inr (by omega)))
    (show i % 512 < 512 by omega)
    (by
        show 8 + add64 1088 (mul64 (i / 512) 1088) = 1096 + (i / 512) * 1088
        arith64)
    (by rw [s1.addr]; exact a2) (.of_unaligned rfl _ _) (show i = i / 512 * 512 + i % 512 by omega) hi hp hq
  replace s2 : SameOff _ m2 1096 (1096 + ceilDiv n 512 * 1088) := s2
  rw [e2]
  simp only [ok_bind]
  refine ⟨_, rfl, ?_, h.size, h.num, h.ptr, h.npos, h.nspan, h.nle,
    updA_le h.le hq, updA_zero h.zero hi, ?_, ?_, ?_⟩
  · show m2.addr = _
    rw [s2.addr, s1.addr]
  · show m2.size = _
    rw [s2.size, s1.size]; exact h.msize
  · intro l k hk
    have hl' : l < 2 := (List.getElem?_eq_some_iff.1 hk).1
    show rd m2 _ _ = _
    rw [s2.rd (by omega), s1.rd (by omega)]
    exact h.hdr l k hk
  · exact (avx512_lvl2 hsp hpos).2 ⟨((u1).frame avx512Node256_wf s2 (Or.inl (by show _ + ceilDiv n 131072 * 1088 ≤ _; omega))), u2⟩

theorem avx512Search2_ok (h : TreeInv avx512Node512 (avx512Cs 2) M A n t) (hM : M ≤ 512)
    (ha : TreeAlign b t.mem.addr n avx512Node512 (avx512Cs 2)) {x : Nat} (hx : x < psum A n) :
    ∃ r, avx512Search2 b t x = ok r ∧ Searched A n x r := by
  have hsp : n ≤ 131072 := h.nspan
  have hpos := h.npos
  have hnle := h.nle
  obtain ⟨l1, l2⟩ := (avx512_lvl2 hsp hpos).1 h.lvl
  obtain ⟨a1, a2⟩ := avx512_al2 hsp hpos ha
  have hbig := psum_total_lt h.le hM h.nle n h.zero
  have h0 : psum A 0 = 0 := psum_zero A
  obtain ⟨lo0, hlo0⟩ : ∃ z, z = 0 := ⟨_, rfl⟩
  obtain ⟨hi0, hhi0⟩ : ∃ z, z = lo0 + 131072 := ⟨_, rfl⟩
  have hz0 : psum A lo0 = 0 := by rw [hlo0]; exact h0
  have hx0 : x < psum A hi0 - psum A lo0 := by
    rw [psum_beyond h.zero (show n ≤ hi0 by omega)]; omega
  clear h0
  unfold avx512Search2
  rw [Tree.base_ok h.ptr]
  simp only [ok_bind]
  rw [show 4 * ((avx512Cs 2).length + 1) = 8 from rfl]
  obtain ⟨p1, lo1, hi1, e1, b1, hlo1, hhi1, c1, d1⟩ := inner_search' (b := b) (idx := 0)
    (o := 8) (x := x) (lo := lo0)
    avx512Node256_wf h.le (avx512_fits2.mono hM) (by decide) l1 (by omega) (by simp only [Nat.zero_mul]; exact hpos)
    (by simp)
    (show _ = (0) * (256 * 512) by omega) a1 (by simp only [W64]; omega) (by rw [show avx512Node256.fanout * 512 = 131072 by decide]; omega) hx0
    (fun _ => inner_simd' avx512Node256_wf h.le (avx512_simd2.mono hM) (by rw [show avx512Node256.fanout * 512 = 131072 by decide]; omega) hx0)
  replace b1 : p1 < 256 := b1
  rw [e1]
  simp only [ok_bind]
  have i1 : sub64 (p1 + 1) 1 = p1 := by
    simp only [sub64, W64]; omega
  have hb1 := psum_total_lt h.le hM h.nle hi1 h.zero
  have hk1 := psum_mono A (show lo0 ≤ lo1 by omega)
  have hm1 := psum_mono A (show lo1 ≤ hi1 by omega)
  have hlt1 := psum_lt_idx h.zero (show psum A lo1 < psum A hi1 by omega)
  have hxe1 : sub64 (x) (psum A lo1 - psum A lo0) = x - psum A lo1 := by
    rw [sub64_eq c1 (by simp only [W64]; omega)]; omega
  simp only [i1, hxe1]
  have hx1 : x - psum A lo1 < psum A hi1 - psum A lo1 := by omega
  obtain ⟨p2, lo2, e2, b2, hlo2, f2, c2, d2⟩ := leaf_search' (b := b) (idx := p1)
    (o := 8 + add64 avx512Node256.bytes (mul64 p1 avx512Node512.bytes)) (x := x - psum A lo1) (lo := lo1)
    avx512Node512_wf (avx512_fits1.mono hM) (avx512_simd1.mono hM) h.zero l2 (show (p1) * 512 < n by omega)
    (by
        show 8 + add64 1088 (mul64 p1 1088) = 1096 + (p1) * 1088
        arith64)
    (show _ = (p1) * 512 by omega) a2 (by simp only [W64]; omega) (show _ = _ + 512 from hhi1) hx1
  replace b2 : p2 < 512 := b2
  rw [e2]
  have hm := psum_mono A (show lo1 ≤ lo2 by omega)
  have hb := psum_total_lt h.le hM h.nle lo2 h.zero
  have r1 : add64 (mul64 p1 512) p2 = lo2 := by
    arith64
  have r2 : add64 (psum A lo1 - psum A lo0) (psum A lo2 - psum A lo1) = psum A lo2 := by
    arith64
  simp only [ok_bind, r1, r2]
  exact ⟨_, rfl, f2, rfl, by show psum A lo2 ≤ x; omega, by
    show x < psum A (lo2 + 1)
    omega⟩

/-! ### Height 3 -/

theorem avx512_lvl3 {m : Mem} (hsp : n ≤ 16777216) (hpos : 0 < n) :
    LvlRep M A n m avx512Node512 12 (avx512Cs 3) ↔
      InnerLvl A n m avx512Node128 131072 12 ∧
      InnerLvl A n m avx512Node256 512 588 ∧
      LeafLvl M A n m avx512Node512 (588 + ceilDiv n 131072 * 1088) := by
  have hc : ceilDiv n 16777216 = 1 := by
    show (n + 16777216 - 1) / 16777216 = 1
    omega
  have e : LvlRep M A n m avx512Node512 12 (avx512Cs 3) ↔ InnerLvl A n m avx512Node128 131072 12 ∧ InnerLvl A n m avx512Node256 512 (12 + ceilDiv n 16777216 * 576) ∧ LeafLvl M A n m avx512Node512 ((12 + ceilDiv n 16777216 * 576) + ceilDiv n 131072 * 1088) := Iff.rfl
  rw [e]
  rw [hc]

theorem avx512_al3 {addr : Nat} (hsp : n ≤ 16777216) (hpos : 0 < n)
    (h : TreeAlign b addr n avx512Node512 (avx512Cs 3)) :
    (∀ idx, idx < ceilDiv n 16777216 → AlignOK b avx512Node128 addr (12 + idx * 576)) ∧
    (∀ idx, idx < ceilDiv n 131072 → AlignOK b avx512Node256 addr (588 + idx * 1088)) ∧
    (∀ idx, idx < ceilDiv n 512 → AlignOK b avx512Node512 addr ((588 + ceilDiv n 131072 * 1088) + idx * 1088)) := by
  have h1 : (∀ idx, idx < ceilDiv n 16777216 → AlignOK b avx512Node128 addr (12 + idx * 576)) ∧ (∀ idx, idx < ceilDiv n 131072 → AlignOK b avx512Node256 addr ((12 + ceilDiv n 16777216 * 576) + idx * 1088)) ∧ (∀ idx, idx < ceilDiv n 512 → AlignOK b avx512Node512 addr (((12 + ceilDiv n 16777216 * 576) + ceilDiv n 131072 * 1088) + idx * 1088)) := h.lvl
  have hc : ceilDiv n 16777216 = 1 := by
    show (n + 16777216 - 1) / 16777216 = 1
    omega
  rw [hc] at h1 ⊢
  exact h1

theorem avx512Sum3_ok (h : TreeInv avx512Node512 (avx512Cs 3) M A n t) (hM : M ≤ 512)
    (ha : TreeAlign b t.mem.addr n avx512Node512 (avx512Cs 3)) {i : Nat} (hi : i < n) :
    avx512Sum3 b t i = ok (psum A (i + 1)) := by
  have hsp : n ≤ 16777216 := h.nspan
  have hpos := h.npos
  have hnle := h.nle
  obtain ⟨l1, l2, l3⟩ := (avx512_lvl3 hsp hpos).1 h.lvl
  obtain ⟨a1, a2, a3⟩ := avx512_al3 hsp hpos ha
  have n1 : t.nn b 1 = ok (ceilDiv n 131072) := by
    rw [Tree.nn_ok h.num (by rw [h.msize]; show 1 * 4 + 4 ≤ 12 + _; omega) ha.hdr,
      h.hdr 1 _ rfl]
    rfl
  have hN1 : ceilDiv n 131072 ≤ 128 := by
    show (n + 131072 - 1) / 131072 ≤ 128
    omega
  have hbig := psum_total_lt h.le hM h.nle (i + 1) h.zero
  have h0 : psum A 0 = 0 := psum_zero A
  unfold avx512Sum3
  rw [Tree.base_ok h.ptr]
  simp only [ok_bind, n1]
  rw [show 4 * ((avx512Cs 3).length + 1) = 12 from rfl]
  rw [inner_sum' (idx := 0) (child := i / (512 * 256)) (lo := 0) (hi := i / 131072 * 131072) avx512Node128_wf h.le (avx512_fits3.mono hM) l1
      (by omega) (show 0 * (128 * 131072) < n by omega) (show i / (512 * 256) < 128 by omega)
      (by simp)
      (show _ = 0 * (128 * 131072) by omega) (by omega) a1]
  rw [inner_sum' (idx := i / 131072) (child := i % (512 * 256) / 512) (lo := i / 131072 * 131072) (hi := i / 512 * 512) avx512Node256_wf h.le (avx512_fits2.mono hM) l2
      (by omega) (show i / 131072 * (256 * 512) < n by omega) (show i % (512 * 256) / 512 < 256 by omega)
      (by
        show 12 + add64 576 (mul64 (i / (512 * 256)) 1088) = 588 + (i / 131072) * 1088
        arith64)
      (show _ = i / 131072 * (256 * 512) by omega) (by omega) a2]
  rw [leaf_sum' (idx := i / 512) (child := i % (512 * 256) % 512) (lo := i / 512 * 512) (hi := i + 1) avx512Node512_wf (avx512_fits1.mono hM)
      l3 (show i % (512 * 256) % 512 < 512 by omega) (show i / 512 * 512 + i % (512 * 256) % 512 < n by omega)
      (by
        show 12 + add64 (add64 576 (mul64 (ceilDiv n 131072) 1088)) (mul64 (add64 (i % (512 * 256) / 512) (mul64 (i / (512 * 256)) 256)) 1088) = (588 + ceilDiv n 131072 * 1088) + (i / 512) * 1088
        arith64)
      (show _ = i / 512 * 512 by omega) (by omega) a3]
  obtain ⟨z1, hz1⟩ : ∃ z, z = i / 131072 * 131072 := ⟨_, rfl⟩
  obtain ⟨z2, hz2⟩ : ∃ z, z = i / 512 * 512 := ⟨_, rfl⟩
  rw [← hz1, ← hz2]
  have m1 := psum_mono A (show z1 ≤ z2 by omega)
  have m2 := psum_mono A (show z2 ≤ (i + 1) by omega)
  simp only [ok_bind, h0, Nat.sub_zero]
  clear h0
  congr 1
  arith64

theorem avx512Update3_ok (h : TreeInv avx512Node512 (avx512Cs 3) M A n t) (hM : M ≤ 512)
    (ha : TreeAlign b t.mem.addr n avx512Node512 (avx512Cs 3)) {i : Nat} {sign : Bool} (hi : i < n)
    (hp : sign = true → 1 ≤ A i) (hq : sign = false → A i + 1 ≤ M) :
    ∃ t', avx512Update3 b t i sign = ok t' ∧ t'.mem.addr = t.mem.addr ∧
      TreeInv avx512Node512 (avx512Cs 3) M (updA A i sign) n t' := by
  have hsp : n ≤ 16777216 := h.nspan
  have hpos := h.npos
  have hnle := h.nle
  obtain ⟨l1, l2, l3⟩ := (avx512_lvl3 hsp hpos).1 h.lvl
  obtain ⟨a1, a2, a3⟩ := avx512_al3 hsp hpos ha
  have n1 : t.nn b 1 = ok (ceilDiv n 131072) := by
    rw [Tree.nn_ok h.num (by rw [h.msize]; show 1 * 4 + 4 ≤ 12 + _; omega) ha.hdr,
      h.hdr 1 _ rfl]
    rfl
  have hN1 : ceilDiv n 131072 ≤ 128 := by
    show (n + 131072 - 1) / 131072 ≤ 128
    omega
  have hc : ceilDiv n 16777216 = 1 := by
    show (n + 16777216 - 1) / 16777216 = 1
    omega
  unfold avx512Update3
  rw [Tree.base_ok h.ptr]
  simp only [ok_bind, n1]
  rw [show 4 * ((avx512Cs 3).length + 1) = 12 from rfl]
  obtain ⟨m1, e1, u1, s1⟩ := inner_update' (b := b) (idx := 0)
    (o := 12) (i := i)
    (child := i / (512 * 256)) (k := add64 (i / (512 * 256)) 1) (sign := sign) (lo := 0) avx512Node128_wf rfl h.le
    (avx512_fits3.mono hM) l1 (by omega)
    (show 0 * (128 * 131072) < n by omega) (show i / (512 * 256) < 128 by omega)
    (by simp)
    (show _ = 0 * (128 * 131072) by omega) (by simp only [add64, W64]; omega) a1 (by omega) (by omega) hp
  replace s1 : SameOff _ m1 12 (12 + ceilDiv n 16777216 * 576) := s1
  rw [hc] at s1
  rw [e1]
  simp only [ok_bind]
  obtain ⟨m2, e2, u2, s2⟩ := inner_update' (b := b) (idx := i / 131072)
    (o := 12 + add64 avx512Node128.bytes (mul64 (i / (512 * 256)) avx512Node256.bytes)) (i := i)
    (child := i % (512 * 256) / 512) (k := add64 (i % (512 * 256) / 512) 1) (sign := sign) (lo := i / 131072 * 131072) avx512Node256_wf rfl h.le
    (avx512_fits2.mono hM) ((l2).frame avx512Node256_wf s1 (Or.inr (by omega))) (by omega)
    (show i / 131072 * (256 * 512) < n by omega) (show i % (512 * 256) / 512 < 256 by omega)
    (by
        show 12 + add64 576 (mul64 (i / (512 * 256)) 1088) = 588 + (i / 131072) * 1088
        arith64)
    (show _ = i / 131072 * (256 * 512) by omega) (by simp only [add64, W64]; omega) (by rw [s1.addr]; exact a2) (by omega) (by omega) hp
  replace s2 : SameOff _ m2 588 (588 + ceilDiv n 131072 * 1088) := s2
  rw [e2]
  simp only [ok_bind]
  obtain ⟨m3, e3, u3, s3⟩ := leaf_update' (b := b) (idx := i / 512)
    (o := 12 + add64 (add64 avx512Node128.bytes (mul64 (ceilDiv n 131072) avx512Node256.bytes)) (mul64 (add64 (i % (512 * 256) / 512) (mul64 (i / (512 * 256)) 256)) avx512Node512.bytes)) (i := i)
    (child := i % (512 * 256) % 512) (sign := sign) avx512Node512_wf
    (avx512_fits1.mono hM) ((((l3).frame avx512Node512_wf s1 (Or.inr (by omega)))).frame avx512Node512_wf s2 (Or.inr (by omega)))
    (show i % (512 * 256) % 512 < 512 by omega)
    (by
        show 12 + add64 (add64 576 (mul64 (ceilDiv n 131072) 1088)) (mul64 (add64 (i % (512 * 256) / 512) (mul64 (i / (512 * 256)) 256)) 1088) = (588 + ceilDiv n 131072 * 1088) + (i / 512) * 1088
        arith64)
    (by rw [s2.addr, s1.addr]; exact a3) (.of_unaligned rfl _ _) (show i = i / 512 * 512 + i % (512 * 256) % 512 by omega) hi hp hq
  replace s3 : SameOff _ m3 (588 + ceilDiv n 131072 * 1088) ((588 + ceilDiv n 131072 * 1088) + ceilDiv n 512 * 1088) := s3
  rw [e3]
  simp only [ok_bind]
  refine ⟨_, rfl, ?_, h.size, h.num, h.ptr, h.npos, h.nspan, h.nle,
    updA_le h.le hq, updA_zero h.zero hi, ?_, ?_, ?_⟩
  · show m3.addr = _
    rw [s3.addr, s2.addr, s1.addr]
  · show m3.size = _
    rw [s3.size, s2.size, s1.size]; exact h.msize
  · intro l k hk
    have hl' : l < 3 := (List.getElem?_eq_some_iff.1 hk).1
    show rd m3 _ _ = _
    rw [s3.rd (by omega), s2.rd (by omega), s1.rd (by omega)]
    exact h.hdr l k hk
  · exact (avx512_lvl3 hsp hpos).2 ⟨((((u1).frame avx512Node128_wf s2 (Or.inl (by show _ + ceilDiv n 16777216 * 576 ≤ _; omega)))).frame avx512Node128_wf s3 (Or.inl (by show _ + ceilDiv n 16777216 * 576 ≤ _; omega))), ((u2).frame avx512Node256_wf s3 (Or.inl (by show _ + ceilDiv n 131072 * 1088 ≤ _; omega))), u3⟩

theorem avx512Search3_ok (h : TreeInv avx512Node512 (avx512Cs 3) M A n t) (hM : M ≤ 512)
    (ha : TreeAlign b t.mem.addr n avx512Node512 (avx512Cs 3)) {x : Nat} (hx : x < psum A n) :
    ∃ r, avx512Search3 b t x = ok r ∧ Searched A n x r := by
  have hsp : n ≤ 16777216 := h.nspan
  have hpos := h.npos
  have hnle := h.nle
  obtain ⟨l1, l2, l3⟩ := (avx512_lvl3 hsp hpos).1 h.lvl
  obtain ⟨a1, a2, a3⟩ := avx512_al3 hsp hpos ha
  have n1 : t.nn b 1 = ok (ceilDiv n 131072) := by
    rw [Tree.nn_ok h.num (by rw [h.msize]; show 1 * 4 + 4 ≤ 12 + _; omega) ha.hdr,
      h.hdr 1 _ rfl]
    rfl
  have hN1 : ceilDiv n 131072 ≤ 128 := by
    show (n + 131072 - 1) / 131072 ≤ 128
    omega
  have hbig := psum_total_lt h.le hM h.nle n h.zero
  have h0 : psum A 0 = 0 := psum_zero A
  obtain ⟨lo0, hlo0⟩ : ∃ z, z = 0 := ⟨_, rfl⟩
  obtain ⟨hi0, hhi0⟩ : ∃ z, z = lo0 + 16777216 := ⟨_, rfl⟩
  have hz0 : psum A lo0 = 0 := by rw [hlo0]; exact h0
  have hx0 : x < psum A hi0 - psum A lo0 := by
    rw [psum_beyond h.zero (show n ≤ hi0 by omega)]; omega
  clear h0
  unfold avx512Search3
  rw [Tree.base_ok h.ptr]
  simp only [ok_bind, n1]
  rw [show 4 * ((avx512Cs 3).length + 1) = 12 from rfl]
  obtain ⟨p1, lo1, hi1, e1, b1, hlo1, hhi1, c1, d1⟩ := inner_search' (b := b) (idx := 0)
    (o := 12) (x := x) (lo := lo0)
    avx512Node128_wf h.le (avx512_fits3.mono hM) (by decide) l1 (by omega) (by simp only [Nat.zero_mul]; exact hpos)
    (by simp)
    (show _ = (0) * (128 * 131072) by omega) a1 (by simp only [W64]; omega) (by rw [show avx512Node128.fanout * 131072 = 16777216 by decide]; omega) hx0
    (fun _ => inner_simd' avx512Node128_wf h.le (avx512_simd3.mono hM) (by rw [show avx512Node128.fanout * 131072 = 16777216 by decide]; omega) hx0)
  replace b1 : p1 < 128 := b1
  rw [e1]
  simp only [ok_bind]
  have i1 : sub64 (p1 + 1) 1 = p1 := by
    simp only [sub64, W64]; omega
  have hb1 := psum_total_lt h.le hM h.nle hi1 h.zero
  have hk1 := psum_mono A (show lo0 ≤ lo1 by omega)
  have hm1 := psum_mono A (show lo1 ≤ hi1 by omega)
  have hlt1 := psum_lt_idx h.zero (show psum A lo1 < psum A hi1 by omega)
  have hxe1 : sub64 (x) (psum A lo1 - psum A lo0) = x - psum A lo1 := by
    rw [sub64_eq c1 (by simp only [W64]; omega)]; omega
  simp only [i1, hxe1]
  have hx1 : x - psum A lo1 < psum A hi1 - psum A lo1 := by omega
  obtain ⟨p2, lo2, hi2, e2, b2, hlo2, hhi2, c2, d2⟩ := inner_search' (b := b) (idx := p1)
    (o := 12 + add64 avx512Node128.bytes (mul64 p1 avx512Node256.bytes)) (x := x - psum A lo1) (lo := lo1)
    avx512Node256_wf h.le (avx512_fits2.mono hM) (by decide) l2 (by omega) (show (p1) * (256 * 512) < n by omega)
    (by
        show 12 + add64 576 (mul64 p1 1088) = 588 + (p1) * 1088
        arith64)
    (show _ = (p1) * (256 * 512) by omega) a2 (by simp only [W64]; omega) (by rw [show avx512Node256.fanout * 512 = 131072 by decide]; omega) hx1
    (fun _ => inner_simd' avx512Node256_wf h.le (avx512_simd2.mono hM) (by rw [show avx512Node256.fanout * 512 = 131072 by decide]; omega) hx1)
  replace b2 : p2 < 256 := b2
  rw [e2]
  simp only [ok_bind]
  have i2 : sub64 (p2 + 1) 1 = p2 := by
    simp only [sub64, W64]; omega
  have hb2 := psum_total_lt h.le hM h.nle hi2 h.zero
  have hk2 := psum_mono A (show lo1 ≤ lo2 by omega)
  have hm2 := psum_mono A (show lo2 ≤ hi2 by omega)
  have hlt2 := psum_lt_idx h.zero (show psum A lo2 < psum A hi2 by omega)
  have hxe2 : sub64 (x - psum A lo1) (psum A lo2 - psum A lo1) = x - psum A lo2 := by
    rw [sub64_eq c2 (by simp only [W64]; omega)]; omega
  simp only [i2, hxe2]
  have hx2 : x - psum A lo2 < psum A hi2 - psum A lo2 := by omega
  obtain ⟨p3, lo3, e3, b3, hlo3, f3, c3, d3⟩ := leaf_search' (b := b) (idx := (p1) * 256 + p2)
    (o := 12 + add64 (add64 avx512Node128.bytes (mul64 (ceilDiv n 131072) avx512Node256.bytes)) (mul64 (add64 p2 (mul64 p1 256)) avx512Node512.bytes)) (x := x - psum A lo2) (lo := lo2)
    avx512Node512_wf (avx512_fits1.mono hM) (avx512_simd1.mono hM) h.zero l3 (show ((p1) * 256 + p2) * 512 < n by omega)
    (by
        show 12 + add64 (add64 576 (mul64 (ceilDiv n 131072) 1088)) (mul64 (add64 p2 (mul64 p1 256)) 1088) = (588 + ceilDiv n 131072 * 1088) + ((p1) * 256 + p2) * 1088
        arith64)
    (show _ = ((p1) * 256 + p2) * 512 by omega) a3 (by simp only [W64]; omega) (show _ = _ + 512 from hhi2) hx2
  replace b3 : p3 < 512 := b3
  rw [e3]
  have hm := psum_mono A (show lo2 ≤ lo3 by omega)
  have hb := psum_total_lt h.le hM h.nle lo3 h.zero
  have r1 : add64 (add64 (mul64 (mul64 p1 512) 256) (mul64 p2 512)) p3 = lo3 := by
    arith64
  have r2 : add64 (add64 (psum A lo1 - psum A lo0) (psum A lo2 - psum A lo1)) (psum A lo3 - psum A lo2) = psum A lo3 := by
    arith64
  simp only [ok_bind, r1, r2]
  exact ⟨_, rfl, f3, rfl, by show psum A lo3 ≤ x; omega, by
    show x < psum A (lo3 + 1)
    omega⟩

end

end MRS
