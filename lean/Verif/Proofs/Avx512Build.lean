import Verif.Proofs.Avx512
import Verif.Proofs.LevelBuild

/-! # The avx512 segment tree: build for every height -/

set_option autoImplicit false
set_option linter.unusedVariables false
set_option linter.unusedSimpArgs false
set_option maxRecDepth 4000

namespace MRS
open Outcome Spec

attribute [local irreducible] psum

section
variable {b : Build} {M n : Nat} {A : Nat → Nat}

/-! ### Height 1 -/

theorem avx512_levels1 (h1 : 0 < n) (h2 : n ≤ 512) :
    ∃ cv, levels b avx512Fam 1 n = ok ⟨1, 0, cv, 0 + 1 * 1088⟩ ∧ cv.len = 1 ∧
      cv.f 0 = 1 := by
  have hc0 : ceilDiv n 512 = 1 := by
    show (n + 512 - 1) / 512 = 1
    omega
  unfold levels
  have k0 : ceilDiv (n) avx512Node512.fanout = 1 := by
    exact hc0
  obtain ⟨cv0, e0, len0, at0, ot0⟩ := levelPush_ok (c := avx512Node512) (m := n) (h := 0)
    (tot := 0) (cv := (⟨1, fun _ => 0⟩ : Vec Nat)) (by show 0 < 1; omega)
    (by rw [k0]; omega) (by rw [k0]; show _ + _ * 1088 < W64; simp only [W64]; omega)
  rw [k0] at e0 at0
  replace e0 : levelPush avx512Node512 ⟨n, 0 + 1, (⟨1, fun _ => 0⟩ : Vec Nat), 0⟩ = ok ⟨1, 0, cv0, 0 + 1 * 1088⟩ := e0
  rw [show avx512Fam.leaf = avx512Node512 from rfl, e0]
  simp only [ok_bind]
  show ∃ cv, (do
      let s ← levelUppers [avx512Node256, avx512Node128] ⟨1, 0, cv0, 0 + 1 * 1088⟩
      massert b (decide (s.m = 1))
      ok s : Outcome LevelSt) = _ ∧ _
  replace len0 : cv0.len = 1 := len0
  rw [levelUppers]
  simp only []
  rw [if_neg (Nat.lt_irrefl 1)]
  simp only [ok_bind]
  rw [levelUppers]
  simp only []
  rw [if_neg (Nat.lt_irrefl 1)]
  simp only [ok_bind]
  rw [levelUppers]
  simp only [ok_bind]
  rw [massert_ok (by simp)]
  simp only [ok_bind]
  exact ⟨cv0, rfl, len0, by rw [at0]⟩

theorem avx512Build1_ok {addr : Nat} {input : Vec Nat} {t : Tree} (h1 : 0 < n) (h2 : n ≤ 512)
    (hM : M ≤ 512) (hin : InputOK b avx512Fam M A input n)
    (ha : TreeAlign b addr n avx512Node512 (avx512Cs 1)) :
    ∃ t', treeBuild b avx512Fam 1 addr input n t = ok t' ∧ t'.mem.addr = addr ∧
      TreeInv avx512Node512 (avx512Cs 1) M A n t' := by
  have hpos : 0 < n := by omega
  obtain a1 := avx512_al1 h2 hpos ha
  obtain ⟨cv, elev, hlen, q0⟩ := avx512_levels1 (b := b) h1 h2
  have hc0 : ceilDiv n 512 = 1 := by
    show (n + 512 - 1) / 512 = 1
    omega
  unfold treeBuild
  rw [massert_ok (by simp; omega), elev]
  simp only [ok_bind]
  have htot : add64 (0 + 1 * 1088) (1 * 4) = 4 + 1 * 1088 := by arith64
  rw [htot]
  obtain ⟨m0, e0, s0, r0⟩ := header_ok (b := b) (H := 1) (cv := cv)
    (m := t.mem.resize addr (4 + 1 * 1088)) hlen
    (by
      intro l hl
      have : l = 0 := by omega
      rcases this with rfl
      · rw [q0]; omega)
    (show 4 ≤ 4 + 1 * 1088 by omega) ha.hdr
  rw [e0]
  simp only [ok_bind, if_neg (show ¬ (1 = 0) by omega)]
  rw [Vec.get_ok (show 1 - 1 < cv.len by omega)]
  simp only [ok_bind]
  rw [show cv.f (1 - 1) = 1 from q0]
  have hsz0 : m0.size = 4 + 1 * 1088 := s0.size
  have had0 : m0.addr = addr := s0.addr
  have hb0 : sub64 (4 + 1 * 1088) (mul64 (1) avx512Node512.bytes) = 4 := by
    show sub64 (4 + 1 * 1088) (mul64 (1) 1088) = 4
    rw [mul64_eq (by simp only [W64]; omega), sub64_eq (by omega) (by simp only [W64]; omega)]
  rw [show avx512Fam.leaf = avx512Node512 from rfl, hb0]
  obtain ⟨m1, e1, l1, s1⟩ := buildLeaves_ok (b := b) (fam := avx512Fam) (M := M) (n := n)
    (begin_ := 4) (nodes := 1) (A := A) (input := input) (m := m0)
    avx512Node512_wf (avx512_fits1.mono hM) hin (hc0.symm)
    (by rw [hsz0]; show _ + _ * 1088 ≤ _; omega)
    (by rw [had0]; rw [← hc0]; exact a1)
  replace s1 : SameOff m0 m1 4 (4 + 1 * 1088) := s1
  rw [e1]
  simp only [ok_bind]
  rw [show avx512Fam.uppers = [avx512Node256, avx512Node128] from rfl, show avx512Node512.fanout = 512 from rfl]
  have hsz1 : m1.size = 4 + 1 * 1088 := by rw [s1.size]; exact hsz0
  have had1 : m1.addr = addr := by rw [s1.addr]; exact had0
  simp only [Nat.sub_self]
  rw [buildUppers]
  simp only []
  rw [if_neg (Nat.lt_irrefl 0)]
  simp only [ok_bind]
  rw [buildUppers]
  simp only []
  rw [if_neg (Nat.lt_irrefl 0)]
  simp only [ok_bind]
  rw [buildUppers]
  simp only [ok_bind]
  rw [massert_ok (by simp)]
  simp only [ok_bind]
  refine ⟨_, rfl, had1, ?_, rfl, rfl, hpos, h2, by omega, hin.le, hin.zero, ?_, ?_, ?_⟩
  · show n % 2 ^ 32 = n
    omega
  · show m1.size = _
    rw [hsz1]
    show 4 + 1 * 1088 = 4 + (ceilDiv n 512 * 1088)
    rw [hc0]
  · intro l k hk
    have hl' : l < 1 := (List.getElem?_eq_some_iff.1 hk).1
    show rd m1 _ _ = _
    rw [s1.rd (by omega), r0 l hl']
    have : l = 0 := by omega
    rcases this with rfl
    · rw [q0, ← hc0]; exact Option.some.inj hk
  · exact (avx512_lvl1 h2 hpos).2 l1

/-! ### Height 2 -/

theorem avx512_levels2 (h1 : 512 < n) (h2 : n ≤ 131072) :
    ∃ cv, levels b avx512Fam 2 n = ok ⟨1, 0, cv, 0 + ceilDiv n 512 * 1088 + 1 * 1088⟩ ∧ cv.len = 2 ∧
      cv.f 0 = 1 ∧ cv.f 1 = ceilDiv n 512 := by
  have hc0 : ceilDiv n 131072 = 1 := by
    show (n + 131072 - 1) / 131072 = 1
    omega
  have hN1 : ceilDiv n 512 ≤ 256 := by
    show (n + 512 - 1) / 512 ≤ 256
    omega
  unfold levels
  have k0 : ceilDiv (n) avx512Node512.fanout = ceilDiv n 512 := by
    rfl
  obtain ⟨cv0, e0, len0, at0, ot0⟩ := levelPush_ok (c := avx512Node512) (m := n) (h := 1)
    (tot := 0) (cv := (⟨2, fun _ => 0⟩ : Vec Nat)) (by show 1 < 2; omega)
    (by rw [k0]; omega) (by rw [k0]; show _ + _ * 1088 < W64; simp only [W64]; omega)
  rw [k0] at e0 at0
  replace e0 : levelPush avx512Node512 ⟨n, 1 + 1, (⟨2, fun _ => 0⟩ : Vec Nat), 0⟩ = ok ⟨ceilDiv n 512, 1, cv0, 0 + ceilDiv n 512 * 1088⟩ := e0
  rw [show avx512Fam.leaf = avx512Node512 from rfl, e0]
  simp only [ok_bind]
  show ∃ cv, (do
      let s ← levelUppers [avx512Node256, avx512Node128] ⟨ceilDiv n 512, 1, cv0, 0 + ceilDiv n 512 * 1088⟩
      massert b (decide (s.m = 1))
      ok s : Outcome LevelSt) = _ ∧ _
  replace len0 : cv0.len = 2 := len0
  have k1 : ceilDiv (ceilDiv n 512) avx512Node256.fanout = 1 := by
    rw [ceilDiv_ceilDiv n 512 avx512Node256.fanout (by decide) (by decide)]
    exact hc0
  obtain ⟨cv1, e1, len1, at1, ot1⟩ := levelPush_ok (c := avx512Node256) (m := ceilDiv n 512) (h := 0)
    (tot := 0 + ceilDiv n 512 * 1088) (cv := cv0) (by rw [len0]; omega)
    (by rw [k1]; omega) (by rw [k1]; show _ + _ * 1088 < W64; simp only [W64]; omega)
  rw [k1] at e1 at1
  replace e1 : levelPush avx512Node256 ⟨ceilDiv n 512, 0 + 1, cv0, 0 + ceilDiv n 512 * 1088⟩ = ok ⟨1, 0, cv1, 0 + ceilDiv n 512 * 1088 + 1 * 1088⟩ := e1
  rw [levelUppers]
  simp only []
  rw [if_pos (show ceilDiv n 512 > 1 by
    show 1 < (n + 512 - 1) / 512
    omega)]
  rw [e1]
  simp only [ok_bind]
  rw [len0] at len1
  rw [levelUppers]
  simp only []
  rw [if_neg (Nat.lt_irrefl 1)]
  simp only [ok_bind]
  rw [levelUppers]
  simp only [ok_bind]
  rw [massert_ok (by simp)]
  simp only [ok_bind]
  exact ⟨cv1, rfl, len1, by rw [at1], by rw [ot1 1 (by omega), at0]⟩

theorem avx512Build2_ok {addr : Nat} {input : Vec Nat} {t : Tree} (h1 : 512 < n) (h2 : n ≤ 131072)
    (hM : M ≤ 512) (hin : InputOK b avx512Fam M A input n)
    (ha : TreeAlign b addr n avx512Node512 (avx512Cs 2)) :
    ∃ t', treeBuild b avx512Fam 2 addr input n t = ok t' ∧ t'.mem.addr = addr ∧
      TreeInv avx512Node512 (avx512Cs 2) M A n t' := by
  have hpos : 0 < n := by omega
  obtain ⟨a1, a2⟩ := avx512_al2 h2 hpos ha
  obtain ⟨cv, elev, hlen, q0, q1⟩ := avx512_levels2 (b := b) h1 h2
  have hc0 : ceilDiv n 131072 = 1 := by
    show (n + 131072 - 1) / 131072 = 1
    omega
  have hN1 : ceilDiv n 512 ≤ 256 := by
    show (n + 512 - 1) / 512 ≤ 256
    omega
  unfold treeBuild
  rw [massert_ok (by simp; omega), elev]
  simp only [ok_bind]
  have htot : add64 (0 + ceilDiv n 512 * 1088 + 1 * 1088) (2 * 4) = 8 + 1 * 1088 + ceilDiv n 512 * 1088 := by arith64
  rw [htot]
  obtain ⟨m0, e0, s0, r0⟩ := header_ok (b := b) (H := 2) (cv := cv)
    (m := t.mem.resize addr (8 + 1 * 1088 + ceilDiv n 512 * 1088)) hlen
    (by
      intro l hl
      have : l = 0 ∨ l = 1 := by omega
      rcases this with rfl | rfl
      · rw [q0]; omega
      · rw [q1]; omega)
    (show 8 ≤ 8 + 1 * 1088 + ceilDiv n 512 * 1088 by omega) ha.hdr
  rw [e0]
  simp only [ok_bind, if_neg (show ¬ (2 = 0) by omega)]
  rw [Vec.get_ok (show 2 - 1 < cv.len by omega)]
  simp only [ok_bind]
  rw [show cv.f (2 - 1) = ceilDiv n 512 from q1]
  have hsz0 : m0.size = 8 + 1 * 1088 + ceilDiv n 512 * 1088 := s0.size
  have had0 : m0.addr = addr := s0.addr
  have hb0 : sub64 (8 + 1 * 1088 + ceilDiv n 512 * 1088) (mul64 (ceilDiv n 512) avx512Node512.bytes) = 1096 := by
    show sub64 (8 + 1 * 1088 + ceilDiv n 512 * 1088) (mul64 (ceilDiv n 512) 1088) = 1096
    rw [mul64_eq (by simp only [W64]; omega), sub64_eq (by omega) (by simp only [W64]; omega)]
    omega
  rw [show avx512Fam.leaf = avx512Node512 from rfl, hb0]
  obtain ⟨m1, e1, l1, s1⟩ := buildLeaves_ok (b := b) (fam := avx512Fam) (M := M) (n := n)
    (begin_ := 1096) (nodes := ceilDiv n 512) (A := A) (input := input) (m := m0)
    avx512Node512_wf (avx512_fits1.mono hM) hin (rfl)
    (by rw [hsz0]; show _ + _ * 1088 ≤ _; omega)
    (by rw [had0]; exact a2)
  replace s1 : SameOff m0 m1 1096 (1096 + ceilDiv n 512 * 1088) := s1
  rw [e1]
  simp only [ok_bind]
  rw [show avx512Fam.uppers = [avx512Node256, avx512Node128] from rfl, show avx512Node512.fanout = 512 from rfl]
  have hsz1 : m1.size = 8 + 1 * 1088 + ceilDiv n 512 * 1088 := by rw [s1.size]; exact hsz0
  have had1 : m1.addr = addr := by rw [s1.addr]; exact had0
  obtain ⟨m2, e2, l2, s2⟩ := buildUppers_step (b := b) (c := avx512Node256)
    (cs := [avx512Node128]) (M := M) (n := n) (off := 8) (nodes := 1) (step := 512)
    (begin_ := 1096) (h := 0) (A := A) (input := input) (counts := cv) (m := m1)
    avx512Node256_wf (avx512_fits2.mono hM) hin.len hin.val hin.le hin.zero
    (by rw [Vec.get_ok (by omega), q0]) (hc0.symm)
    (show 1096 = 8 + 1 * 1088 by omega) (by rw [hsz1]; omega)
    (by rw [hsz1]; simp only [W64]; omega) (by decide)
    (by rw [had1]; rw [← hc0]; exact a1)
  replace s2 : SameOff m1 m2 8 (8 + 1 * 1088) := s2
  rw [show avx512Node256.fanout * 512 = 131072 by decide] at e2
  simp only [Nat.reduceAdd, Nat.reduceSub] at e2 ⊢
  rw [e2]
  have hsz2 : m2.size = 8 + 1 * 1088 + ceilDiv n 512 * 1088 := by rw [s2.size]; exact hsz1
  have had2 : m2.addr = addr := by rw [s2.addr]; exact had1
  rw [buildUppers]
  simp only []
  rw [if_neg (Nat.lt_irrefl 0)]
  simp only [ok_bind]
  rw [buildUppers]
  simp only [ok_bind]
  rw [massert_ok (by simp)]
  simp only [ok_bind]
  refine ⟨_, rfl, had2, ?_, rfl, rfl, hpos, h2, by omega, hin.le, hin.zero, ?_, ?_, ?_⟩
  · show n % 2 ^ 32 = n
    omega
  · show m2.size = _
    rw [hsz2]
    show 8 + 1 * 1088 + ceilDiv n 512 * 1088 = 8 + (ceilDiv n 131072 * 1088 + (ceilDiv n 512 * 1088))
    rw [hc0]; omega
  · intro l k hk
    have hl' : l < 2 := (List.getElem?_eq_some_iff.1 hk).1
    show rd m2 _ _ = _
    rw [s2.rd (by omega), s1.rd (by omega), r0 l hl']
    have : l = 0 ∨ l = 1 := by omega
    rcases this with rfl | rfl
    · rw [q0, ← hc0]; exact Option.some.inj hk
    · rw [q1]; exact Option.some.inj hk
  · exact (avx512_lvl2 h2 hpos).2 ⟨l2, ((l1).frame avx512Node512_wf s2 (Or.inr (by omega)))⟩

/-! ### Height 3 -/

theorem avx512_levels3 (h1 : 131072 < n) (h2 : n ≤ 16777216) :
    ∃ cv, levels b avx512Fam 3 n = ok ⟨1, 0, cv, 0 + ceilDiv n 512 * 1088 + ceilDiv n 131072 * 1088 + 1 * 576⟩ ∧ cv.len = 3 ∧
      cv.f 0 = 1 ∧ cv.f 1 = ceilDiv n 131072 ∧ cv.f 2 = ceilDiv n 512 := by
  have hc0 : ceilDiv n 16777216 = 1 := by
    show (n + 16777216 - 1) / 16777216 = 1
    omega
  have hN1 : ceilDiv n 131072 ≤ 128 := by
    show (n + 131072 - 1) / 131072 ≤ 128
    omega
  have hN2 : ceilDiv n 512 ≤ 32768 := by
    show (n + 512 - 1) / 512 ≤ 32768
    omega
  unfold levels
  have k0 : ceilDiv (n) avx512Node512.fanout = ceilDiv n 512 := by
    rfl
  obtain ⟨cv0, e0, len0, at0, ot0⟩ := levelPush_ok (c := avx512Node512) (m := n) (h := 2)
    (tot := 0) (cv := (⟨3, fun _ => 0⟩ : Vec Nat)) (by show 2 < 3; omega)
    (by rw [k0]; omega) (by rw [k0]; show _ + _ * 1088 < W64; simp only [W64]; omega)
  rw [k0] at e0 at0
  replace e0 : levelPush avx512Node512 ⟨n, 2 + 1, (⟨3, fun _ => 0⟩ : Vec Nat), 0⟩ = ok ⟨ceilDiv n 512, 2, cv0, 0 + ceilDiv n 512 * 1088⟩ := e0
  rw [show avx512Fam.leaf = avx512Node512 from rfl, e0]
  simp only [ok_bind]
  show ∃ cv, (do
      let s ← levelUppers [avx512Node256, avx512Node128] ⟨ceilDiv n 512, 2, cv0, 0 + ceilDiv n 512 * 1088⟩
      massert b (decide (s.m = 1))
      ok s : Outcome LevelSt) = _ ∧ _
  replace len0 : cv0.len = 3 := len0
  have k1 : ceilDiv (ceilDiv n 512) avx512Node256.fanout = ceilDiv n 131072 := by
    rw [ceilDiv_ceilDiv n 512 avx512Node256.fanout (by decide) (by decide)]
    rfl
  obtain ⟨cv1, e1, len1, at1, ot1⟩ := levelPush_ok (c := avx512Node256) (m := ceilDiv n 512) (h := 1)
    (tot := 0 + ceilDiv n 512 * 1088) (cv := cv0) (by rw [len0]; omega)
    (by rw [k1]; omega) (by rw [k1]; show _ + _ * 1088 < W64; simp only [W64]; omega)
  rw [k1] at e1 at1
  replace e1 : levelPush avx512Node256 ⟨ceilDiv n 512, 1 + 1, cv0, 0 + ceilDiv n 512 * 1088⟩ = ok ⟨ceilDiv n 131072, 1, cv1, 0 + ceilDiv n 512 * 1088 + ceilDiv n 131072 * 1088⟩ := e1
  rw [levelUppers]
  simp only []
  rw [if_pos (show ceilDiv n 512 > 1 by
    show 1 < (n + 512 - 1) / 512
    omega)]
  rw [e1]
  simp only [ok_bind]
  rw [len0] at len1
  have k2 : ceilDiv (ceilDiv n 131072) avx512Node128.fanout = 1 := by
    rw [ceilDiv_ceilDiv n 131072 avx512Node128.fanout (by decide) (by decide)]
    exact hc0
  obtain ⟨cv2, e2, len2, at2, ot2⟩ := levelPush_ok (c := avx512Node128) (m := ceilDiv n 131072) (h := 0)
    (tot := 0 + ceilDiv n 512 * 1088 + ceilDiv n 131072 * 1088) (cv := cv1) (by rw [len1]; omega)
    (by rw [k2]; omega) (by rw [k2]; show _ + _ * 576 < W64; simp only [W64]; omega)
  rw [k2] at e2 at2
  replace e2 : levelPush avx512Node128 ⟨ceilDiv n 131072, 0 + 1, cv1, 0 + ceilDiv n 512 * 1088 + ceilDiv n 131072 * 1088⟩ = ok ⟨1, 0, cv2, 0 + ceilDiv n 512 * 1088 + ceilDiv n 131072 * 1088 + 1 * 576⟩ := e2
  rw [levelUppers]
  simp only []
  rw [if_pos (show ceilDiv n 131072 > 1 by
    show 1 < (n + 131072 - 1) / 131072
    omega)]
  rw [e2]
  simp only [ok_bind]
  rw [len1] at len2
  rw [levelUppers]
  simp only [ok_bind]
  rw [massert_ok (by simp)]
  simp only [ok_bind]
  exact ⟨cv2, rfl, len2, by rw [at2], by rw [ot2 1 (by omega), at1], by rw [ot2 2 (by omega), ot1 2 (by omega), at0]⟩

theorem avx512Build3_ok {addr : Nat} {input : Vec Nat} {t : Tree} (h1 : 131072 < n) (h2 : n ≤ 16777216)
    (hM : M ≤ 512) (hin : InputOK b avx512Fam M A input n)
    (ha : TreeAlign b addr n avx512Node512 (avx512Cs 3)) :
    ∃ t', treeBuild b avx512Fam 3 addr input n t = ok t' ∧ t'.mem.addr = addr ∧
      TreeInv avx512Node512 (avx512Cs 3) M A n t' := by
  have hpos : 0 < n := by omega
  obtain ⟨a1, a2, a3⟩ := avx512_al3 h2 hpos ha
  obtain ⟨cv, elev, hlen, q0, q1, q2⟩ := avx512_levels3 (b := b) h1 h2
  have hc0 : ceilDiv n 16777216 = 1 := by
    show (n + 16777216 - 1) / 16777216 = 1
    omega
  have hN1 : ceilDiv n 131072 ≤ 128 := by
    show (n + 131072 - 1) / 131072 ≤ 128
    omega
  have hN2 : ceilDiv n 512 ≤ 32768 := by
    show (n + 512 - 1) / 512 ≤ 32768
    omega
  unfold treeBuild
  rw [massert_ok (by simp; omega), elev]
  simp only [ok_bind]
  have htot : add64 (0 + ceilDiv n 512 * 1088 + ceilDiv n 131072 * 1088 + 1 * 576) (3 * 4) = 12 + 1 * 576 + ceilDiv n 131072 * 1088 + ceilDiv n 512 * 1088 := by arith64
  rw [htot]
  obtain ⟨m0, e0, s0, r0⟩ := header_ok (b := b) (H := 3) (cv := cv)
    (m := t.mem.resize addr (12 + 1 * 576 + ceilDiv n 131072 * 1088 + ceilDiv n 512 * 1088)) hlen
    (by
      intro l hl
      have : l = 0 ∨ l = 1 ∨ l = 2 := by omega
      rcases this with rfl | rfl | rfl
      · rw [q0]; omega
      · rw [q1]; omega
      · rw [q2]; omega)
    (show 12 ≤ 12 + 1 * 576 + ceilDiv n 131072 * 1088 + ceilDiv n 512 * 1088 by omega) ha.hdr
  rw [e0]
  simp only [ok_bind, if_neg (show ¬ (3 = 0) by omega)]
  rw [Vec.get_ok (show 3 - 1 < cv.len by omega)]
  simp only [ok_bind]
  rw [show cv.f (3 - 1) = ceilDiv n 512 from q2]
  have hsz0 : m0.size = 12 + 1 * 576 + ceilDiv n 131072 * 1088 + ceilDiv n 512 * 1088 := s0.size
  have had0 : m0.addr = addr := s0.addr
  have hb0 : sub64 (12 + 1 * 576 + ceilDiv n 131072 * 1088 + ceilDiv n 512 * 1088) (mul64 (ceilDiv n 512) avx512Node512.bytes) = (588 + ceilDiv n 131072 * 1088) := by
    show sub64 (12 + 1 * 576 + ceilDiv n 131072 * 1088 + ceilDiv n 512 * 1088) (mul64 (ceilDiv n 512) 1088) = (588 + ceilDiv n 131072 * 1088)
    rw [mul64_eq (by simp only [W64]; omega), sub64_eq (by omega) (by simp only [W64]; omega)]
    omega
  rw [show avx512Fam.leaf = avx512Node512 from rfl, hb0]
  obtain ⟨m1, e1, l1, s1⟩ := buildLeaves_ok (b := b) (fam := avx512Fam) (M := M) (n := n)
    (begin_ := (588 + ceilDiv n 131072 * 1088)) (nodes := ceilDiv n 512) (A := A) (input := input) (m := m0)
    avx512Node512_wf (avx512_fits1.mono hM) hin (rfl)
    (by rw [hsz0]; show _ + _ * 1088 ≤ _; omega)
    (by rw [had0]; exact a3)
  replace s1 : SameOff m0 m1 (588 + ceilDiv n 131072 * 1088) ((588 + ceilDiv n 131072 * 1088) + ceilDiv n 512 * 1088) := s1
  rw [e1]
  simp only [ok_bind]
  rw [show avx512Fam.uppers = [avx512Node256, avx512Node128] from rfl, show avx512Node512.fanout = 512 from rfl]
  have hsz1 : m1.size = 12 + 1 * 576 + ceilDiv n 131072 * 1088 + ceilDiv n 512 * 1088 := by rw [s1.size]; exact hsz0
  have had1 : m1.addr = addr := by rw [s1.addr]; exact had0
  obtain ⟨m2, e2, l2, s2⟩ := buildUppers_step (b := b) (c := avx512Node256)
    (cs := [avx512Node128]) (M := M) (n := n) (off := 588) (nodes := ceilDiv n 131072) (step := 512)
    (begin_ := (588 + ceilDiv n 131072 * 1088)) (h := 1) (A := A) (input := input) (counts := cv) (m := m1)
    avx512Node256_wf (avx512_fits2.mono hM) hin.len hin.val hin.le hin.zero
    (by rw [Vec.get_ok (by omega), q1]) (rfl)
    (show (588 + ceilDiv n 131072 * 1088) = 588 + ceilDiv n 131072 * 1088 by omega) (by rw [hsz1]; omega)
    (by rw [hsz1]; simp only [W64]; omega) (by decide)
    (by rw [had1]; exact a2)
  replace s2 : SameOff m1 m2 588 (588 + ceilDiv n 131072 * 1088) := s2
  rw [show avx512Node256.fanout * 512 = 131072 by decide] at e2
  simp only [Nat.reduceAdd, Nat.reduceSub] at e2 ⊢
  rw [e2]
  have hsz2 : m2.size = 12 + 1 * 576 + ceilDiv n 131072 * 1088 + ceilDiv n 512 * 1088 := by rw [s2.size]; exact hsz1
  have had2 : m2.addr = addr := by rw [s2.addr]; exact had1
  obtain ⟨m3, e3, l3, s3⟩ := buildUppers_step (b := b) (c := avx512Node128)
    (cs := []) (M := M) (n := n) (off := 12) (nodes := 1) (step := 131072)
    (begin_ := 588) (h := 0) (A := A) (input := input) (counts := cv) (m := m2)
    avx512Node128_wf (avx512_fits3.mono hM) hin.len hin.val hin.le hin.zero
    (by rw [Vec.get_ok (by omega), q0]) (hc0.symm)
    (show 588 = 12 + 1 * 576 by omega) (by rw [hsz2]; omega)
    (by rw [hsz2]; simp only [W64]; omega) (by decide)
    (by rw [had2]; rw [← hc0]; exact a1)
  replace s3 : SameOff m2 m3 12 (12 + 1 * 576) := s3
  rw [show avx512Node128.fanout * 131072 = 16777216 by decide] at e3
  simp only [Nat.reduceAdd, Nat.reduceSub] at e3 ⊢
  rw [e3]
  have hsz3 : m3.size = 12 + 1 * 576 + ceilDiv n 131072 * 1088 + ceilDiv n 512 * 1088 := by rw [s3.size]; exact hsz2
  have had3 : m3.addr = addr := by rw [s3.addr]; exact had2
  rw [buildUppers]
  simp only [ok_bind]
  rw [massert_ok (by simp)]
  simp only [ok_bind]
  refine ⟨_, rfl, had3, ?_, rfl, rfl, hpos, h2, by omega, hin.le, hin.zero, ?_, ?_, ?_⟩
  · show n % 2 ^ 32 = n
    omega
  · show m3.size = _
    rw [hsz3]
    show 12 + 1 * 576 + ceilDiv n 131072 * 1088 + ceilDiv n 512 * 1088 = 12 + (ceilDiv n 16777216 * 576 + (ceilDiv n 131072 * 1088 + (ceilDiv n 512 * 1088)))
    rw [hc0]; omega
  · intro l k hk
    have hl' : l < 3 := (List.getElem?_eq_some_iff.1 hk).1
    show rd m3 _ _ = _
    rw [s3.rd (by omega), s2.rd (by omega), s1.rd (by omega), r0 l hl']
    have : l = 0 ∨ l = 1 ∨ l = 2 := by omega
    rcases this with rfl | rfl | rfl
    · rw [q0, ← hc0]; exact Option.some.inj hk
    · rw [q1]; exact Option.some.inj hk
    · rw [q2]; exact Option.some.inj hk
  · exact (avx512_lvl3 h2 hpos).2 ⟨l3, ((l2).frame avx512Node256_wf s3 (Or.inr (by omega))), ((((l1).frame avx512Node512_wf s2 (Or.inr (by omega)))).frame avx512Node512_wf s3 (Or.inr (by omega)))⟩

end

end MRS
