import Verif.Proofs.Avx2
import Verif.Proofs.LevelBuild

/-! # The avx2 segment tree: build for every height -/

set_option autoImplicit false
set_option linter.unusedVariables false
set_option linter.unusedSimpArgs false
set_option maxRecDepth 4000

namespace MRS
open Outcome Spec

attribute [local irreducible] psum

section
variable {b : Build} {M n : Nat} {A : Nat → Nat}

/-! ### Height 1 -/

theorem avx2_levels1 (h1 : 0 < n) (h2 : n ≤ 128) :
    ∃ cv, levels b avx2Fam 1 n = ok ⟨1, 0, cv, 0 + 1 * 288⟩ ∧ cv.len = 1 ∧
      cv.f 0 = 1 := by
  have hc0 : ceilDiv n 128 = 1 := by
    show (n + 128 - 1) / 128 = 1
    omega
  unfold levels
  have k0 : ceilDiv (n) avx2Node128.fanout = 1 := by
    exact hc0
  obtain ⟨cv0, e0, len0, at0, ot0⟩ := levelPush_ok (c := avx2Node128) (m := n) (h := 0)
    (tot := 0) (cv := (⟨1, fun _ => 0⟩ : Vec Nat)) (by show 0 < 1; omega)
    (by rw [k0]; omega) (by rw [k0]; show _ + _ * 288 < W64; simp only [W64]; omega)
  rw [k0] at e0 at0
  replace e0 : levelPush avx2Node128 ⟨n, 0 + 1, (⟨1, fun _ => 0⟩ : Vec Nat), 0⟩ = ok ⟨1, 0, cv0, 0 + 1 * 288⟩ := e0
  rw [show avx2Fam.leaf = avx2Node128 from rfl, e0]
  simp only [ok_bind]
  show ∃ cv, (do
      let s ← levelUppers [avx2Node64, avx2Node64, avx2Node32] ⟨1, 0, cv0, 0 + 1 * 288⟩
      massert b (decide (s.m = 1))
      ok s : Outcome LevelSt) = _ ∧ _
  replace len0 : cv0.len = 1 := len0
  rw [levelUppers]
  simp only []
  rw [if_neg (Nat.lt_irrefl 1)]
  simp only [ok_bind]
  rw [levelUppers]
  simp only []
  rw [if_neg (Nat.lt_irrefl 1)]
  simp only [ok_bind]
  rw [levelUppers]
  simp only []
  rw [if_neg (Nat.lt_irrefl 1)]
  simp only [ok_bind]
  rw [levelUppers]
  simp only [ok_bind]
  rw [massert_ok (by simp)]
  simp only [ok_bind]
  exact ⟨cv0, rfl, len0, by rw [at0]⟩

theorem avx2Build1_ok {addr : Nat} {input : Vec Nat} {t : Tree} (h1 : 0 < n) (h2 : n ≤ 128)
    (hM : M ≤ 512) (hin : InputOK b avx2Fam M A input n)
    (ha : TreeAlign b addr n avx2Node128 (avx2Cs 1)) :
    ∃ t', treeBuild b avx2Fam 1 addr input n t = ok t' ∧ t'.mem.addr = addr ∧
      TreeInv avx2Node128 (avx2Cs 1) M A n t' := by
  have hpos : 0 < n := by omega
  obtain a1 := avx2_al1 h2 hpos ha
  obtain ⟨cv, elev, hlen, q0⟩ := avx2_levels1 (b := b) h1 h2
  have hc0 : ceilDiv n 128 = 1 := by
    show (n + 128 - 1) / 128 = 1
    omega
  unfold treeBuild
  rw [massert_ok (by simp; omega), elev]
  simp only [ok_bind]
  have htot : add64 (0 + 1 * 288) (1 * 4) = 4 + 1 * 288 := by arith64
  rw [htot]
  obtain ⟨m0, e0, s0, r0⟩ := header_ok (b := b) (H := 1) (cv := cv)
    (m := t.mem.resize addr (4 + 1 * 288)) hlen
    (by
      intro l hl
      have : l = 0 := by omega
      rcases this with rfl
      · rw [q0]; omega)
    (show 4 ≤ 4 + 1 * 288 by omega) ha.hdr
  rw [e0]
  simp only [ok_bind, if_neg (show ¬ (1 = 0) by omega)]
  rw [Vec.get_ok (show 1 - 1 < cv.len by omega)]
  simp only [ok_bind]
  rw [show cv.f (1 - 1) = 1 from q0]
  have hsz0 : m0.size = 4 + 1 * 288 := s0.size
  have had0 : m0.addr = addr := s0.addr
  have hb0 : sub64 (4 + 1 * 288) (mul64 (1) avx2Node128.bytes) = 4 := by
    show sub64 (4 + 1 * 288) (mul64 (1) 288) = 4
    rw [mul64_eq (by simp only [W64]; omega), sub64_eq (by omega) (by simp only [W64]; omega)]
  rw [show avx2Fam.leaf = avx2Node128 from rfl, hb0]
  obtain ⟨m1, e1, l1, s1⟩ := buildLeaves_ok (b := b) (fam := avx2Fam) (M := M) (n := n)
    (begin_ := 4) (nodes := 1) (A := A) (input := input) (m := m0)
    avx2Node128_wf (avx2_fits1.mono hM) hin (hc0.symm)
    (by rw [hsz0]; show _ + _ * 288 ≤ _; omega)
    (by rw [had0]; rw [← hc0]; exact a1)
  replace s1 : SameOff m0 m1 4 (4 + 1 * 288) := s1
  rw [e1]
  simp only [ok_bind]
  rw [show avx2Fam.uppers = [avx2Node64, avx2Node64, avx2Node32] from rfl, show avx2Node128.fanout = 128 from rfl]
  have hsz1 : m1.size = 4 + 1 * 288 := by rw [s1.size]; exact hsz0
  have had1 : m1.addr = addr := by rw [s1.addr]; exact had0
  simp only [Nat.sub_self]
  rw [buildUppers]
  simp only []
  rw [if_neg (Nat.lt_irrefl 0)]
  simp only [ok_bind]
  rw [buildUppers]
  simp only []
  rw [if_neg (Nat.lt_irrefl 0)]
  simp only [ok_bind]
  rw [buildUppers]
  simp only []
  rw [if_neg (Nat.lt_irrefl 0)]
  simp only [ok_bind]
  rw [buildUppers]
  simp only [ok_bind]
  rw [massert_ok (by simp)]
  simp only [ok_bind]
  refine ⟨_, rfl, had1, ?_, rfl, rfl, hpos, h2, by omega, hin.le, hin.zero, ?_, ?_, ?_⟩
  · show n % 2 ^ 32 = n
    omega
  · show m1.size = _
    rw [hsz1]
    show 4 + 1 * 288 = 4 + (ceilDiv n 128 * 288)
    rw [hc0]
  · intro l k hk
    have hl' : l < 1 := (List.getElem?_eq_some_iff.1 hk).1
    show rd m1 _ _ = _
    rw [s1.rd (by omega), r0 l hl']
    have : l = 0 := by omega
    rcases this with rfl
    · rw [q0, ← hc0]; exact Option.some.inj hk
  · exact (avx2_lvl1 h2 hpos).2 l1

/-! ### Height 2 -/

theorem avx2_levels2 (h1 : 128 < n) (h2 : n ≤ 8192) :
    ∃ cv, levels b avx2Fam 2 n = ok ⟨1, 0, cv, 0 + ceilDiv n 128 * 288 + 1 * 288⟩ ∧ cv.len = 2 ∧
      cv.f 0 = 1 ∧ cv.f 1 = ceilDiv n 128 := by
  have hc0 : ceilDiv n 8192 = 1 := by
    show (n + 8192 - 1) / 8192 = 1
    omega
  have hN1 : ceilDiv n 128 ≤ 64 := by
    show (n + 128 - 1) / 128 ≤ 64
    omega
  unfold levels
  have k0 : ceilDiv (n) avx2Node128.fanout = ceilDiv n 128 := by
    rfl
  obtain ⟨cv0, e0, len0, at0, ot0⟩ := levelPush_ok (c := avx2Node128) (m := n) (h := 1)
    (tot := 0) (cv := (⟨2, fun _ => 0⟩ : Vec Nat)) (by show 1 < 2; omega)
    (by rw [k0]; omega) (by rw [k0]; show _ + _ * 288 < W64; simp only [W64]; omega)
  rw [k0] at e0 at0
  replace e0 : levelPush avx2Node128 ⟨n, 1 + 1, (⟨2, fun _ => 0⟩ : Vec Nat), 0⟩ = ok ⟨ceilDiv n 128, 1, cv0, 0 + ceilDiv n 128 * 288⟩ := e0
  rw [show avx2Fam.leaf = avx2Node128 from rfl, e0]
  simp only [ok_bind]
  show ∃ cv, (do
      let s ← levelUppers [avx2Node64, avx2Node64, avx2Node32] ⟨ceilDiv n 128, 1, cv0, 0 + ceilDiv n 128 * 288⟩
      massert b (decide (s.m = 1))
      ok s : Outcome LevelSt) = _ ∧ _
  replace len0 : cv0.len = 2 := len0
  have k1 : ceilDiv (ceilDiv n 128) avx2Node64.fanout = 1 := by
    rw [ceilDiv_ceilDiv n 128 avx2Node64.fanout (by decide) (by decide)]
    exact hc0
  obtain ⟨cv1, e1, len1, at1, ot1⟩ := levelPush_ok (c := avx2Node64) (m := ceilDiv n 128) (h := 0)
    (tot := 0 + ceilDiv n 128 * 288) (cv := cv0) (by rw [len0]; omega)
    (by rw [k1]; omega) (by rw [k1]; show _ + _ * 288 < W64; simp only [W64]; omega)
  rw [k1] at e1 at1
  replace e1 : levelPush avx2Node64 ⟨ceilDiv n 128, 0 + 1, cv0, 0 + ceilDiv n 128 * 288⟩ = ok ⟨1, 0, cv1, 0 + ceilDiv n 128 * 288 + 1 * 288⟩ := e1
  rw [levelUppers]
  simp only []
  rw [if_pos (show ceilDiv n 128 > 1 by
    show 1 < (n + 128 - 1) / 128
    omega)]
  rw [e1]
  simp only [ok_bind]
  rw [len0] at len1
  rw [levelUppers]
  simp only []
  rw [if_neg (Nat.lt_irrefl 1)]
  simp only [ok_bind]
  rw [levelUppers]
  simp only []
  rw [if_neg (Nat.lt_irrefl 1)]
  simp only [ok_bind]
  rw [levelUppers]
  simp only [ok_bind]
  rw [massert_ok (by simp)]
  simp only [ok_bind]
  exact ⟨cv1, rfl, len1, by rw [at1], by rw [ot1 1 (by omega), at0]⟩

theorem avx2Build2_ok {addr : Nat} {input : Vec Nat} {t : Tree} (h1 : 128 < n) (h2 : n ≤ 8192)
    (hM : M ≤ 512) (hin : InputOK b avx2Fam M A input n)
    (ha : TreeAlign b addr n avx2Node128 (avx2Cs 2)) :
    ∃ t', treeBuild b avx2Fam 2 addr input n t = ok t' ∧ t'.mem.addr = addr ∧
      TreeInv avx2Node128 (avx2Cs 2) M A n t' := by
  have hpos : 0 < n := by omega
  obtain ⟨a1, a2⟩ := avx2_al2 h2 hpos ha
  obtain ⟨cv, elev, hlen, q0, q1⟩ := avx2_levels2 (b := b) h1 h2
  have hc0 : ceilDiv n 8192 = 1 := by
    show (n + 8192 - 1) / 8192 = 1
    omega
  have hN1 : ceilDiv n 128 ≤ 64 := by
    show (n + 128 - 1) / 128 ≤ 64
    omega
  unfold treeBuild
  rw [massert_ok (by simp; omega), elev]
  simp only [ok_bind]
  have htot : add64 (0 + ceilDiv n 128 * 288 + 1 * 288) (2 * 4) = 8 + 1 * 288 + ceilDiv n 128 * 288 := by arith64
  rw [htot]
  obtain ⟨m0, e0, s0, r0⟩ := header_ok (b := b) (H := 2) (cv := cv)
    (m := t.mem.resize addr (8 + 1 * 288 + ceilDiv n 128 * 288)) hlen
    (by
      intro l hl
      have : l = 0 ∨ l = 1 := by omega
      rcases this with rfl | rfl
      · rw [q0]; omega
      · rw [q1]; omega)
    (show 8 ≤ 8 + 1 * 288 + ceilDiv n 128 * 288 by omega) ha.hdr
  rw [e0]
  simp only [ok_bind, if_neg (show ¬ (2 = 0) by omega)]
  rw [Vec.get_ok (show 2 - 1 < cv.len by omega)]
  simp only [ok_bind]
  rw [show cv.f (2 - 1) = ceilDiv n 128 from q1]
  have hsz0 : m0.size = 8 + 1 * 288 + ceilDiv n 128 * 288 := s0.size
  have had0 : m0.addr = addr := s0.addr
  have hb0 : sub64 (8 + 1 * 288 + ceilDiv n 128 * 288) (mul64 (ceilDiv n 128) avx2Node128.bytes) = 296 := by
    show sub64 (8 + 1 * 288 + ceilDiv n 128 * 288) (mul64 (ceilDiv n 128) 288) = 296
    rw [mul64_eq (by simp only [W64]; omega), sub64_eq (by omega) (by simp only [W64]; omega)]
    omega
  rw [show avx2Fam.leaf = avx2Node128 from rfl, hb0]
  obtain ⟨m1, e1, l1, s1⟩ := buildLeaves_ok (b := b) (fam := avx2Fam) (M := M) (n := n)
    (begin_ := 296) (nodes := ceilDiv n 128) (A := A) (input := input) (m := m0)
    avx2Node128_wf (avx2_fits1.mono hM) hin (rfl)
    (by rw [hsz0]; show _ + _ * 288 ≤ _; omega)
    (by rw [had0]; exact a2)
  replace s1 : SameOff m0 m1 296 (296 + ceilDiv n 128 * 288) := s1
  rw [e1]
  simp only [ok_bind]
  rw [show avx2Fam.uppers = [avx2Node64, avx2Node64, avx2Node32] from rfl, show avx2Node128.fanout = 128 from rfl]
  have hsz1 : m1.size = 8 + 1 * 288 + ceilDiv n 128 * 288 := by rw [s1.size]; exact hsz0
  have had1 : m1.addr = addr := by rw [s1.addr]; exact had0
  obtain ⟨m2, e2, l2, s2⟩ := buildUppers_step (b := b) (c := avx2Node64)
    (cs := [avx2Node64, avx2Node32]) (M := M) (n := n) (off := 8) (nodes := 1) (step := 128)
    (begin_ := 296) (h := 0) (A := A) (input := input) (counts := cv) (m := m1)
    avx2Node64_wf (avx2_fits2.mono hM) hin.len hin.val hin.le hin.zero
    (by rw [Vec.get_ok (by omega), q0]) (hc0.symm)
    (show 296 = 8 + 1 * 288 by omega) (by rw [hsz1]; omega)
    (by rw [hsz1]; simp only [W64]; omega) (by decide)
    (by rw [had1]; rw [← hc0]; exact a1)
  replace s2 : SameOff m1 m2 8 (8 + 1 * 288) := s2
  rw [show avx2Node64.fanout * 128 = 8192 by decide] at e2
  simp only [Nat.reduceAdd, Nat.reduceSub] at e2 ⊢
  rw [e2]
  have hsz2 : m2.size = 8 + 1 * 288 + ceilDiv n 128 * 288 := by rw [s2.size]; exact hsz1
  have had2 : m2.addr = addr := by rw [s2.addr]; exact had1
  rw [buildUppers]
  simp only []
  rw [if_neg (Nat.lt_irrefl 0)]
  simp only [ok_bind]
  rw [buildUppers]
  simp only []
  rw [if_neg (Nat.lt_irrefl 0)]
  simp only [ok_bind]
  rw [buildUppers]
  simp only [ok_bind]
  rw [massert_ok (by simp)]
  simp only [ok_bind]
  refine ⟨_, rfl, had2, ?_, rfl, rfl, hpos, h2, by omega, hin.le, hin.zero, ?_, ?_, ?_⟩
  · show n % 2 ^ 32 = n
    omega
  · show m2.size = _
    rw [hsz2]
    show 8 + 1 * 288 + ceilDiv n 128 * 288 = 8 + (ceilDiv n 8192 * 288 + (ceilDiv n 128 * 288))
    rw [hc0]; omega
  · intro l k hk
    have hl' : l < 2 := (List.getElem?_eq_some_iff.1 hk).1
    show rd m2 _ _ = _
    rw [s2.rd (by omega), s1.rd (by omega), r0 l hl']
    have : l = 0 ∨ l = 1 := by omega
    rcases this with rfl | rfl
    · rw [q0, ← hc0]; exact Option.some.inj hk
    · rw [q1]; exact Option.some.inj hk
  · exact (avx2_lvl2 h2 hpos).2 ⟨l2, ((l1).frame avx2Node128_wf s2 (Or.inr (by omega)))⟩

/-! ### Height 3 -/

theorem avx2_levels3 (h1 : 8192 < n) (h2 : n ≤ 524288) :
    ∃ cv, levels b avx2Fam 3 n = ok ⟨1, 0, cv, 0 + ceilDiv n 128 * 288 + ceilDiv n 8192 * 288 + 1 * 288⟩ ∧ cv.len = 3 ∧
      cv.f 0 = 1 ∧ cv.f 1 = ceilDiv n 8192 ∧ cv.f 2 = ceilDiv n 128 := by
  have hc0 : ceilDiv n 524288 = 1 := by
    show (n + 524288 - 1) / 524288 = 1
    omega
  have hN1 : ceilDiv n 8192 ≤ 64 := by
    show (n + 8192 - 1) / 8192 ≤ 64
    omega
  have hN2 : ceilDiv n 128 ≤ 4096 := by
    show (n + 128 - 1) / 128 ≤ 4096
    omega
  unfold levels
  have k0 : ceilDiv (n) avx2Node128.fanout = ceilDiv n 128 := by
    rfl
  obtain ⟨cv0, e0, len0, at0, ot0⟩ := levelPush_ok (c := avx2Node128) (m := n) (h := 2)
    (tot := 0) (cv := (⟨3, fun _ => 0⟩ : Vec Nat)) (by show 2 < 3; omega)
    (by rw [k0]; omega) (by rw [k0]; show _ + _ * 288 < W64; simp only [W64]; omega)
  rw [k0] at e0 at0
  replace e0 : levelPush avx2Node128 ⟨n, 2 + 1, (⟨3, fun _ => 0⟩ : Vec Nat), 0⟩ = ok ⟨ceilDiv n 128, 2, cv0, 0 + ceilDiv n 128 * 288⟩ := e0
  rw [show avx2Fam.leaf = avx2Node128 from rfl, e0]
  simp only [ok_bind]
  show ∃ cv, (do
      let s ← levelUppers [avx2Node64, avx2Node64, avx2Node32] ⟨ceilDiv n 128, 2, cv0, 0 + ceilDiv n 128 * 288⟩
      massert b (decide (s.m = 1))
      ok s : Outcome LevelSt) = _ ∧ _
  replace len0 : cv0.len = 3 := len0
  have k1 : ceilDiv (ceilDiv n 128) avx2Node64.fanout = ceilDiv n 8192 := by
    rw [ceilDiv_ceilDiv n 128 avx2Node64.fanout (by decide) (by decide)]
    rfl
  obtain ⟨cv1, e1, len1, at1, ot1⟩ := levelPush_ok (c := avx2Node64) (m := ceilDiv n 128) (h := 1)
    (tot := 0 + ceilDiv n 128 * 288) (cv := cv0) (by rw [len0]; omega)
    (by rw [k1]; omega) (by rw [k1]; show _ + _ * 288 < W64; simp only [W64]; omega)
  rw [k1] at e1 at1
  replace e1 : levelPush avx2Node64 ⟨ceilDiv n 128, 1 + 1, cv0, 0 + ceilDiv n 128 * 288⟩ = ok ⟨ceilDiv n 8192, 1, cv1, 0 + ceilDiv n 128 * 288 + ceilDiv n 8192 * 288⟩ := e1
  rw [levelUppers]
  simp only []
  rw [if_pos (show ceilDiv n 128 > 1 by
    show 1 < (n + 128 - 1) / 128
    omega)]
  rw [e1]
  simp only [ok_bind]
  rw [len0] at len1
  have k2 : ceilDiv (ceilDiv n 8192) avx2Node64.fanout = 1 := by
    rw [ceilDiv_ceilDiv n 8192 avx2Node64.fanout (by decide) (by decide)]
    exact hc0
  obtain ⟨cv2, e2, len2, at2, ot2⟩ := levelPush_ok (c := avx2Node64) (m := ceilDiv n 8192) (h := 0)
    (tot := 0 + ceilDiv n 128 * 288 + ceilDiv n 8192 * 288) (cv := cv1) (by rw [len1]; omega)
    (by rw [k2]; omega) (by rw [k2]; show _ + _ * 288 < W64; simp only [W64]; omega)
  rw [k2] at e2 at2
  replace e2 : levelPush avx2Node64 ⟨ceilDiv n 8192, 0 + 1, cv1, 0 + ceilDiv n 128 * 288 + ceilDiv n 8192 * 288⟩ = ok ⟨1, 0, cv2, 0 + ceilDiv n 128 * 288 + ceilDiv n 8192 * 288 + 1 * 288⟩ := e2
  rw [levelUppers]
  simp only []
  rw [if_pos (show ceilDiv n 8192 > 1 by
    show 1 < (n + 8192 - 1) / 8192
    omega)]
  rw [e2]
  simp only [ok_bind]
  rw [len1] at len2
  rw [levelUppers]
  simp only []
  rw [if_neg (Nat.lt_irrefl 1)]
  simp only [ok_bind]
  rw [levelUppers]
  simp only [ok_bind]
  rw [massert_ok (by simp)]
  simp only [ok_bind]
  exact ⟨cv2, rfl, len2, by rw [at2], by rw [ot2 1 (by omega), at1], by rw [ot2 2 (by omega), ot1 2 (by omega), at0]⟩

theorem avx2Build3_ok {addr : Nat} {input : Vec Nat} {t : Tree} (h1 : 8192 < n) (h2 : n ≤ 524288)
    (hM : M ≤ 512) (hin : InputOK b avx2Fam M A input n)
    (ha : TreeAlign b addr n avx2Node128 (avx2Cs 3)) :
    ∃ t', treeBuild b avx2Fam 3 addr input n t = ok t' ∧ t'.mem.addr = addr ∧
      TreeInv avx2Node128 (avx2Cs 3) M A n t' := by
  have hpos : 0 < n := by omega
  obtain ⟨a1, a2, a3⟩ := avx2_al3 h2 hpos ha
  obtain ⟨cv, elev, hlen, q0, q1, q2⟩ := avx2_levels3 (b := b) h1 h2
  have hc0 : ceilDiv n 524288 = 1 := by
    show (n + 524288 - 1) / 524288 = 1
    omega
  have hN1 : ceilDiv n 8192 ≤ 64 := by
    show (n + 8192 - 1) / 8192 ≤ 64
    omega
  have hN2 : ceilDiv n 128 ≤ 4096 := by
    show (n + 128 - 1) / 128 ≤ 4096
    omega
  unfold treeBuild
  rw [massert_ok (by simp; omega), elev]
  simp only [ok_bind]
  have htot : add64 (0 + ceilDiv n 128 * 288 + ceilDiv n 8192 * 288 + 1 * 288) (3 * 4) = 12 + 1 * 288 + ceilDiv n 8192 * 288 + ceilDiv n 128 * 288 := by arith64
  rw [htot]
  obtain ⟨m0, e0, s0, r0⟩ := header_ok (b := b) (H := 3) (cv := cv)
    (m := t.mem.resize addr (12 + 1 * 288 + ceilDiv n 8192 * 288 + ceilDiv n 128 * 288)) hlen
    (by
      intro l hl
      have : l = 0 ∨ l = 1 ∨ l = 2 := by omega
      rcases this with rfl | rfl | rfl
      · rw [q0]; omega
      · rw [q1]; omega
      · rw [q2]; omega)
    (show 12 ≤ 12 + 1 * 288 + ceilDiv n 8192 * 288 + ceilDiv n 128 * 288 by omega) ha.hdr
  rw [e0]
  simp only [ok_bind, if_neg (show ¬ (3 = 0) by omega)]
  rw [Vec.get_ok (show 3 - 1 < cv.len by omega)]
  simp only [ok_bind]
  rw [show cv.f (3 - 1) = ceilDiv n 128 from q2]
  have hsz0 : m0.size = 12 + 1 * 288 + ceilDiv n 8192 * 288 + ceilDiv n 128 * 288 := s0.size
  have had0 : m0.addr = addr := s0.addr
  have hb0 : sub64 (12 + 1 * 288 + ceilDiv n 8192 * 288 + ceilDiv n 128 * 288) (mul64 (ceilDiv n 128) avx2Node128.bytes) = (300 + ceilDiv n 8192 * 288) := by
    show sub64 (12 + 1 * 288 + ceilDiv n 8192 * 288 + ceilDiv n 128 * 288) (mul64 (ceilDiv n 128) 288) = (300 + ceilDiv n 8192 * 288)
    rw [mul64_eq (by simp only [W64]; omega), sub64_eq (by omega) (by simp only [W64]; omega)]
    omega
  rw [show avx2Fam.leaf = avx2Node128 from rfl, hb0]
  obtain ⟨m1, e1, l1, s1⟩ := buildLeaves_ok (b := b) (fam := avx2Fam) (M := M) (n := n)
    (begin_ := (300 + ceilDiv n 8192 * 288)) (nodes := ceilDiv n 128) (A := A) (input := input) (m := m0)
    avx2Node128_wf (avx2_fits1.mono hM) hin (rfl)
    (by rw [hsz0]; show _ + _ * 288 ≤ _; omega)
    (by rw [had0]; exact a3)
  replace s1 : SameOff m0 m1 (300 + ceilDiv n 8192 * 288) ((300 + ceilDiv n 8192 * 288) + ceilDiv n 128 * 288) := s1
  rw [e1]
  simp only [ok_bind]
  rw [show avx2Fam.uppers = [avx2Node64, avx2Node64, avx2Node32] from rfl, show avx2Node128.fanout = 128 from rfl]
  have hsz1 : m1.size = 12 + 1 * 288 + ceilDiv n 8192 * 288 + ceilDiv n 128 * 288 := by rw [s1.size]; exact hsz0
  have had1 : m1.addr = addr := by rw [s1.addr]; exact had0
  obtain ⟨m2, e2, l2, s2⟩ := buildUppers_step (b := b) (c := avx2Node64)
    (cs := [avx2Node64, avx2Node32]) (M := M) (n := n) (off := 300) (nodes := ceilDiv n 8192) (step := 128)
    (begin_ := (300 + ceilDiv n 8192 * 288)) (h := 1) (A := A) (input := input) (counts := cv) (m := m1)
    avx2Node64_wf (avx2_fits2.mono hM) hin.len hin.val hin.le hin.zero
    (by rw [Vec.get_ok (by omega), q1]) (rfl)
    (show (300 + ceilDiv n 8192 * 288) = 300 + ceilDiv n 8192 * 288 by omega) (by rw [hsz1]; omega)
    (by rw [hsz1]; simp only [W64]; omega) (by decide)
    (by rw [had1]; exact a2)
  replace s2 : SameOff m1 m2 300 (300 + ceilDiv n 8192 * 288) := s2
  rw [show avx2Node64.fanout * 128 = 8192 by decide] at e2
  simp only [Nat.reduceAdd, Nat.reduceSub] at e2 ⊢
  rw [e2]
  have hsz2 : m2.size = 12 + 1 * 288 + ceilDiv n 8192 * 288 + ceilDiv n 128 * 288 := by rw [s2.size]; exact hsz1
  have had2 : m2.addr = addr := by rw [s2.addr]; exact had1
  obtain ⟨m3, e3, l3, s3⟩ := buildUppers_step (b := b) (c := avx2Node64)
    (cs := [avx2Node32]) (M := M) (n := n) (off := 12) (nodes := 1) (step := 8192)
    (begin_ := 300) (h := 0) (A := A) (input := input) (counts := cv) (m := m2)
    avx2Node64_wf (avx2_fits3.mono hM) hin.len hin.val hin.le hin.zero
    (by rw [Vec.get_ok (by omega), q0]) (hc0.symm)
    (show 300 = 12 + 1 * 288 by omega) (by rw [hsz2]; omega)
    (by rw [hsz2]; simp only [W64]; omega) (by decide)
    (by rw [had2]; rw [← hc0]; exact a1)
  replace s3 : SameOff m2 m3 12 (12 + 1 * 288) := s3
  rw [show avx2Node64.fanout * 8192 = 524288 by decide] at e3
  simp only [Nat.reduceAdd, Nat.reduceSub] at e3 ⊢
  rw [e3]
  have hsz3 : m3.size = 12 + 1 * 288 + ceilDiv n 8192 * 288 + ceilDiv n 128 * 288 := by rw [s3.size]; exact hsz2
  have had3 : m3.addr = addr := by rw [s3.addr]; exact had2
  rw [buildUppers]
  simp only []
  rw [if_neg (Nat.lt_irrefl 0)]
  simp only [ok_bind]
  rw [buildUppers]
  simp only [ok_bind]
  rw [massert_ok (by simp)]
  simp only [ok_bind]
  refine ⟨_, rfl, had3, ?_, rfl, rfl, hpos, h2, by omega, hin.le, hin.zero, ?_, ?_, ?_⟩
  · show n % 2 ^ 32 = n
    omega
  · show m3.size = _
    rw [hsz3]
    show 12 + 1 * 288 + ceilDiv n 8192 * 288 + ceilDiv n 128 * 288 = 12 + (ceilDiv n 524288 * 288 + (ceilDiv n 8192 * 288 + (ceilDiv n 128 * 288)))
    rw [hc0]; omega
  · intro l k hk
    have hl' : l < 3 := (List.getElem?_eq_some_iff.1 hk).1
    show rd m3 _ _ = _
    rw [s3.rd (by omega), s2.rd (by omega), s1.rd (by omega), r0 l hl']
    have : l = 0 ∨ l = 1 ∨ l = 2 := by omega
    rcases this with rfl | rfl | rfl
    · rw [q0, ← hc0]; exact Option.some.inj hk
    · rw [q1]; exact Option.some.inj hk
    · rw [q2]; exact Option.some.inj hk
  · exact (avx2_lvl3 h2 hpos).2 ⟨l3, ((l2).frame avx2Node64_wf s3 (Or.inr (by omega))), ((((l1).frame avx2Node128_wf s2 (Or.inr (by omega)))).frame avx2Node128_wf s3 (Or.inr (by omega)))⟩

/-! ### Height 4 -/

theorem avx2_levels4 (h1 : 524288 < n) (h2 : n ≤ 16777216) :
    ∃ cv, levels b avx2Fam 4 n = ok ⟨1, 0, cv, 0 + ceilDiv n 128 * 288 + ceilDiv n 8192 * 288 + ceilDiv n 524288 * 288 + 1 * 160⟩ ∧ cv.len = 4 ∧
      cv.f 0 = 1 ∧ cv.f 1 = ceilDiv n 524288 ∧ cv.f 2 = ceilDiv n 8192 ∧ cv.f 3 = ceilDiv n 128 := by
  have hc0 : ceilDiv n 16777216 = 1 := by
    show (n + 16777216 - 1) / 16777216 = 1
    omega
  have hN1 : ceilDiv n 524288 ≤ 32 := by
    show (n + 524288 - 1) / 524288 ≤ 32
    omega
  have hN2 : ceilDiv n 8192 ≤ 2048 := by
    show (n + 8192 - 1) / 8192 ≤ 2048
    omega
  have hN3 : ceilDiv n 128 ≤ 131072 := by
    show (n + 128 - 1) / 128 ≤ 131072
    omega
  unfold levels
  have k0 : ceilDiv (n) avx2Node128.fanout = ceilDiv n 128 := by
    rfl
  obtain ⟨cv0, e0, len0, at0, ot0⟩ := levelPush_ok (c := avx2Node128) (m := n) (h := 3)
    (tot := 0) (cv := (⟨4, fun _ => 0⟩ : Vec Nat)) (by show 3 < 4; omega)
    (by rw [k0]; omega) (by rw [k0]; show _ + _ * 288 < W64; simp only [W64]; omega)
  rw [k0] at e0 at0
  replace e0 : levelPush avx2Node128 ⟨n, 3 + 1, (⟨4, fun _ => 0⟩ : Vec Nat), 0⟩ = ok ⟨ceilDiv n 128, 3, cv0, 0 + ceilDiv n 128 * 288⟩ := e0
  rw [show avx2Fam.leaf = avx2Node128 from rfl, e0]
  simp only [ok_bind]
  show ∃ cv, (do
      let s ← levelUppers [avx2Node64, avx2Node64, avx2Node32] ⟨ceilDiv n 128, 3, cv0, 0 + ceilDiv n 128 * 288⟩
      massert b (decide (s.m = 1))
      ok s : Outcome LevelSt) = _ ∧ _
  replace len0 : cv0.len = 4 := len0
  have k1 : ceilDiv (ceilDiv n 128) avx2Node64.fanout = ceilDiv n 8192 := by
    rw [ceilDiv_ceilDiv n 128 avx2Node64.fanout (by decide) (by decide)]
    rfl
  obtain ⟨cv1, e1, len1, at1, ot1⟩ := levelPush_ok (c := avx2Node64) (m := ceilDiv n 128) (h := 2)
    (tot := 0 + ceilDiv n 128 * 288) (cv := cv0) (by rw [len0]; omega)
    (by rw [k1]; omega) (by rw [k1]; show _ + _ * 288 < W64; simp only [W64]; omega)
  rw [k1] at e1 at1
  replace e1 : levelPush avx2Node64 ⟨ceilDiv n 128, 2 + 1, cv0, 0 + ceilDiv n 128 * 288⟩ = ok ⟨ceilDiv n 8192, 2, cv1, 0 + ceilDiv n 128 * 288 + ceilDiv n 8192 * 288⟩ := e1
  rw [levelUppers]
  simp only []
  rw [if_pos (show ceilDiv n 128 > 1 by
    show 1 < (n + 128 - 1) / 128
    omega)]
  rw [e1]
  simp only [ok_bind]
  rw [len0] at len1
  have k2 : ceilDiv (ceilDiv n 8192) avx2Node64.fanout = ceilDiv n 524288 := by
    rw [ceilDiv_ceilDiv n 8192 avx2Node64.fanout (by decide) (by decide)]
    rfl
  obtain ⟨cv2, e2, len2, at2, ot2⟩ := levelPush_ok (c := avx2Node64) (m := ceilDiv n 8192) (h := 1)
    (tot := 0 + ceilDiv n 128 * 288 + ceilDiv n 8192 * 288) (cv := cv1) (by rw [len1]; omega)
    (by rw [k2]; omega) (by rw [k2]; show _ + _ * 288 < W64; simp only [W64]; omega)
  rw [k2] at e2 at2
  replace e2 : levelPush avx2Node64 ⟨ceilDiv n 8192, 1 + 1, cv1, 0 + ceilDiv n 128 * 288 + ceilDiv n 8192 * 288⟩ = ok ⟨ceilDiv n 524288, 1, cv2, 0 + ceilDiv n 128 * 288 + ceilDiv n 8192 * 288 + ceilDiv n 524288 * 288⟩ := e2
  rw [levelUppers]
  simp only []
  rw [if_pos (show ceilDiv n 8192 > 1 by
    show 1 < (n + 8192 - 1) / 8192
    omega)]
  rw [e2]
  simp only [ok_bind]
  rw [len1] at len2
  have k3 : ceilDiv (ceilDiv n 524288) avx2Node32.fanout = 1 := by
    rw [ceilDiv_ceilDiv n 524288 avx2Node32.fanout (by decide) (by decide)]
    exact hc0
  obtain ⟨cv3, e3, len3, at3, ot3⟩ := levelPush_ok (c := avx2Node32) (m := ceilDiv n 524288) (h := 0)
    (tot := 0 + ceilDiv n 128 * 288 + ceilDiv n 8192 * 288 + ceilDiv n 524288 * 288) (cv := cv2) (by rw [len2]; omega)
    (by rw [k3]; omega) (by rw [k3]; show _ + _ * 160 < W64; simp only [W64]; omega)
  rw [k3] at e3 at3
  replace e3 : levelPush avx2Node32 ⟨ceilDiv n 524288, 0 + 1, cv2, 0 + ceilDiv n 128 * 288 + ceilDiv n 8192 * 288 + ceilDiv n 524288 * 288⟩ = ok ⟨1, 0, cv3, 0 + ceilDiv n 128 * 288 + ceilDiv n 8192 * 288 + ceilDiv n 524288 * 288 + 1 * 160⟩ := e3
  rw [levelUppers]
  simp only []
  rw [if_pos (show ceilDiv n 524288 > 1 by
    show 1 < (n + 524288 - 1) / 524288
    omega)]
  rw [e3]
  simp only [ok_bind]
  rw [len2] at len3
  rw [levelUppers]
  simp only [ok_bind]
  rw [massert_ok (by simp)]
  simp only [ok_bind]
  exact ⟨cv3, rfl, len3, by rw [at3], by rw [ot3 1 (by omega), at2], by rw [ot3 2 (by omega), ot2 2 (by omega), at1], by rw [ot3 3 (by omega), ot2 3 (by omega), ot1 3 (by omega), at0]⟩

theorem avx2Build4_ok {addr : Nat} {input : Vec Nat} {t : Tree} (h1 : 524288 < n) (h2 : n ≤ 16777216)
    (hM : M ≤ 512) (hin : InputOK b avx2Fam M A input n)
    (ha : TreeAlign b addr n avx2Node128 (avx2Cs 4)) :
    ∃ t', treeBuild b avx2Fam 4 addr input n t = ok t' ∧ t'.mem.addr = addr ∧
      TreeInv avx2Node128 (avx2Cs 4) M A n t' := by
  have hpos : 0 < n := by omega
  obtain ⟨a1, a2, a3, a4⟩ := avx2_al4 h2 hpos ha
  obtain ⟨cv, elev, hlen, q0, q1, q2, q3⟩ := avx2_levels4 (b := b) h1 h2
  have hc0 : ceilDiv n 16777216 = 1 := by
    show (n + 16777216 - 1) / 16777216 = 1
    omega
  have hN1 : ceilDiv n 524288 ≤ 32 := by
    show (n + 524288 - 1) / 524288 ≤ 32
    omega
  have hN2 : ceilDiv n 8192 ≤ 2048 := by
    show (n + 8192 - 1) / 8192 ≤ 2048
    omega
  have hN3 : ceilDiv n 128 ≤ 131072 := by
    show (n + 128 - 1) / 128 ≤ 131072
    omega
  unfold treeBuild
  rw [massert_ok (by simp; omega), elev]
  simp only [ok_bind]
  have htot : add64 (0 + ceilDiv n 128 * 288 + ceilDiv n 8192 * 288 + ceilDiv n 524288 * 288 + 1 * 160) (4 * 4) = 16 + 1 * 160 + ceilDiv n 524288 * 288 + ceilDiv n 8192 * 288 + ceilDiv n 128 * 288 := by arith64
  rw [htot]
  obtain ⟨m0, e0, s0, r0⟩ := header_ok (b := b) (H := 4) (cv := cv)
    (m := t.mem.resize addr (16 + 1 * 160 + ceilDiv n 524288 * 288 + ceilDiv n 8192 * 288 + ceilDiv n 128 * 288)) hlen
    (by
      intro l hl
      have : l = 0 ∨ l = 1 ∨ l = 2 ∨ l = 3 := by omega
      rcases this with rfl | rfl | rfl | rfl
      · rw [q0]; omega
      · rw [q1]; omega
      · rw [q2]; omega
      · rw [q3]; omega)
    (show 16 ≤ 16 + 1 * 160 + ceilDiv n 524288 * 288 + ceilDiv n 8192 * 288 + ceilDiv n 128 * 288 by omega) ha.hdr
  rw [e0]
  simp only [ok_bind, if_neg (show ¬ (4 = 0) by omega)]
  rw [Vec.get_ok (show 4 - 1 < cv.len by omega)]
  simp only [ok_bind]
  rw [show cv.f (4 - 1) = ceilDiv n 128 from q3]
  have hsz0 : m0.size = 16 + 1 * 160 + ceilDiv n 524288 * 288 + ceilDiv n 8192 * 288 + ceilDiv n 128 * 288 := s0.size
  have had0 : m0.addr = addr := s0.addr
  have hb0 : sub64 (16 + 1 * 160 + ceilDiv n 524288 * 288 + ceilDiv n 8192 * 288 + ceilDiv n 128 * 288) (mul64 (ceilDiv n 128) avx2Node128.bytes) = ((176 + ceilDiv n 524288 * 288) + ceilDiv n 8192 * 288) := by
    show sub64 (16 + 1 * 160 + ceilDiv n 524288 * 288 + ceilDiv n 8192 * 288 + ceilDiv n 128 * 288) (mul64 (ceilDiv n 128) 288) = ((176 + ceilDiv n 524288 * 288) + ceilDiv n 8192 * 288)
    rw [mul64_eq (by simp only [W64]; omega), sub64_eq (by omega) (by simp only [W64]; omega)]
    omega
  rw [show avx2Fam.leaf = avx2Node128 from rfl, hb0]
  obtain ⟨m1, e1, l1, s1⟩ := buildLeaves_ok (b := b) (fam := avx2Fam) (M := M) (n := n)
    (begin_ := ((176 + ceilDiv n 524288 * 288) + ceilDiv n 8192 * 288)) (nodes := ceilDiv n 128) (A := A) (input := input) (m := m0)
    avx2Node128_wf (avx2_fits1.mono hM) hin (rfl)
    (by rw [hsz0]; show _ + _ * 288 ≤ _; omega)
    (by rw [had0]; exact a4)
  replace s1 : SameOff m0 m1 ((176 + ceilDiv n 524288 * 288) + ceilDiv n 8192 * 288) (((176 + ceilDiv n 524288 * 288) + ceilDiv n 8192 * 288) + ceilDiv n 128 * 288) := s1
  rw [e1]
  simp only [ok_bind]
  rw [show avx2Fam.uppers = [avx2Node64, avx2Node64, avx2Node32] from rfl, show avx2Node128.fanout = 128 from rfl]
  have hsz1 : m1.size = 16 + 1 * 160 + ceilDiv n 524288 * 288 + ceilDiv n 8192 * 288 + ceilDiv n 128 * 288 := by rw [s1.size]; exact hsz0
  have had1 : m1.addr = addr := by rw [s1.addr]; exact had0
  obtain ⟨m2, e2, l2, s2⟩ := buildUppers_step (b := b) (c := avx2Node64)
    (cs := [avx2Node64, avx2Node32]) (M := M) (n := n) (off := (176 + ceilDiv n 524288 * 288)) (nodes := ceilDiv n 8192) (step := 128)
    (begin_ := ((176 + ceilDiv n 524288 * 288) + ceilDiv n 8192 * 288)) (h := 2) (A := A) (input := input) (counts := cv) (m := m1)
    avx2Node64_wf (avx2_fits2.mono hM) hin.len hin.val hin.le hin.zero
    (by rw [Vec.get_ok (by omega), q2]) (rfl)
    (show ((176 + ceilDiv n 524288 * 288) + ceilDiv n 8192 * 288) = (176 + ceilDiv n 524288 * 288) + ceilDiv n 8192 * 288 by omega) (by rw [hsz1]; omega)
    (by rw [hsz1]; simp only [W64]; omega) (by decide)
    (by rw [had1]; exact a3)
  replace s2 : SameOff m1 m2 (176 + ceilDiv n 524288 * 288) ((176 + ceilDiv n 524288 * 288) + ceilDiv n 8192 * 288) := s2
  rw [show avx2Node64.fanout * 128 = 8192 by decide] at e2
  simp only [Nat.reduceAdd, Nat.reduceSub] at e2 ⊢
  rw [e2]
  have hsz2 : m2.size = 16 + 1 * 160 + ceilDiv n 524288 * 288 + ceilDiv n 8192 * 288 + ceilDiv n 128 * 288 := by rw [s2.size]; exact hsz1
  have had2 : m2.addr = addr := by rw [s2.addr]; exact had1
  obtain ⟨m3, e3, l3, s3⟩ := buildUppers_step (b := b) (c := avx2Node64)
    (cs := [avx2Node32]) (M := M) (n := n) (off := 176) (nodes := ceilDiv n 524288) (step := 8192)
    (begin_ := (176 + ceilDiv n 524288 * 288)) (h := 1) (A := A) (input := input) (counts := cv) (m := m2)
    avx2Node64_wf (avx2_fits3.mono hM) hin.len hin.val hin.le hin.zero
    (by rw [Vec.get_ok (by omega), q1]) (rfl)
    (show (176 + ceilDiv n 524288 * 288) = 176 + ceilDiv n 524288 * 288 by omega) (by rw [hsz2]; omega)
    (by rw [hsz2]; simp only [W64]; omega) (by decide)
    (by rw [had2]; exact a2)
  replace s3 : SameOff m2 m3 176 (176 + ceilDiv n 524288 * 288) := s3
  rw [show avx2Node64.fanout * 8192 = 524288 by decide] at e3
  simp only [Nat.reduceAdd, Nat.reduceSub] at e3 ⊢
  rw [e3]
  have hsz3 : m3.size = 16 + 1 * 160 + ceilDiv n 524288 * 288 + ceilDiv n 8192 * 288 + ceilDiv n 128 * 288 := by rw [s3.size]; exact hsz2
  have had3 : m3.addr = addr := by rw [s3.addr]; exact had2
  obtain ⟨m4, e4, l4, s4⟩ := buildUppers_step (b := b) (c := avx2Node32)
    (cs := []) (M := M) (n := n) (off := 16) (nodes := 1) (step := 524288)
    (begin_ := 176) (h := 0) (A := A) (input := input) (counts := cv) (m := m3)
    avx2Node32_wf (avx2_fits4.mono hM) hin.len hin.val hin.le hin.zero
    (by rw [Vec.get_ok (by omega), q0]) (hc0.symm)
    (show 176 = 16 + 1 * 160 by omega) (by rw [hsz3]; omega)
    (by rw [hsz3]; simp only [W64]; omega) (by decide)
    (by rw [had3]; rw [← hc0]; exact a1)
  replace s4 : SameOff m3 m4 16 (16 + 1 * 160) := s4
  rw [show avx2Node32.fanout * 524288 = 16777216 by decide] at e4
  simp only [Nat.reduceAdd, Nat.reduceSub] at e4 ⊢
  rw [e4]
  have hsz4 : m4.size = 16 + 1 * 160 + ceilDiv n 524288 * 288 + ceilDiv n 8192 * 288 + ceilDiv n 128 * 288 := by rw [s4.size]; exact hsz3
  have had4 : m4.addr = addr := by rw [s4.addr]; exact had3
  rw [buildUppers]
  simp only [ok_bind]
  rw [massert_ok (by simp)]
  simp only [ok_bind]
  refine ⟨_, rfl, had4, ?_, rfl, rfl, hpos, h2, by omega, hin.le, hin.zero, ?_, ?_, ?_⟩
  · show n % 2 ^ 32 = n
    omega
  · show m4.size = _
    rw [hsz4]
    show 16 + 1 * 160 + ceilDiv n 524288 * 288 + ceilDiv n 8192 * 288 + ceilDiv n 128 * 288 = 16 + (ceilDiv n 16777216 * 160 + (ceilDiv n 524288 * 288 + (ceilDiv n 8192 * 288 + (ceilDiv n 128 * 288))))
    rw [hc0]; omega
  · intro l k hk
    have hl' : l < 4 := (List.getElem?_eq_some_iff.1 hk).1
    show rd m4 _ _ = _
    rw [s4.rd (by omega), s3.rd (by omega), s2.rd (by omega), s1.rd (by omega), r0 l hl']
    have : l = 0 ∨ l = 1 ∨ l = 2 ∨ l = 3 := by omega
    rcases this with rfl | rfl | rfl | rfl
    · rw [q0, ← hc0]; exact Option.some.inj hk
    · rw [q1]; exact Option.some.inj hk
    · rw [q2]; exact Option.some.inj hk
    · rw [q3]; exact Option.some.inj hk
  · exact (avx2_lvl4 h2 hpos).2 ⟨l4, ((l3).frame avx2Node64_wf s4 (Or.inr (by omega))), ((((l2).frame avx2Node64_wf s3 (Or.inr (by omega)))).frame avx2Node64_wf s4 (Or.inr (by omega))), ((((((l1).frame avx2Node128_wf s2 (Or.inr (by omega)))).frame avx2Node128_wf s3 (Or.inr (by omega)))).frame avx2Node128_wf s4 (Or.inr (by omega)))⟩

end

end MRS
