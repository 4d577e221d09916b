import Verif.Proofs.TreeSpec
import Verif.Proofs.Avx2Build
import Verif.Proofs.Avx512Build
import Mathlib.Tactic.SplitIfs

/-!
# Template heights other than `height(n)`
-/

set_option autoImplicit false

namespace MRS
open Outcome Spec

/-- `levelPush` on a height that is already used up. -/
theorem levelPush_zero (c : NodeCfg) (s : LevelSt) (h : s.h = 0) : levelPush c s = ub .oob := by
  unfold levelPush; rw [if_pos h]

/-- Number of levels still to push, given the current number `m` of nodes. -/
def levelsNeeded : List NodeCfg → Nat → Nat
  | [], _ => 0
  | c :: cs, m => if m > 1 then levelsNeeded cs (ceilDiv m c.fanout) + 1 else levelsNeeded cs m

theorem levelUppers_short : ∀ (cs : List NodeCfg) (s : LevelSt), s.h ≤ s.counts.len →
    s.h < levelsNeeded cs s.m → levelUppers cs s = ub .oob := by
  intro cs
  induction cs with
  | nil => intro s _ h; simp [levelsNeeded] at h
  | cons c cs ih =>
    intro s hl h
    unfold levelUppers
    unfold levelsNeeded at h
    by_cases hm : s.m > 1
    · rw [if_pos hm] at h ⊢
      by_cases h0 : s.h = 0
      · rw [levelPush_zero c s h0]; rfl
      · have : levelPush c s = ok ⟨ceilDiv s.m c.fanout, s.h - 1,
            { s.counts with f := fun j => if j = s.h - 1 then ceilDiv s.m c.fanout % 2 ^ 32
                else s.counts.f j },
            add64 s.total (mul64 (ceilDiv s.m c.fanout) c.bytes)⟩ := by
          unfold levelPush
          simp only []
          rw [if_neg h0, Vec.set_ok _ (by omega)]; rfl
        rw [this, ok_bind]
        apply ih
        · simp only []; omega
        · simp only []; omega
    · rw [if_neg hm] at h ⊢
      exact ih s hl h

theorem levels_short {b : Build} {fam : Family} {H n : Nat}
    (h : H < levelsNeeded fam.uppers (ceilDiv n fam.leaf.fanout) + 1) :
    levels b fam H n = ub .oob := by
  unfold levels
  by_cases h0 : H = 0
  · rw [levelPush_zero _ _ h0]; rfl
  · have : levelPush fam.leaf ⟨n, H, ⟨H, fun _ => 0⟩, 0⟩ = ok ⟨ceilDiv n fam.leaf.fanout, H - 1,
        ⟨H, fun j => if j = H - 1 then ceilDiv n fam.leaf.fanout % 2 ^ 32 else 0⟩,
        add64 0 (mul64 (ceilDiv n fam.leaf.fanout) fam.leaf.bytes)⟩ := by
      unfold levelPush
      simp only []
      rw [if_neg h0, Vec.set_ok _ (by simp only []; omega)]; rfl
    rw [this, ok_bind, levelUppers_short]
    · rfl
    · simp only []; omega
    · simp only []; omega

theorem avx2_needed {n : Nat} (h : n ≤ 2 ^ 24) :
    avx2Height n = levelsNeeded avx2Fam.uppers (ceilDiv n avx2Fam.leaf.fanout) + 1 := by
  have a1 : (n + 127) / 128 > 1 ↔ n > 2 ^ 7 := by omega
  have a2 : ((n + 127) / 128 + 63) / 64 > 1 ↔ n > 2 ^ 13 := by omega
  have a3 : (((n + 127) / 128 + 63) / 64 + 63) / 64 > 1 ↔ n > 2 ^ 19 := by omega
  show avx2Height n = (if (n + 127) / 128 > 1 then
      (if ((n + 127) / 128 + 63) / 64 > 1 then
        (if (((n + 127) / 128 + 63) / 64 + 63) / 64 > 1 then 0 + 1 else 0) + 1
      else if ((n + 127) / 128 + 63) / 64 > 1 then 0 + 1 else 0) + 1
    else if (n + 127) / 128 > 1 then
      (if ((n + 127) / 128 + 63) / 64 > 1 then 0 + 1 else 0) + 1
    else if (n + 127) / 128 > 1 then 0 + 1 else 0) + 1
  simp only [a1, a2, a3, avx2Height]
  by_cases h1 : n ≤ 2 ^ 7
  · rw [if_pos h1, if_neg (by omega), if_neg (by omega), if_neg (by omega)]
  · rw [if_neg h1, if_pos (show n > 2 ^ 7 by omega)]
    by_cases h2 : n ≤ 2 ^ 13
    · rw [if_pos h2, if_neg (by omega), if_neg (by omega)]
    · rw [if_neg h2, if_pos (show n > 2 ^ 13 by omega)]
      by_cases h3 : n ≤ 2 ^ 19
      · rw [if_pos h3, if_neg (by omega)]
      · rw [if_neg h3, if_pos h, if_pos (show n > 2 ^ 19 by omega)]

theorem avx512_needed {n : Nat} (h : n ≤ 2 ^ 24) :
    avx512Height n = levelsNeeded avx512Fam.uppers (ceilDiv n avx512Fam.leaf.fanout) + 1 := by
  have a1 : (n + 511) / 512 > 1 ↔ n > 2 ^ 9 := by omega
  have a2 : ((n + 511) / 512 + 255) / 256 > 1 ↔ n > 2 ^ 17 := by omega
  show avx512Height n = (if (n + 511) / 512 > 1 then
      (if ((n + 511) / 512 + 255) / 256 > 1 then 0 + 1 else 0) + 1
    else if (n + 511) / 512 > 1 then 0 + 1 else 0) + 1
  simp only [a1, a2, avx512Height]
  by_cases h1 : n ≤ 2 ^ 9
  · rw [if_pos h1, if_neg (by omega), if_neg (by omega)]
  · rw [if_neg h1, if_pos (show n > 2 ^ 9 by omega)]
    by_cases h2 : n ≤ 2 ^ 17
    · rw [if_pos h2, if_neg (by omega)]
    · rw [if_neg h2, if_pos h, if_pos (show n > 2 ^ 17 by omega)]

/-- A template height below `height(n)` makes `build` write before the start of
`num_nodes_per_level`. -/
theorem treeBuild_short {b : Build} {fam : TreeFam} {H addr n : Nat} {input : Vec Nat} {t : Tree}
    (h0 : 0 < n) (hH : H < fam.height n) : treeBuild b fam.family H addr input n t = ub .oob := by
  have hn : n ≤ 2 ^ 24 := by
    rcases Nat.lt_or_ge (2 ^ 24) n with h | h
    · exfalso
      have : fam.height n = 0 := by
        cases fam
        · simp only [TreeFam.height, avx2Height]; split_ifs <;> omega
        · simp only [TreeFam.height, avx512Height]; split_ifs <;> omega
      omega
    · exact h
  unfold treeBuild
  rw [massert_ok (decide_eq_true ⟨h0, hn⟩), ok_bind, levels_short]
  · rfl
  · cases fam
    · exact (avx2_needed hn) ▸ hH
    · exact (avx512_needed hn) ▸ hH

theorem avx2_tall {b : Build} {M n addr : Nat} {A : Nat → Nat} {input : Vec Nat} {t : Tree}
    (h1 : 0 < n) (h2 : n ≤ 128) (hM : M ≤ 512) (hin : InputOK b avx2Fam M A input n)
    (hs : b.strictAlign = false) :
    ∃ t', treeBuild b avx2Fam 2 addr input n t = ok t' ∧ t'.size = n ∧ t'.ptr = some 8 ∧
      t'.mem.size = 8 + 288 := by
  have hc : ceilDiv n 128 = 1 := by show (n + 128 - 1) / 128 = 1; omega
  obtain ⟨cv, elev, hlen, q0, q1⟩ : ∃ cv, levels b avx2Fam 2 n = ok ⟨1, 1, cv, 288⟩ ∧ cv.len = 2 ∧
      cv.f 0 = 0 ∧ cv.f 1 = 1 := by
    refine ⟨⟨2, fun j => if j = 1 then 1 else 0⟩, ?_, rfl, rfl, rfl⟩
    have e : levelPush avx2Fam.leaf ⟨n, 2, ⟨2, fun _ => 0⟩, 0⟩ =
        ok ⟨1, 1, ⟨2, fun j => if j = 1 then 1 else 0⟩, 288⟩ := by
      have e1 : levelPush avx2Fam.leaf ⟨n, 2, ⟨2, fun _ => 0⟩, 0⟩ =
        ok ⟨ceilDiv n 128, 1, ⟨2, fun j => if j = 1 then ceilDiv n 128 % 2 ^ 32 else 0⟩,
          add64 0 (mul64 (ceilDiv n 128) 288)⟩ := rfl
      rw [e1, hc]; rfl
    unfold levels
    rw [e, ok_bind, show levelUppers avx2Fam.uppers ⟨1, 1, ⟨2, fun j => if j = 1 then 1 else 0⟩, 288⟩ =
      ok ⟨1, 1, ⟨2, fun j => if j = 1 then 1 else 0⟩, 288⟩ from rfl, ok_bind, massert_ok (decide_eq_true rfl)]
    rfl
  unfold treeBuild
  rw [massert_ok (by simp; omega), elev]
  simp only [ok_bind]
  rw [show add64 288 (2 * 4) = 8 + 288 from rfl]
  obtain ⟨m0, e0, s0, r0⟩ := header_ok (b := b) (H := 2) (cv := cv)
    (m := t.mem.resize addr (8 + 288)) hlen
    (by
      intro l hl
      have : l = 0 ∨ l = 1 := by omega
      rcases this with rfl | rfl
      · rw [q0]; omega
      · rw [q1]; omega)
    (show 4 * 2 ≤ 8 + 288 by omega) (fun h => by rw [hs] at h; cases h)
  rw [e0]
  simp only [ok_bind, if_neg (show ¬ (2 = 0) by omega)]
  rw [Vec.get_ok (show 2 - 1 < cv.len by omega)]
  simp only [ok_bind]
  rw [show cv.f (2 - 1) = 1 from q1]
  have hsz0 : m0.size = 8 + 288 := s0.size
  rw [show sub64 (8 + 288) (mul64 1 avx2Fam.leaf.bytes) = 8 from rfl]
  obtain ⟨m1, e1, l1, s1⟩ := buildLeaves_ok (b := b) (fam := avx2Fam) (M := M) (n := n)
    (begin_ := 8) (nodes := 1) (A := A) (input := input) (m := m0)
    avx2Node128_wf (avx2_fits1.mono hM) hin (hc.symm)
    (by rw [hsz0]; show _ + _ * 288 ≤ _; omega)
    (fun _ _ h => by rw [hs] at h; cases h)
  rw [e1]
  simp only [ok_bind]
  have hup : buildUppers b input n cv avx2Fam.uppers ⟨m1, 8, avx2Fam.leaf.fanout, 2 - 1⟩ =
      ok ⟨m1, 8, mul64 128 64, 0⟩ := by
    rw [show avx2Fam.uppers = avx2Node64 :: avx2Fam.uppers.tail from rfl, buildUppers]
    simp only []
    rw [if_pos (by omega), Vec.get_ok (show 2 - 1 - 1 < cv.len by omega), ok_bind,
      show cv.f (2 - 1 - 1) = 0 from q0]
    rfl
  rw [hup]
  simp only [ok_bind]
  rw [massert_ok (by simp)]
  refine ⟨_, rfl, ?_, rfl, ?_⟩
  · show n % 2 ^ 32 = n; omega
  · show m1.size = _; rw [s1.size]; exact hsz0

theorem avx2_tall_sum {b : Build} {n : Nat} {t : Tree} (hp : t.ptr = some 8)
    (hz : t.mem.size = 8 + 288) (hn : t.size = n) (hs : b.strictAlign = false) {i : Nat}
    (hi : i < n) (h2 : n ≤ 128) : avx2Sum b 2 t i = ub .oob := by
  have hbase : t.base = ok 8 := by unfold Tree.base; rw [hp]
  have hld : ∀ off w, off + w ≤ 8 + 288 → load b t.mem off w = ok (rd t.mem off w) := by
    intro off w h
    unfold load; rw [chk_ok (by rw [hz]; exact h) (fun h => by rw [hs] at h; cases h)]; rfl
  have hbad : ∀ off w, 8 + 288 < off + w → load b t.mem off w = ub .oob := by
    intro off w h
    unfold load chk; rw [if_neg (by rw [hz]; omega)]; rfl
  unfold avx2Sum
  rw [massert_ok (decide_eq_true (by omega)), ok_bind]
  show avx2Sum2 b t i = _
  unfold avx2Sum2
  have hd : i / 128 = 0 := Nat.div_eq_of_lt (by omega)
  rw [hd, hbase, ok_bind]
  have e1 : ∃ s, nodeSum b avx2Node64 t.mem 8 0 = ok s := by
    unfold nodeSum
    rw [massert_ok (decide_eq_true (by decide)), ok_bind]
    rw [show avx2Node64.sumOff 8 (0 / avx2Node64.seg) = 8 from rfl, show avx2Node64.sumB = 4 from rfl,
      show avx2Node64.keyOff 8 0 = 40 from rfl, show avx2Node64.keyB = 4 from rfl,
      hld 8 4 (by omega), ok_bind, hld 40 4 (by omega)]
    exact ⟨_, rfl⟩
  obtain ⟨s, e1⟩ := e1
  rw [e1, ok_bind]
  have e2 : nodeSum b avx2Node128 t.mem (8 + add64 avx2Node64.bytes (mul64 0 avx2Node128.bytes)) (i % 128) = ub .oob := by
    unfold nodeSum
    rw [massert_ok (decide_eq_true (show i % 128 < avx2Node128.fanout from Nat.mod_lt _ (by decide))), ok_bind,
      show 8 + add64 avx2Node64.bytes (mul64 0 avx2Node128.bytes) = 8 + 288 from rfl, hbad]
    · rfl
    · show 8 + 288 < 8 + 288 + _ * 4 + 4; omega
  rw [e2]; rfl

theorem avx512_tall {b : Build} {M n addr : Nat} {A : Nat → Nat} {input : Vec Nat} {t : Tree}
    (h1 : 0 < n) (h2 : n ≤ 512) (hM : M ≤ 512) (hin : InputOK b avx512Fam M A input n)
    (hs : b.strictAlign = false) :
    ∃ t', treeBuild b avx512Fam 2 addr input n t = ok t' ∧ t'.size = n ∧ t'.ptr = some 8 ∧
      t'.mem.size = 8 + 1088 := by
  have hc : ceilDiv n 512 = 1 := by show (n + 512 - 1) / 512 = 1; omega
  obtain ⟨cv, elev, hlen, q0, q1⟩ : ∃ cv, levels b avx512Fam 2 n = ok ⟨1, 1, cv, 1088⟩ ∧ cv.len = 2 ∧
      cv.f 0 = 0 ∧ cv.f 1 = 1 := by
    refine ⟨⟨2, fun j => if j = 1 then 1 else 0⟩, ?_, rfl, rfl, rfl⟩
    have e : levelPush avx512Fam.leaf ⟨n, 2, ⟨2, fun _ => 0⟩, 0⟩ =
        ok ⟨1, 1, ⟨2, fun j => if j = 1 then 1 else 0⟩, 1088⟩ := by
      have e1 : levelPush avx512Fam.leaf ⟨n, 2, ⟨2, fun _ => 0⟩, 0⟩ =
        ok ⟨ceilDiv n 512, 1, ⟨2, fun j => if j = 1 then ceilDiv n 512 % 2 ^ 32 else 0⟩,
          add64 0 (mul64 (ceilDiv n 512) 1088)⟩ := rfl
      rw [e1, hc]; rfl
    unfold levels
    rw [e, ok_bind, show levelUppers avx512Fam.uppers ⟨1, 1, ⟨2, fun j => if j = 1 then 1 else 0⟩, 1088⟩ =
      ok ⟨1, 1, ⟨2, fun j => if j = 1 then 1 else 0⟩, 1088⟩ from rfl, ok_bind, massert_ok (decide_eq_true rfl)]
    rfl
  unfold treeBuild
  rw [massert_ok (by simp; omega), elev]
  simp only [ok_bind]
  rw [show add64 1088 (2 * 4) = 8 + 1088 from rfl]
  obtain ⟨m0, e0, s0, r0⟩ := header_ok (b := b) (H := 2) (cv := cv)
    (m := t.mem.resize addr (8 + 1088)) hlen
    (by
      intro l hl
      have : l = 0 ∨ l = 1 := by omega
      rcases this with rfl | rfl
      · rw [q0]; omega
      · rw [q1]; omega)
    (show 4 * 2 ≤ 8 + 1088 by omega) (fun h => by rw [hs] at h; cases h)
  rw [e0]
  simp only [ok_bind, if_neg (show ¬ (2 = 0) by omega)]
  rw [Vec.get_ok (show 2 - 1 < cv.len by omega)]
  simp only [ok_bind]
  rw [show cv.f (2 - 1) = 1 from q1]
  have hsz0 : m0.size = 8 + 1088 := s0.size
  rw [show sub64 (8 + 1088) (mul64 1 avx512Fam.leaf.bytes) = 8 from rfl]
  obtain ⟨m1, e1, l1, s1⟩ := buildLeaves_ok (b := b) (fam := avx512Fam) (M := M) (n := n)
    (begin_ := 8) (nodes := 1) (A := A) (input := input) (m := m0)
    avx512Node512_wf (avx512_fits1.mono hM) hin (hc.symm)
    (by rw [hsz0]; show _ + _ * 1088 ≤ _; omega)
    (fun _ _ h => by rw [hs] at h; cases h)
  rw [e1]
  simp only [ok_bind]
  have hup : buildUppers b input n cv avx512Fam.uppers ⟨m1, 8, avx512Fam.leaf.fanout, 2 - 1⟩ =
      ok ⟨m1, 8, mul64 512 256, 0⟩ := by
    rw [show avx512Fam.uppers = avx512Node256 :: avx512Fam.uppers.tail from rfl, buildUppers]
    simp only []
    rw [if_pos (by omega), Vec.get_ok (show 2 - 1 - 1 < cv.len by omega), ok_bind,
      show cv.f (2 - 1 - 1) = 0 from q0]
    rfl
  rw [hup]
  simp only [ok_bind]
  rw [massert_ok (by simp)]
  refine ⟨_, rfl, ?_, rfl, ?_⟩
  · show n % 2 ^ 32 = n; omega
  · show m1.size = _; rw [s1.size]; exact hsz0

theorem avx512_tall_sum {b : Build} {n : Nat} {t : Tree} (hp : t.ptr = some 8)
    (hz : t.mem.size = 8 + 1088) (hn : t.size = n) (hs : b.strictAlign = false) {i : Nat}
    (hi : i < n) (h2 : n ≤ 512) : avx512Sum b 2 t i = ub .oob := by
  have hbase : t.base = ok 8 := by unfold Tree.base; rw [hp]
  have hld : ∀ off w, off + w ≤ 8 + 1088 → load b t.mem off w = ok (rd t.mem off w) := by
    intro off w h
    unfold load; rw [chk_ok (by rw [hz]; exact h) (fun h => by rw [hs] at h; cases h)]; rfl
  have hbad : ∀ off w, 8 + 1088 < off + w → load b t.mem off w = ub .oob := by
    intro off w h
    unfold load chk; rw [if_neg (by rw [hz]; omega)]; rfl
  unfold avx512Sum
  rw [massert_ok (decide_eq_true (by omega)), ok_bind]
  show avx512Sum2 b t i = _
  unfold avx512Sum2
  have hd : i / 512 = 0 := Nat.div_eq_of_lt (by omega)
  rw [hd, hbase, ok_bind]
  have e1 : ∃ s, nodeSum b avx512Node256 t.mem 8 0 = ok s := by
    unfold nodeSum
    rw [massert_ok (decide_eq_true (by decide)), ok_bind]
    rw [show avx512Node256.sumOff 8 (0 / avx512Node256.seg) = 8 from rfl, show avx512Node256.sumB = 4 from rfl,
      show avx512Node256.keyOff 8 0 = 72 from rfl, show avx512Node256.keyB = 4 from rfl,
      hld 8 4 (by omega), ok_bind, hld 72 4 (by omega)]
    exact ⟨_, rfl⟩
  obtain ⟨s, e1⟩ := e1
  rw [e1, ok_bind]
  have e2 : nodeSum b avx512Node512 t.mem (8 + add64 avx512Node256.bytes (mul64 0 avx512Node512.bytes)) (i % 512) = ub .oob := by
    unfold nodeSum
    rw [massert_ok (decide_eq_true (show i % 512 < avx512Node512.fanout from Nat.mod_lt _ (by decide))), ok_bind,
      show 8 + add64 avx512Node256.bytes (mul64 0 avx512Node512.bytes) = 8 + 1088 from rfl, hbad]
    · rfl
    · show 8 + 1088 < 8 + 1088 + _ * 4 + 4; omega
  rw [e2]; rfl

end MRS
