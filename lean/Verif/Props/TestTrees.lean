import Verif.Proofs.TestTrees
import Verif.Props.Tree

/-!
# C105: the repository's own tests of nodes and segment trees

test/test_node.hpp and test/test_tree.hpp.  The checks accept exactly the right answers at the
places they look at; correct trees always pass; correct nodes pass but for two cases.
-/

set_option autoImplicit false

namespace MRS.Props
open MRS Outcome Spec

/-- C105: the sum queries of the test of trees accept exactly the right sums at every `n/5000`-th
position. -/
theorem C105_tree_sum_check {vals : List Nat} (hT : total vals vals.length < 2 ^ 64)
    (hn : vals.length < 2 ^ 31) (sum : Nat → Outcome Nat) :
    Test.treeSumPhase (Test.arrayOf vals) sum = ok () ↔
      ∀ i, i < vals.length → i % max 1 (vals.length / 5000) = 0 → sum i = ok (total vals (i + 1)) := by
  rw [Test.treeSumPhase_iff hT hn]
  have e : Test.stepOf vals.length = max 1 (vals.length / 5000) := by
    unfold Test.stepOf; split <;> omega
  rw [e]

/-- C105: those of the test of nodes accept exactly the right sums. -/
theorem C105_node_sum_check {vals : List Nat} (hT : total vals vals.length < 2 ^ 64)
    (sum : Nat → Outcome Nat) :
    Test.nodeSumPhase (Test.arrayOf vals) sum = ok () ↔
      ∀ i, i < vals.length → sum i = ok (total vals (i + 1)) :=
  Test.nodeSumPhase_iff hT sum

/-- C105: the search queries accept exactly the right answers to the drawn arguments. -/
theorem C105_search_check {vals : List Nat} (hT : total vals vals.length < 2 ^ 64) (count : Nat)
    (x : Nat → Nat) (search : Nat → Outcome (Nat × Nat)) :
    Test.searchPhase count (Test.arrayOf vals) x search = ok () ↔
      ∀ i, i < count → ∃ p, search (x i) = ok (p, total vals p) ∧ p ≤ vals.length ∧
        total vals p ≤ x i ∧ (p < vals.length → x i < total vals (p + 1)) := by
  rw [Test.searchPhase_iff hT]
  constructor
  · intro h i hi
    obtain ⟨⟨p, s⟩, e, h1, h2, h3, h4⟩ := h i hi
    obtain rfl : s = total vals p := h2
    exact ⟨p, e, h1, h3, h4⟩
  · intro h i hi
    obtain ⟨p, e, h1, h3, h4⟩ := h i hi
    exact ⟨_, e, h1, rfl, h3, h4⟩

theorem total_lt_arr {vals : List Nat} {M : Nat} (h : ∀ v ∈ vals, v ≤ M) (k : Nat) :
    total vals k ≤ k * M := Test.total_bound (arr_le h) k

theorem total_pos {vals : List Nat} (h0 : ∃ v ∈ vals, v ≠ 0) : 0 < total vals vals.length := by
  obtain ⟨v, hv, hne⟩ := h0
  obtain ⟨j, hj, rfl⟩ := List.getElem_of_mem hv
  have h1 := Test.total_succ vals j
  rw [arr_lt hj] at h1
  have h2 := total_mono vals (a := j + 1) (b := vals.length) hj
  omega

theorem sub64_one {T : Nat} (h0 : 0 < T) (h : T < 2 ^ 64) : sub64 T 1 = T - 1 := by
  unfold sub64
  simp only [W64]
  omega

/-- The tree that `build` leaves also has room for counters up to 356. -/
theorem build_room {fam : TreeFam} {b : Build} {H addr : Nat} {vals : List Nat} {t : Tree}
    (h : fam.Valid b H 256 addr vals) (e : fam.build b H addr vals = ok t) :
    TreeRep fam b H 356 vals t := by
  obtain ⟨h1, h2⟩ := tree_height_range (fam := fam) h.le
  rw [← h.height] at h1 h2
  have ha : fam.Aligned b addr vals.length H := aligned_of_addr h1 h2 h.align
  obtain ⟨t', e', hadr, hi⟩ := tree_build_ok (b := b) (fam := fam) (t := Tree.empty) (M := 356) h.pos h.le
    h.height (by decide) (InputOK.mk (A := arr vals) (input := ⟨vals.length, fun j => vals.getD j 0⟩) rfl
      (fun j _ => rfl) (fun j => Nat.le_trans (arr_le h.vals j) (by decide)) (fun j hj => arr_ge hj)
      (h.debug.imp_right (fun hm j => Nat.le_trans (arr_le h.vals j) hm))) ha
  obtain rfl : t = t' := Outcome.ok.inj (e.symm.trans e')
  exact ⟨h1, h2, by decide, hi, by rw [hadr]; exact ha, by rw [hadr]; exact upAligned_of_addr h.align⟩

/-- C105: the test of a tree passes for every array of counters up to 256 that are not all zero,
whatever is drawn, and in every build. -/
theorem C105_tree {fam : TreeFam} {b : Build} {H addr : Nat} {vals : List Nat}
    {rng : Nat → Nat → Nat} (h : fam.Valid b H 256 addr vals) (h0 : ∃ v ∈ vals, v ≠ 0)
    (hr : ∀ hi i, rng hi i ≤ hi) : Test.testTree fam b H addr vals rng = ok () := by
  have hle := h.le
  have hpos := h.pos
  have hT : total vals vals.length < 2 ^ 64 := by
    have := total_lt_arr h.vals vals.length
    omega
  have hT0 := total_pos h0
  obtain ⟨t, e, rep, _⟩ := h.build
  have wide := build_room h e
  have p1 : Test.treeSumPhase (Test.arrayOf vals) (fun i => fam.sum b H t i) = ok () :=
    (Test.treeSumPhase_iff hT (by omega) _).2 fun i hi _ => rep.sum hi
  have e2 : fam.sum b H t (vals.length - 1) = ok (total vals vals.length) := by
    rw [rep.sum (by omega), show vals.length - 1 + 1 = vals.length by omega]
  have p3 : Test.searchPhase 1000 (Test.arrayOf vals)
      (fun i => rng (sub64 (total vals vals.length) 1) i) (fun x => fam.search b H t x) = ok () := by
    refine (Test.searchPhase_iff hT _ _ _).2 fun i _ => ?_
    have hx := hr (sub64 (total vals vals.length) 1) i
    obtain ⟨p, s, es, h1, h2, h3, h4⟩ := rep.search (fun _ _ _ => Or.inl (Nat.le_refl 256))
      (x := rng (sub64 (total vals vals.length) 1) i) (by rw [sub64_one hT0 hT] at hx ⊢; omega)
    exact ⟨(p, s), es, by show p ≤ _; omega, h2, h3, fun _ => h4⟩
  have H' : Test.Holds vals.length 356 (fun t i => fam.sum b H t i)
      (fun t i sign => fam.update b H t i sign)
      (fun cur t => cur.length = vals.length ∧ TreeRep fam b H 356 cur t) :=
    ⟨fun h => h.1, fun h hi => h.2.sum (by rw [h.1]; exact hi), fun h hi hp hq _ => by
      obtain ⟨t', e', r'⟩ := h.2.update (by rw [h.1]; exact hi) hp hq
      exact ⟨t', e', by rw [bump_length]; exact h.1, r'⟩⟩
  have hM : ∀ j, arr vals j + 100 ≤ 356 := fun j => by have := arr_le h.vals j; omega
  obtain ⟨s4, e4, b4⟩ := Test.treeUpdatePhase_ok (sign := false) H' rfl (by omega)
    (by simp only [W64]; omega) hM (by decide) (Test.Between.start (vals := vals) (s := t) ⟨rfl, wide⟩)
  obtain ⟨s5, e5, _⟩ := Test.treeUpdatePhase_ok (sign := true) H' rfl (by omega)
    (by simp only [W64]; omega) hM (by decide) b4.turn
  unfold Test.testTree
  rw [e, ok_bind, p1, ok_bind, e2, ok_bind, p3, ok_bind, e4, ok_bind, e5, ok_bind]

/-! ## Nodes -/

/-- What the instances of the test have in common: the node's counters have room for `M + 100`. -/
theorem nodeTests_room {c : NodeCfg} {M : Nat} (hc : (c, M) ∈ Test.nodeTests) :
    c ∈ nodeClasses ∧ c.seg * (M + 100) < 256 ^ c.keyB ∧ c.fanout * (M + 100) < 256 ^ c.sumB ∧
      2 * (c.fanout * M) < 256 ^ c.sumB ∧ c.fanout * (M + 100) < 2 ^ 64 ∧ M + 101 < 256 ^ c.keyB ∧
      (2 * (c.seg * M) < 256 ^ c.keyB ∨ (c = avx2Node32 ∧ M = 2 ^ 28)) ∧ 0 < c.fanout ∧
      256 ^ c.keyB ≤ 2 ^ 64 := by
  simp only [Test.nodeTests, List.mem_cons, List.not_mem_nil, or_false, Prod.mk.injEq] at hc
  rcases hc with ⟨rfl, rfl⟩ | ⟨rfl, rfl⟩ | ⟨rfl, rfl⟩ | ⟨rfl, rfl⟩ | ⟨rfl, rfl⟩ | ⟨rfl, rfl⟩ |
    ⟨rfl, rfl⟩ | ⟨rfl, rfl⟩ | ⟨rfl, rfl⟩ | ⟨rfl, rfl⟩ | ⟨rfl, rfl⟩ | ⟨rfl, rfl⟩ | ⟨rfl, rfl⟩ | ⟨rfl, rfl⟩
  all_goals refine ⟨by simp [nodeClasses], by decide, by decide, by decide, by decide, by decide, ?_,
    by decide, by decide⟩
  all_goals first
    | exact Or.inr ⟨rfl, rfl⟩
    | exact Or.inl (by decide)

theorem seg_sum_le {vals : List Nat} {M : Nat} (h : ∀ j, arr vals j ≤ M) (k s : Nat) :
    total vals ((s + 1) * k) - total vals (s * k) ≤ k * M := by
  have h1 := psum_le_mul (f := arr vals) (M := M) (a := s * k) (d := k) (fun j _ => h j)
  rw [psum_arr, psum_arr] at h1
  rw [Nat.succ_mul]
  omega

theorem seg32_lt {vals : List Nat} {s : Nat} (h : total vals (8 * s + 8) < total vals (8 * s) + 2 ^ 31) :
    2 * (total vals ((s + 1) * 8) - total vals (s * 8)) < 256 ^ 4 := by
  rw [show (s + 1) * 8 = 8 * s + 8 by omega, show s * 8 = 8 * s by omega]
  omega

theorem fits_of_le {c : NodeCfg} {vals : List Nat} {M : Nat} (hl : vals.length = c.fanout)
    (h : ∀ j, arr vals j ≤ M) (h1 : c.seg * M < 256 ^ c.keyB) (h2 : c.fanout * M < 256 ^ c.sumB) :
    c.Fits vals :=
  ⟨hl, fun s _ => Nat.lt_of_le_of_lt (seg_sum_le h c.seg s) h1,
    Nat.lt_of_le_of_lt (Test.total_bound h _) h2⟩

/-- C105 (partial): the test of a node passes for every array it can draw that is not all zero,
whatever else is drawn, if the memory is aligned for the node, and in the instance of
`avx2::node32` with values up to `2^28` with vector code no eight values of a segment are all `2^28`.
In full the last two conditions would not be needed; `C105_node_align_false` and `C105_node32_false`
refute that. -/
theorem C105_node_partial {b : Build} {c : NodeCfg} {M : Nat} {vals : List Nat}
    {rng : Nat → Nat → Nat} {m : Mem} (hc : (c, M) ∈ Test.nodeTests) (hl : vals.length = c.fanout)
    (hv : ∀ v ∈ vals, v ≤ M) (h0 : ∃ v ∈ vals, v ≠ 0) (hr : ∀ hi i, rng hi i ≤ hi)
    (hb : c.bytes ≤ m.size)
    (ha : b.strictAlign = true → m.addr % (if c.sumAligned && c.simd b then 32 else c.sumB) = 0)
    (hs : c = avx2Node32 → M = 2 ^ 28 → b.simd2 = true → ∀ s, s < 4 →
      total vals (8 * s + 8) < total vals (8 * s) + 2 ^ 31) :
    Test.testNode b c vals rng m = ok () := by
  obtain ⟨hcls, r1, r2, r3, r4, r5, r6, r7, r8⟩ := nodeTests_room hc
  have wf := nodeClasses_wf hcls
  have hv' := arr_le hv
  have room : ∀ {cur : List Nat}, cur.length = c.fanout → (∀ j, arr cur j ≤ M + 100) → c.Fits cur :=
    fun h1 h2 => fits_of_le h1 h2 r1 r2
  have hf : c.Fits vals := room hl fun j => by have := hv' j; omega
  have ha' : AlignOK b c m.addr 0 := by
    intro h
    have := ha h
    simp only [nodeClasses, List.mem_cons, List.not_mem_nil, or_false] at hcls
    split at this
    all_goals rcases hcls with rfl | rfl | rfl | rfl | rfl | rfl
    all_goals first
      | exact this
      | exact Nat.mod_eq_zero_of_dvd (Nat.dvd_trans (by decide) (Nat.dvd_of_mod_eq_zero this))
  have ho : UpOK b c m.addr 0 := by
    intro h h1 h2
    have := ha h
    rw [h1, h2] at this
    simp only [nodeClasses, List.mem_cons, List.not_mem_nil, or_false] at hcls
    rcases hcls with rfl | rfl | rfl | rfl | rfl | rfl
    · exact this
    all_goals cases h1
  have hT : total vals vals.length < 2 ^ 64 := by
    have := Test.total_bound hv' vals.length
    rw [hl] at this ⊢
    have h3 : c.fanout * M ≤ c.fanout * (M + 100) := Nat.mul_le_mul_left _ (by omega)
    omega
  have hT0 := total_pos h0
  obtain ⟨m1, e1, rep, so⟩ := nodeBuild_fits (b := b) (m := m) (off := 0) wf hf (by omega) ha'
  have ha1 : AlignOK b c m1.addr 0 := by rw [so.addr]; exact ha'
  have ho1 : UpOK b c m1.addr 0 := by rw [so.addr]; exact ho
  have p1 : Test.nodeSumPhase (Test.arrayOf vals) (fun i => nodeSum b c m1 0 i) = ok () :=
    (Test.nodeSumPhase_iff hT _).2 fun i hi => nodeSum_fits wf hf rep ha1 (by omega)
  have e2 : nodeSum b c m1 0 (c.fanout - 1) = ok (total vals vals.length) := by
    rw [nodeSum_fits wf hf rep ha1 (by omega), show c.fanout - 1 + 1 = vals.length by omega]
  have p3 : Test.searchPhase 10000 (Test.arrayOf vals)
      (fun i => rng (sub64 (total vals vals.length) 1 % 256 ^ c.keyB) i)
      (fun x => nodeSearch b c m1 0 x) = ok () := by
    refine (Test.searchPhase_iff hT _ _ _).2 fun i _ => ?_
    have hx := hr (sub64 (total vals vals.length) 1 % 256 ^ c.keyB) i
    have hx' : rng (sub64 (total vals vals.length) 1 % 256 ^ c.keyB) i < total vals vals.length := by
      have := Nat.mod_le (sub64 (total vals vals.length) 1) (256 ^ c.keyB)
      rw [sub64_one hT0 hT] at hx this ⊢
      omega
    generalize rng (sub64 (total vals vals.length) 1 % 256 ^ c.keyB) i = x at hx'
    have hseg : c.simd b = true → ∀ s, s < c.num →
        2 * (total vals ((s + 1) * c.seg) - total vals (s * c.seg)) < 256 ^ c.keyB := by
      intro hsimd s hs'
      rcases r6 with r6 | ⟨rfl, rfl⟩
      · have := seg_sum_le hv' c.seg s
        omega
      · exact seg32_lt (hs rfl rfl hsimd s hs')
    have htot := Test.total_bound hv' c.fanout
    obtain ⟨p, es, h1, h2, h3⟩ := nodeSearch_fits (x := x) wf hf rep ha1
      (by simp only [W64]; omega) (fun hsimd => by
        refine ⟨by rw [hl] at hx'; omega, by omega, hseg hsimd, ?_⟩
        have h4 := hseg hsimd (c.num - 1) (by have := wf.num_pos; omega)
        rw [show c.num - 1 + 1 = c.num by have := wf.num_pos; omega] at h4
        rw [hl, wf.fanout_eq] at hx'
        omega) (fun _ => by rw [← hl]; exact hx')
    exact ⟨(p, total vals p), es, by show p ≤ _; omega, rfl, h2, fun h => h3 (by rw [← hl]; exact h)⟩
  have H' : Test.Holds c.fanout (M + 100) (fun m i => nodeSum b c m 0 i)
      (fun m i sign => nodeUpdate b c m 0 i sign)
      (fun cur m' => c.Fits cur ∧ NodeRep c m' 0 (total cur) ∧ m'.addr = m.addr) :=
    ⟨fun h => h.1.len, fun h hi => nodeSum_fits wf h.1 h.2.1 (by rw [h.2.2]; exact ha') hi,
      fun h hi hp hq hbnd => by
        have hf' := room (by rw [bump_length]; exact h.1.len) hbnd
        obtain ⟨m', e', r', s'⟩ := nodeUpdate_fits wf h.1 h.2.1 (by rw [h.2.2]; exact ha')
          (by rw [h.2.2]; exact ho) (Nat.le_of_lt hi) (fun hs _ => hp hs) hf'
        exact ⟨m', e', hf', r', by rw [s'.addr]; exact h.2.2⟩⟩
  have hM : ∀ j, arr vals j + 100 ≤ M + 100 := fun j => by have := hv' j; omega
  obtain ⟨s4, e4, b4⟩ := Test.nodeUpdatePhase_ok (sign := false) (K := 256 ^ c.keyB) H' hl
    r4 hM (by omega) (Test.Between.start (vals := vals) (s := m1) ⟨hf, rep, so.addr⟩)
  obtain ⟨s5, e5, _⟩ := Test.nodeUpdatePhase_ok (sign := true) (K := 256 ^ c.keyB) H' hl
    r4 hM (by omega) b4.turn
  unfold Test.testNode
  have e1 : nodeBuild b c (Test.arrayOf vals) 0 m = ok m1 := e1
  rw [e1, ok_bind, p1, ok_bind, e2, ok_bind, p3, ok_bind, e4, ok_bind, e5, ok_bind]

/-! ## Nodes that fail the test -/

theorem nodeUpdate_misaligned {b : Build} {m m' : Mem} (h1 : b.strictAlign = true)
    (h2 : b.simd2 = true) (ha : m.addr % 32 ≠ 0) : nodeUpdate b avx2Node128 m 0 0 false ≠ ok m' := by
  intro e
  unfold nodeUpdate at e
  rw [if_neg (by decide)] at e
  obtain ⟨_, _, e⟩ := Test.bind_ok e
  simp only at e
  rw [if_pos (show avx2Node128.simd b = true from h2)] at e
  obtain ⟨_, _, e⟩ := Test.bind_ok e
  obtain ⟨_, e1, _⟩ := Test.bind_ok e
  unfold loadVec at e1
  obtain ⟨_, e1, _⟩ := Test.bind_ok e1
  unfold chk at e1
  have hal : (b.strictAlign && decide ((m.addr + 0) %
      (if avx2Node128.sumAligned then avx2Node128.vecB else 1) ≠ 0)) = true := by
    rw [h1]; exact decide_eq_true ha
  rw [hal, if_pos rfl] at e1
  split at e1 <;> cases e1

/-- C105 (negative): `out` is a vector of bytes, so its data need only be aligned to 16 bytes, but
`avx2::node128::update` loads 32 bytes with an aligned instruction.  Where that faults, the test does
not pass for any drawn array if `out` does not happen to be aligned to 32 bytes. -/
theorem C105_node_align_false {b : Build} {vals : List Nat} {rng : Nat → Nat → Nat} {m : Mem}
    (h1 : b.strictAlign = true) (h2 : b.simd2 = true) (hl : vals.length = 128)
    (hv : ∀ v ∈ vals, v ≤ 2 ^ 9) (hb : 288 ≤ m.size) (ha : m.addr % 16 = 0) (hbad : m.addr % 32 ≠ 0) :
    Test.testNode b avx2Node128 vals rng m ≠ ok () := by
  intro e
  obtain ⟨m1, e1, _, so⟩ := nodeBuild_fits (b := b) (m := m) (off := 0) (vals := vals) avx2Node128_wf
    (fits_of_le hl (arr_le hv) (by decide) (by decide)) (by show 0 + 288 ≤ m.size; omega)
    (fun _ => by show (m.addr + 0) % 4 = 0; omega)
  obtain ⟨m2, e2, e⟩ := Test.bind_ok e
  obtain rfl : m1 = m2 := Outcome.ok.inj (e1.symm.trans e2)
  obtain ⟨_, _, e⟩ := Test.bind_ok e
  obtain ⟨_, _, e⟩ := Test.bind_ok e
  obtain ⟨_, _, e⟩ := Test.bind_ok e
  obtain ⟨_, e, _⟩ := Test.bind_ok e
  unfold Test.nodeUpdatePhase forN at e
  obtain ⟨_, e, _⟩ := Test.forFrom_succ_ok e
  unfold Test.nodeUpdateRun forN at e
  obtain ⟨_, e, _⟩ := Test.bind_ok e
  obtain ⟨_, e, _⟩ := Test.forFrom_succ_ok (n := 127) e
  obtain ⟨_, e, _⟩ := Test.bind_ok e
  exact nodeUpdate_misaligned h1 h2 (by rw [so.addr]; exact hbad) e

/-- Values that `test_node<avx2::node32, 1ULL << 28>` may draw. -/
def badVals32 : List Nat := List.replicate 32 (2 ^ 28)

theorem badVals32_total : total badVals32 badVals32.length < 2 ^ 64 := by decide +kernel

set_option maxRecDepth 100000 in
theorem badVals32_answer : ¬ ((do
    let m ← nodeBuild ⟨true, true, true, true⟩ avx2Node32 (Test.arrayOf badVals32) 0 ⟨0, 160, fun _ => 0⟩
    nodeSearch ⟨true, true, true, true⟩ avx2Node32 m 0 1879048192) = ok (7, 1879048192)) := by
  decide +kernel

/-- C105 (negative): `test_node<avx2::node32, 1ULL << 28>` may draw `2^28` throughout; then it does not
pass with vector code if the argument `7 * 2^28` is drawn. -/
theorem C105_node32_false : (avx2Node32, 2 ^ 28) ∈ Test.nodeTests ∧ badVals32.length = avx2Node32.fanout ∧
    (∀ v ∈ badVals32, v ≤ 2 ^ 28) ∧ (∀ hi i : Nat, (fun hi _ => min hi 1879048192) hi i ≤ hi) ∧
    Test.testNode ⟨true, true, true, true⟩ avx2Node32 badVals32 (fun hi _ => min hi 1879048192)
      ⟨0, 160, fun _ => 0⟩ ≠ ok () := by
  refine ⟨by simp [Test.nodeTests], by decide, fun v hv => Nat.le_of_eq (List.eq_of_mem_replicate hv),
    fun hi _ => Nat.min_le_left hi _, fun e => ?_⟩
  obtain ⟨m1, e1, e⟩ := Test.bind_ok e
  obtain ⟨_, _, e⟩ := Test.bind_ok e
  obtain ⟨T, eT, e⟩ := Test.bind_ok e
  obtain ⟨_, e, _⟩ := Test.bind_ok e
  have hT : T = 8589934592 := by
    have : (do
      let m ← nodeBuild ⟨true, true, true, true⟩ avx2Node32 (Test.arrayOf badVals32) 0 ⟨0, 160, fun _ => 0⟩
      nodeSum ⟨true, true, true, true⟩ avx2Node32 m 0 31) = ok 8589934592 := by decide +kernel
    rw [e1, ok_bind] at this
    exact Outcome.ok.inj (eT.symm.trans this)
  obtain ⟨p, e2, h1, h2, h3⟩ := (C105_search_check badVals32_total _ _ _).1 e 0 (by decide)
  rw [hT] at e2 h2 h3
  have hx : min (sub64 8589934592 1 % 256 ^ avx2Node32.keyB) 1879048192 = 1879048192 := by decide
  simp only [hx] at e2 h2 h3
  have h4 : total badVals32 8 = 2147483648 := by decide +kernel
  have h5 : total badVals32 7 = 1879048192 := by decide +kernel
  have h6 : total badVals32 6 = 1610612736 := by decide +kernel
  have hp : p = 7 := by
    rcases Nat.lt_trichotomy p 7 with h | h | h
    · have := h3 (by have : badVals32.length = 32 := by decide
                     omega)
      have := total_mono badVals32 (a := p + 1) (b := 7) (by omega)
      omega
    · exact h
    · have := total_mono badVals32 (a := 8) (b := p) (by omega)
      omega
  subst hp
  rw [h5] at e2
  exact badVals32_answer (by rw [e1, ok_bind]; exact e2)

/-- C105: arguments of `search` that do not fit `key_type` are not tested: the search phase of the test
of a node does not tell apart implementations that agree on smaller ones. -/
theorem C105_node_blind {c : NodeCfg} {A : Vec Nat} {rng : Nat → Nat → Nat}
    (hr : ∀ hi i, rng hi i ≤ hi) (maxSum : Nat) {search search' : Nat → Outcome (Nat × Nat)}
    (h : ∀ x, x < 256 ^ c.keyB → search x = search' x) :
    Test.searchPhase 10000 A (fun i => rng (sub64 maxSum 1 % 256 ^ c.keyB) i) search =
      Test.searchPhase 10000 A (fun i => rng (sub64 maxSum 1 % 256 ^ c.keyB) i) search' := by
  unfold Test.searchPhase
  refine congrArg (fun f => forN 10000 f ()) (funext fun i => funext fun _ => ?_)
  have := hr (sub64 maxSum 1 % 256 ^ c.keyB) i
  have h1 := Nat.mod_lt (sub64 maxSum 1) (Nat.pow_pos (n := c.keyB) (show 0 < 256 by decide))
  simp only
  rw [h _ (by omega)]

/-! ## Examples -/

/-- The test of `avx2::node64` with values up to `2^16`, in a debug build. -/
example : Test.testNode exDebug avx2Node64 exNodeVals (fun hi i => i * i % (hi + 1)) ⟨16, 288, fun _ => 77⟩ =
    ok () :=
  C105_node_partial (M := 2 ^ 16) (by simp [Test.nodeTests]) (by decide) (by decide) ⟨63000, by decide⟩
    (fun hi i => Nat.le_of_lt_succ (Nat.mod_lt _ (Nat.succ_pos hi))) (by decide) (by decide)
    (fun h => absurd h (by intro h; cases h))

/-- The same for a tree of the smallest size the repository tests. -/
example : Test.testTree .avx512 exDebug 1 16 [3, 0, 256, 7, 1] (fun hi i => i * i % (hi + 1)) = ok () :=
  C105_tree ⟨by decide, by decide, by decide, by decide, by decide, by decide, by decide⟩
    ⟨3, by decide⟩ (fun hi i => Nat.le_of_lt_succ (Nat.mod_lt _ (Nat.succ_pos hi)))

/-- A vector at address 16. -/
example : Test.testNode ⟨true, true, false, true⟩ avx2Node128 (List.replicate 128 5) (fun _ _ => 0)
    ⟨16, 288, fun _ => 0⟩ ≠ ok () :=
  C105_node_align_false rfl rfl (by simp) (fun v hv => by rw [List.eq_of_mem_replicate hv]; decide) (by decide) (by decide) (by decide)

end MRS.Props
