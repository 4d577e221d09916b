import Verif.Proofs.Hft.Limits

/-!
# Vendored Fenwick trees: properties C46-C53

The classes of include/hft/fenwick.  `run` constructs a tree over an array and performs a history of
`add`s; the specification is `Verif/SpecTree.lean`: an array of integers, its prefix sums, updates and
searches.
-/

set_option autoImplicit false

namespace MRS.Props
open Outcome MRS.Hft Spec.Tree

/-- Construct a tree of class `k` over `A` and add to it. -/
def run (c : Cfg) (k : Kind) (A : List Int) (ops : List (Nat × Int)) : Outcome Obj := do
  let o ← build c (array A) A.length k
  o.adds c ops

/-- What each class needs of `BOUND` and of the number of elements.  A leaf has `bits BOUND` bits and
the highest node `Nat.log2 n` more. -/
def Limits (c : Cfg) (n : Nat) (k : Kind) : Prop :=
  let root := bits c.bound + Nat.log2 n
  match k with
  | .fixedF | .fixedL => True
  | .byteF | .byteL => root ≤ 64
  | .bitF => bits c.bound ≤ 55 ∧ root ≤ 63
  | .bitL => root ≤ 57 ∧ c.strictShift = false
  | .typeL => root ≤ 63
  | .typeF => root ≤ 64 ∧ (c.build.strictAlign = false ∨ 17 ≤ bits c.bound ∨ root ≤ 8 ∨
      9 ≤ bits c.bound ∧ root ≤ 16)

theorem Limits.fits {c : Cfg} {n : Nat} {k : Kind} (h : Limits c n k) (hn : n < 2 ^ 48) :
    Fits c n k := by
  have e := c.bs_eq
  have hb := c.one_le_bs
  unfold Limits at h
  simp only [← e] at h
  cases k
  · exact hn
  · exact ⟨hb, fun _ => h, by simp only at h; omega, hn⟩
  · exact ⟨hb, h.1, fun _ => h.2, hn⟩
  · refine ⟨⟨hb, fun _ => h.1, by simp only at h; omega, hn⟩, ?_⟩
    exact (typeAlign_iff (by simp only [W64]; omega) h.1).2 h.2
  · exact hn
  · exact ⟨hb, fun _ => h, by simp only at h; omega, hn⟩
  · exact ⟨⟨hb, fun _ => h.1, by simp only at h; omega, hn⟩, h.2⟩
  · exact ⟨hb, fun _ => h, by simp only at h; omega, hn⟩

/-- The compressed classes need every intermediate array to stay between 0 and `BOUND`. -/
def Bounded (c : Cfg) (k : Kind) (A : List Int) (ops : List (Nat × Int)) : Prop :=
  k.compressed = true → StaysWithin c.bound A ops

/-- What `run` yields. -/
theorem run_holds {c : Cfg} {k : Kind} {A : List Int} {ops : List (Nat × Int)}
    (hn : A.length < 2 ^ 48) (hl : Limits c A.length k) (hi : ∀ op ∈ ops, 0 < op.1)
    (hb : Bounded c k A ops) :
    ∃ o, run c k A ops = ok o ∧ ObjHolds c A.length (pre (after A ops)) k o := by
  obtain ⟨o, e, h⟩ := build_ok (hl.fits hn) (fun hk => staysWithin_first (hb hk))
  obtain ⟨o', e', h'⟩ := adds_ok ops (hl.fits hn) hi hb h
  exact ⟨o', by unfold run; rw [e, ok_bind, e'], h'⟩

/-! ## C46: prefix sums after any history -/

/-- **C46.**  After any history of `add`s, `prefix(i)` is the sum modulo `2^64` of the first `i`
elements of the updated array, and `size()` is the number of elements.  Every class within its
limits; adds at indices past the end have no effect. -/
theorem C46 {c : Cfg} {k : Kind} {A : List Int} {ops : List (Nat × Int)}
    (hn : A.length < 2 ^ 48) (hl : Limits c A.length k) (hi : ∀ op ∈ ops, 0 < op.1)
    (hb : Bounded c k A ops) :
    ∃ o, run c k A ops = ok o ∧ o.size = A.length ∧
      ∀ i, i ≤ A.length → o.prefix c i = ok (pre (after A ops) i % 2 ^ 64).toNat := by
  obtain ⟨o, e, h⟩ := run_holds hn hl hi hb
  refine ⟨o, e, size_eq h, fun i hi => ?_⟩
  rw [prefix_ok (hl.fits hn) h (pre_zero _) hi]
  rfl

/-- A configuration for the examples: elements up to `B`, x86 rules. -/
def hcfg (B : Nat) : Cfg := ⟨B, ⟨true, true, false, false⟩, false, false⟩

instance (B : Nat) (A : List Int) : Decidable (Within B A) := by unfold Within; infer_instance

instance decStaysWithin (B : Nat) : ∀ (A : List Int) (ops : List (Nat × Int)),
    Decidable (StaysWithin B A ops)
  | A, [] => inferInstanceAs (Decidable (Within B A))
  | A, op :: ops =>
    have := decStaysWithin B (addAt A op.1 op.2) ops
    inferInstanceAs (Decidable (Within B A ∧ StaysWithin B (addAt A op.1 op.2) ops))

/-- `BitF` over five elements of at most 4 bits, with a decrease. -/
example : ∃ o, run (hcfg 15) .bitF [3, 1, 4, 1, 5] [(2, 9), (3, -4)] = ok o ∧
    o.prefix (hcfg 15) 4 = ok 14 := by
  obtain ⟨o, e, -, h⟩ := C46 (c := hcfg 15) (k := .bitF) (A := [3, 1, 4, 1, 5])
    (ops := [(2, 9), (3, -4)]) (by decide) (by unfold Limits; decide +kernel) (by decide)
    (fun _ => by decide)
  refine ⟨o, e, (h 4 (by decide)).trans ?_⟩
  decide

/-- The uncompressed classes also hold negative elements. -/
example : ∃ o, run (hcfg 1) .fixedL [3, -7, 4] [(1, -1)] = ok o ∧
    o.prefix (hcfg 1) 2 = ok (2 ^ 64 - 5) := by
  obtain ⟨o, e, -, h⟩ := C46 (c := hcfg 1) (k := .fixedL) (A := [3, -7, 4])
    (ops := [(1, -1)]) (by decide) (by unfold Limits; decide +kernel) (by decide)
    (fun h => by simp [Kind.compressed] at h)
  refine ⟨o, e, (h 2 (by decide)).trans ?_⟩
  decide

/-! ## C47: find -/

/-- The array is non-negative and its sum is below `2^64`. -/
def Searchable (A : List Int) : Prop := (∀ a ∈ A, 0 ≤ a) ∧ pre A A.length < 2 ^ 64

theorem node_lt_total {A : List Int} (h : Searchable A) {i : Nat} (hi : i ≤ A.length) :
    nodeInt (pre A) i < (W64 : Int) := by
  have h1 := pre_le h.1 hi
  have h2 := pre_nonneg h.1 (i - 2 ^ tz i)
  have h3 := h.2
  unfold nodeInt
  simp only [W64]
  omega

/-- A bounded array within the limits of a compressed class is searchable node by node. -/
theorem node_lt_bound {c : Cfg} {k : Kind} {A : List Int} (hf : Fits c A.length k)
    (hk : k.compressed = true) (h : Within c.bound A) {i : Nat} (h0 : 0 < i) (hi : i ≤ A.length) :
    nodeInt (pre A) i < (W64 : Int) := by
  have hlt := hf.lt
  obtain ⟨y, hy, hb⟩ := within_stage h (tz i) h0 (by omega)
  rw [stage_top (pre A) (Nat.le_refl _)] at hy
  have ht := tz_le_log2 h0 hi hlt
  have hfit := hf.fit hk (by omega)
  have : 2 ^ (c.bs + tz i) ≤ 2 ^ 64 := Nat.pow_le_pow_right (by decide) (by omega)
  rw [hy]; simp only [W64]; omega

/-- Values a search is over: non-negative, and for the uncompressed classes of sum below `2^64`. -/
def SearchOk (k : Kind) (A : List Int) : Prop := k.compressed = false → Searchable A

theorem find_run {c : Cfg} {k : Kind} {A : List Int} {ops : List (Nat × Int)}
    (hn : A.length < 2 ^ 48) (h0 : 0 < A.length) (hl : Limits c A.length k)
    (hi : ∀ op ∈ ops, 0 < op.1) (hb : Bounded c k A ops) (hs : SearchOk k (after A ops))
    (hT : k = .typeL → ZerosOk c.bound A.length) (val : Nat) :
    ∃ o r d, run c k A ops = ok o ∧ o.find c val = ok (r, d) ∧
      Spec.Tree.IsFind (after A ops) val r ∧ (d : Int) = val - pre (after A ops) r := by
  obtain ⟨o, e, h⟩ := run_holds hn hl hi hb
  have el := after_length ops A
  have hf := hl.fits hn
  rw [← el] at hf h h0 hT
  have hnn : ∀ a ∈ after A ops, 0 ≤ a := by
    cases hk : k.compressed with
    | false => exact (hs hk).1
    | true => exact fun a ha => (staysWithin_last ops (hb hk) a ha).1
  obtain ⟨r, d, e1, e2, e3⟩ := find_ok (val := val) hf h h0 hT hnn (fun i h1 h2 => by
    cases hk : k.compressed with
    | false => exact node_lt_total (hs hk) h2
    | true => exact node_lt_bound hf hk (staysWithin_last ops (hb hk)) h1 h2)
  exact ⟨o, r, d, e, e1, e2, e3⟩

/-- **C47.**  After any history, `find(&val)` returns the largest index whose prefix sum does not
exceed `val` and leaves in `val` the difference.  Every class but `TypeL` (see C49), not empty. -/
theorem C47 {c : Cfg} {k : Kind} {A : List Int} {ops : List (Nat × Int)}
    (hn : A.length < 2 ^ 48) (h0 : 0 < A.length) (hl : Limits c A.length k) (hk : k ≠ .typeL)
    (hi : ∀ op ∈ ops, 0 < op.1) (hb : Bounded c k A ops) (hs : SearchOk k (after A ops)) (val : Nat) :
    ∃ o r d, run c k A ops = ok o ∧ o.find c val = ok (r, d) ∧
      Spec.Tree.IsFind (after A ops) val r ∧ (d : Int) = val - pre (after A ops) r :=
  find_run hn h0 hl hi hb hs (fun h => absurd h hk) val

theorem isFind_unique {A : List Int} {val r r' : Nat} (h : Spec.Tree.IsFind A val r)
    (h' : Spec.Tree.IsFind A val r') : r = r' :=
  Nat.le_antisymm (h'.2.2 r h.1 h.2.1) (h.2.2 r' h'.1 h'.2.1)

example : ∃ o, run (hcfg 7) .byteL [3, 0, 0, 4, 5] [(1, 2)] = ok o ∧
    o.find (hcfg 7) 6 = ok (3, 1) := by
  obtain ⟨o, r, d, e, e1, e2, e3⟩ := C47 (c := hcfg 7) (k := .byteL) (A := [3, 0, 0, 4, 5])
    (ops := [(1, 2)]) (by decide) (by decide) (by unfold Limits; decide +kernel) (by decide)
    (by decide) (fun _ => by decide) (fun h => by simp [Kind.compressed] at h) 6
  have hr : r = 3 := isFind_unique e2 ⟨by decide, by decide, by decide⟩
  subst hr
  have hd : d = 1 := by
    have : pre (after [3, 0, 0, 4, 5] [(1, 2)]) 3 = 5 := by decide
    omega
  subst hd
  exact ⟨o, e, e1⟩

/-- Searching for the total or more gives the whole array.  The comment of fenwick_tree.hpp lines
50-51 says that zero is returned when no prefix reaches `val`. -/
theorem C47_past_end {c : Cfg} {k : Kind} {A : List Int} {ops : List (Nat × Int)}
    (hn : A.length < 2 ^ 48) (h0 : 0 < A.length) (hl : Limits c A.length k) (hk : k ≠ .typeL)
    (hi : ∀ op ∈ ops, 0 < op.1) (hb : Bounded c k A ops) (hs : SearchOk k (after A ops)) {val : Nat}
    (hv : pre (after A ops) A.length ≤ val) :
    ∃ o d, run c k A ops = ok o ∧ o.find c val = ok (A.length, d) ∧
      (d : Int) = val - pre (after A ops) A.length := by
  obtain ⟨o, r, d, e, e1, e2, e3⟩ := C47 hn h0 hl hk hi hb hs val
  have el := after_length ops A
  have hr : r = A.length := by
    have h1 := e2.1
    have h2 := e2.2.2 A.length (by rw [el]; exact Nat.le_refl _) hv
    rw [el] at h1
    omega
  subst hr
  exact ⟨o, d, e, e1, e3⟩

/-- The documented zero is never returned: no prefix of `[1, 2]` reaches 9, and the result is 2. -/
example : ∃ o, run (hcfg 3) .fixedF [1, 2] [] = ok o ∧ o.find (hcfg 3) 9 = ok (2, 6) := by
  obtain ⟨o, d, e, e1, e3⟩ := C47_past_end (c := hcfg 3) (k := .fixedF) (A := [1, 2]) (ops := [])
    (val := 9) (by decide) (by decide) (by unfold Limits; decide +kernel) (by decide) (by decide)
    (fun h => by simp [Kind.compressed] at h) (fun _ => ⟨by decide, by decide⟩) (by decide)
  have hd : d = 6 := by
    have : pre (after [1, 2] []) (List.length [(1 : Int), 2]) = 3 := by decide
    omega
  subst hd
  exact ⟨o, e, e1⟩

/-! ## C48: compFind -/

theorem compFind_run {c : Cfg} {k : Kind} {A : List Int} {ops : List (Nat × Int)}
    (hn : A.length < 2 ^ 48) (h0 : 0 < A.length) (hl : Limits c A.length k)
    (hi : ∀ op ∈ ops, 0 < op.1) (hb : StaysWithin c.bound A ops)
    (hr : bits c.bound + Nat.log2 A.length ≤ 64)
    (hT : k = .typeL → ZerosOk c.bound A.length) (val : Nat) :
    ∃ o r d, run c k A ops = ok o ∧ o.compFind c val = ok (r, d) ∧
      Spec.Tree.IsFind (complement c.bound (after A ops)) val r ∧
      (d : Int) = val - pre (complement c.bound (after A ops)) r := by
  obtain ⟨o, e, h⟩ := run_holds hn hl hi (fun _ => hb)
  have el := after_length ops A
  have hf := hl.fits hn
  rw [← c.bs_eq] at hr
  rw [← el] at hf h h0 hT hr
  obtain ⟨r, d, e1, e2, e3⟩ := compFind_ok (val := val) hf h h0 hT (staysWithin_last ops hb) hr
  exact ⟨o, r, d, e, e1, e2, e3⟩

/-- **C48.**  `compFind(&val)` is `find` on the array of differences to `BOUND`: with bits, it
searches for zeros.  Every class but `TypeL`, elements within `BOUND`, root within 64 bits. -/
theorem C48 {c : Cfg} {k : Kind} {A : List Int} {ops : List (Nat × Int)}
    (hn : A.length < 2 ^ 48) (h0 : 0 < A.length) (hl : Limits c A.length k) (hk : k ≠ .typeL)
    (hi : ∀ op ∈ ops, 0 < op.1) (hb : StaysWithin c.bound A ops)
    (hr : bits c.bound + Nat.log2 A.length ≤ 64) (val : Nat) :
    ∃ o r d, run c k A ops = ok o ∧ o.compFind c val = ok (r, d) ∧
      Spec.Tree.IsFind (complement c.bound (after A ops)) val r ∧
      (d : Int) = val - pre (complement c.bound (after A ops)) r :=
  compFind_run hn h0 hl hi hb hr (fun h => absurd h hk) val

/-- Words with 60, 64, 10 and 0 ones: the zero number 30 (from 0) is in the third word, after 26
zeros of it. -/
example : ∃ o, run (hcfg 64) .byteF [60, 64, 10, 1] [(4, -1)] = ok o ∧
    o.compFind (hcfg 64) 30 = ok (2, 26) := by
  obtain ⟨o, r, d, e, e1, e2, e3⟩ := C48 (c := hcfg 64) (k := .byteF) (A := [60, 64, 10, 1])
    (ops := [(4, -1)]) (by decide) (by decide) (by unfold Limits; decide +kernel) (by decide)
    (by decide) (by decide) (by decide +kernel) 30
  have hr : r = 2 := isFind_unique e2 ⟨by decide, by decide, by decide⟩
  subst hr
  have hd : d = 26 := by
    have : pre (complement (hcfg 64).bound (after [60, 64, 10, 1] [(4, -1)])) 2 = 4 := by decide
    omega
  subst hd
  exact ⟨o, e, e1⟩

/-! ## C49: the searches of TypeL -/

/-- **C49, negation.**  `TypeL` tests the position against the end of the whole array of its element
type (typel.hpp lines 128, 133, 138) instead of the end of the level, so a search can count a node of
the next level twice: over `0 0 0 0 1`, `find(0)` returns 5, whose prefix sum is 1. -/
theorem C49_wrong :
    (run (hcfg 1) .typeL [0, 0, 0, 0, 1] [] >>= fun o => o.find (hcfg 1) 0) = ok (5, 0) ∧
    ¬ Spec.Tree.IsFind [0, 0, 0, 0, 1] 0 5 ∧ Spec.Tree.IsFind [0, 0, 0, 0, 1] 0 4 :=
  ⟨by decide +kernel, fun h => absurd h.2.1 (by decide), by decide, by decide, by decide⟩

/-- **C49, negation for compFind.** -/
theorem C49_wrong_comp :
    (run (hcfg 1) .typeL [1, 1, 0, 0, 0] [] >>= fun o => o.compFind (hcfg 1) 2) = ok (5, 0) ∧
    ¬ Spec.Tree.IsFind (complement 1 [1, 1, 0, 0, 0]) 2 5 :=
  ⟨by decide +kernel, fun h => absurd h.2.1 (by decide)⟩

/-- **C49, what holds.**  When the number of elements is one less than a power of two, every level
is full and both searches of `TypeL` are right.  Missing: all other sizes, where the claim is false
in general (`C49_wrong`; exactly when, `C49_find_iff`). -/
theorem C49_partial {c : Cfg} {A : List Int} {ops : List (Nat × Int)} {p : Nat}
    (hp : A.length + 1 = 2 ^ p) (h0 : 0 < A.length) (hn : A.length < 2 ^ 48)
    (hl : Limits c A.length .typeL) (hi : ∀ op ∈ ops, 0 < op.1) (hb : StaysWithin c.bound A ops)
    (val : Nat) :
    ∃ o r d r' d', run c .typeL A ops = ok o ∧
      o.find c val = ok (r, d) ∧ Spec.Tree.IsFind (after A ops) val r ∧
      (d : Int) = val - pre (after A ops) r ∧
      o.compFind c val = ok (r', d') ∧ Spec.Tree.IsFind (complement c.bound (after A ops)) val r' ∧
      (d' : Int) = val - pre (complement c.bound (after A ops)) r' := by
  obtain ⟨o, r, d, e, e1, e2, e3⟩ := find_run hn h0 hl hi (fun _ => hb)
    (fun h => by simp [Kind.compressed] at h) (fun _ => zerosOk_full hp _) val
  obtain ⟨o', r', d', e', e1', e2', e3'⟩ := compFind_run hn h0 hl hi hb
    (Nat.le_trans hl (by decide)) (fun _ => zerosOk_full hp _) val
  rw [e] at e'
  cases e'
  exact ⟨o, r, d, r', d', e, e1, e2, e3, e1', e2', e3'⟩

example : ∃ o r d r' d', run (hcfg 1) .typeL [0, 0, 0, 0, 1, 0, 1] [(1, 1)] = ok o ∧
    o.find (hcfg 1) 1 = ok (r, d) ∧ Spec.Tree.IsFind [1, 0, 0, 0, 1, 0, 1] 1 r ∧
    (d : Int) = 1 - pre [1, 0, 0, 0, 1, 0, 1] r ∧
    o.compFind (hcfg 1) 1 = ok (r', d') ∧
    Spec.Tree.IsFind (complement 1 [1, 0, 0, 0, 1, 0, 1]) 1 r' ∧
    (d' : Int) = 1 - pre (complement 1 [1, 0, 0, 0, 1, 0, 1]) r' :=
  C49_partial (c := hcfg 1) (A := [0, 0, 0, 0, 1, 0, 1]) (ops := [(1, 1)]) (p := 3) (by decide)
    (by decide) (by decide) (by unfold Limits; decide +kernel) (by decide) (by decide) 1

/-! ## C50: empty trees and index 0 -/

/-- **C50, negation.**  An empty tree can be built in every class, but searching it is undefined
behaviour in the classical layouts: `mask_lambda(0)` calls `__builtin_clzll(0)` (fixedf.hpp line 57,
common.hpp line 201). -/
theorem C50_wrong {c : Cfg} {k : Kind} (hl : Limits c 0 k) (hk : k.classical = true) (val : Nat) :
    ∃ o, run c k [] [] = ok o ∧ o.find c val = ub .ctzZero ∧ o.compFind c val = ub .ctzZero := by
  obtain ⟨o, e, h⟩ := run_holds (A := []) (ops := []) (by decide) hl (by simp)
    (fun _ => by simp [StaysWithin, Within])
  exact ⟨o, e, by rw [find_empty val h, if_pos hk], by rw [compFind_empty val h, if_pos hk]⟩

example : ∃ o, run (hcfg 64) .byteF [] [] = ok o ∧ o.find (hcfg 64) 0 = ub .ctzZero ∧
    o.compFind (hcfg 64) 0 = ub .ctzZero :=
  C50_wrong (by unfold Limits; decide +kernel) rfl 0

/-- **C50, what holds.**  In the level-ordered layouts a search of an empty tree returns 0 and leaves
the argument alone.  Missing: the classical layouts, where the claim is false (`C50_wrong`). -/
theorem C50_partial {c : Cfg} {k : Kind} (hl : Limits c 0 k) (hk : k.classical = false) (val : Nat) :
    ∃ o, run c k [] [] = ok o ∧ o.find c val = ok (0, val) ∧ o.compFind c val = ok (0, val) := by
  obtain ⟨o, e, h⟩ := run_holds (A := []) (ops := []) (by decide) hl (by simp)
    (fun _ => by simp [StaysWithin, Within])
  exact ⟨o, e, by rw [find_empty val h, if_neg (by simp [hk])],
    by rw [compFind_empty val h, if_neg (by simp [hk])]⟩

example : ∃ o, run (hcfg 64) .bitL [] [] = ok o ∧ o.find (hcfg 64) 5 = ok (0, 5) ∧
    o.compFind (hcfg 64) 5 = ok (0, 5) :=
  C50_partial (by unfold Limits; decide +kernel) rfl 5

/-- Indices start at 1: `add(0, ..)` never ends in `FixedF`, for every array and history. -/
theorem C50_add0_fixedF {c : Cfg} {A : List Int} {ops : List (Nat × Int)} (hn : A.length < 2 ^ 48)
    (hi : ∀ op ∈ ops, 0 < op.1) (inc : Nat) :
    (run c .fixedF A ops >>= fun o => o.add c 0 inc) = ub .diverges := by
  obtain ⟨o, e, h⟩ := run_holds (k := .fixedF) hn trivial hi
    (fun h => by simp [Kind.compressed] at h)
  rw [e, ok_bind, add0_fixedF inc h]

/-- `add(0, ..)` is undefined behaviour in every level-ordered class. -/
theorem C50_add0_level {c : Cfg} {k : Kind} {A : List Int} {ops : List (Nat × Int)}
    (hn : A.length < 2 ^ 48) (hl : Limits c A.length k) (hi : ∀ op ∈ ops, 0 < op.1)
    (hb : Bounded c k A ops) (hk : k.classical = false) (inc : Nat) :
    (run c k A ops >>= fun o => o.add c 0 inc) = ub .ctzZero := by
  obtain ⟨o, e, h⟩ := run_holds hn hl hi hb
  rw [e, ok_bind, add0_level inc hk h]

example : (run (hcfg 1) .fixedF [1, 2] [(1, 1)] >>= fun o => o.add (hcfg 1) 0 1) = ub .diverges :=
  C50_add0_fixedF (by decide) (by decide) 1

example : (run (hcfg 3) .typeL [1, 2] [(1, 1)] >>= fun o => o.add (hcfg 3) 0 1) = ub .ctzZero :=
  C50_add0_level (by decide) (by unfold Limits; decide +kernel) (by decide) (fun _ => by decide) rfl 1

/-! ## C51: the bit-packed level order -/

/-- **C51, negation 1.**  Under the rules of C++, where a shift by 64 is undefined, no non-empty
`BitL` can be constructed: `bitwrite_inc` computes `sum >> (64 - from)` with `from = 0` for the very
first node (common.hpp line 294). -/
theorem C51_shift {c : Cfg} {A : List Int} (hs : c.strictShift = true) (hn : 0 < A.length)
    (ops : List (Nat × Int)) : run c .bitL A ops = ub .shift := by
  unfold run
  rw [bitL_shift hs hn, ub_bind]

example : run ⟨1, ⟨true, true, false, false⟩, true, false⟩ .bitL [1] [] = ub .shift :=
  C51_shift rfl (by decide) []

/-- **C51, negation 2.**  With the shifts of x86, a decrease of a node that straddles a word
boundary changes its neighbour, because the carry into the next word is not sign-extended: with
`BOUND = 2^58`, `add(11, -1)` also adds 32 to element 13. -/
theorem C51_corrupts :
    (run (hcfg (2 ^ 58)) .bitL [0, 0, 0, 0, 0, 0, 0, 0, 0, 0, 2 ^ 57, 0, 0] [(11, -1)]
      >>= fun o => o.prefix (hcfg (2 ^ 58)) 12) = ok (2 ^ 57 - 1) ∧
    (run (hcfg (2 ^ 58)) .bitL [0, 0, 0, 0, 0, 0, 0, 0, 0, 0, 2 ^ 57, 0, 0] [(11, -1)]
      >>= fun o => o.prefix (hcfg (2 ^ 58)) 13) = ok (2 ^ 57 - 1 + 32) ∧
    StaysWithin (2 ^ 58) [0, 0, 0, 0, 0, 0, 0, 0, 0, 0, 2 ^ 57, 0, 0] [(11, -1)] :=
  ⟨by decide +kernel, by decide +kernel, by decide⟩

/-- **C51, what holds.**  With the shifts of x86 and a root of at most 57 bits, `BitL` is right
whatever the signs.  Missing: strict shifts (`C51_shift`) and wider nodes (`C51_corrupts`). -/
theorem C51_partial {c : Cfg} {A : List Int} {ops : List (Nat × Int)}
    (hn : A.length < 2 ^ 48) (hs : c.strictShift = false)
    (hr : bits c.bound + Nat.log2 A.length ≤ 57) (hi : ∀ op ∈ ops, 0 < op.1)
    (hb : StaysWithin c.bound A ops) :
    ∃ o, run c .bitL A ops = ok o ∧
      ∀ i, i ≤ A.length → o.prefix c i = ok (pre (after A ops) i).toNat := by
  obtain ⟨o, e, -, h⟩ := C46 (k := .bitL) hn ⟨hr, hs⟩ hi (fun _ => hb)
  refine ⟨o, e, fun i hle => (h i hle).trans ?_⟩
  have hW := staysWithin_last ops hb
  have h1 := within_range hW 0 i
  rw [Nat.zero_add, pre_zero] at h1
  have hb : c.bound < 2 ^ bits c.bound := by rw [← c.bs_eq]; exact lt_ceilLog2Plus1 _
  have hlen : i < 2 ^ (Nat.log2 A.length + 1) := Nat.lt_of_le_of_lt hle Nat.lt_log2_self
  have h2 : c.bound * i ≤ 2 ^ bits c.bound * 2 ^ (Nat.log2 A.length + 1) :=
    Nat.mul_le_mul (by omega) (by omega)
  rw [← Nat.pow_add] at h2
  have h3 : 2 ^ (bits c.bound + (Nat.log2 A.length + 1)) ≤ 2 ^ 58 :=
    Nat.pow_le_pow_right (by decide) (by omega)
  congr 2
  omega

example : ∃ o, run (hcfg (2 ^ 50)) .bitL [2 ^ 50, 1, 2 ^ 49] [(1, -1), (3, -2 ^ 48)] = ok o ∧
    o.prefix (hcfg (2 ^ 50)) 3 = ok (2 ^ 50 + 2 ^ 48) := by
  obtain ⟨o, e, h⟩ := C51_partial (c := hcfg (2 ^ 50)) (A := [2 ^ 50, 1, 2 ^ 49])
    (ops := [(1, -1), (3, -2 ^ 48)]) (by decide) rfl (by decide +kernel) (by decide) (by decide)
  exact ⟨o, e, (h 3 (by decide)).trans (by decide)⟩

/-! ## C52: alignment of TypeF -/

/-- **C52.**  Where misaligned accesses are undefined, `TypeF` over an array within bounds works
exactly when all its nodes have one element type: leaves of more than 16 bits, or a root of at most 8
bits, or all nodes between 9 and 16 bits.  In every other case the constructor already makes a
misaligned access. -/
theorem C52 {c : Cfg} {A : List Int} (hn : A.length < 2 ^ 48)
    (hr : bits c.bound + Nat.log2 A.length ≤ 64) (hb : Within c.bound A)
    (hs : c.build.strictAlign = true) :
    (if 17 ≤ bits c.bound ∨ bits c.bound + Nat.log2 A.length ≤ 8 ∨
        9 ≤ bits c.bound ∧ bits c.bound + Nat.log2 A.length ≤ 16
      then ∃ o, run c .typeF A [] = ok o ∧
        ∀ i, i ≤ A.length → o.prefix c i = ok (pre A i % 2 ^ 64).toNat
      else run c .typeF A [] = ub .misaligned) := by
  split
  · rename_i h
    obtain ⟨o, e, -, h'⟩ := C46 (c := c) (k := .typeF) (A := A) (ops := []) hn
      ⟨hr, Or.inr h⟩ (by simp) (fun _ => hb)
    exact ⟨o, e, h'⟩
  · rename_i h
    have hlt : A.length < W64 := by simp only [W64]; omega
    unfold run
    rw [← c.bs_eq] at hr h
    rw [typeF_misaligned ⟨c.one_le_bs, fun _ => hr, by omega, hn⟩, ub_bind]
    intro ha
    rcases (typeAlign_iff hlt hr).1 ha with h1 | h1
    · rw [hs] at h1; cases h1
    · exact h h1

/-- Four words of up to 64 ones: the root needs 9 bits, so it is a `uint16_t` at an odd position. -/
example : run ⟨64, ⟨true, true, false, true⟩, false, false⟩ .typeF [60, 64, 10, 1] [] =
    ub .misaligned := by
  have := C52 (c := ⟨64, ⟨true, true, false, true⟩, false, false⟩) (A := [60, 64, 10, 1]) (by decide)
    (by decide +kernel) (by decide) rfl
  rwa [if_neg (by decide +kernel)] at this

example : ∃ o, run ⟨64, ⟨true, true, false, true⟩, false, false⟩ .typeF [60, 64, 10] [] = ok o ∧
    ∀ i, i ≤ 3 → o.prefix ⟨64, ⟨true, true, false, true⟩, false, false⟩ i =
      ok (pre [60, 64, 10] i % 2 ^ 64).toNat := by
  have := C52 (c := ⟨64, ⟨true, true, false, true⟩, false, false⟩) (A := [60, 64, 10]) (by decide)
    (by decide +kernel) (by decide) rfl
  rwa [if_pos (by decide +kernel)] at this

/-! ## C53: how wide a root TypeL holds -/

/-- **C53, negation.**  The `switch` of the constructor of `TypeL` is on one more than the width of
the root (typel.hpp line 44), so a root of exactly 64 bits falls to `default`, no array of words is
allocated and the first store is through a null pointer: for every non-empty array. -/
theorem C53_null {c : Cfg} {A : List Int} (hn : 0 < A.length) (hsz : A.length < 2 ^ 48)
    (hr : bits c.bound + Nat.log2 A.length = 64) (ops : List (Nat × Int)) :
    run c .typeL A ops = ub .oob := by
  unfold run
  rw [← c.bs_eq] at hr
  rw [typeL_null hn hsz hr, ub_bind]

/-- `TypeL<2^64 - 1>` over one element. -/
example : run (hcfg (2 ^ 64 - 1)) .typeL [5] [] = ub .oob :=
  C53_null (by decide) (by decide) (by decide +kernel) []

/-- **C53, what holds.**  A root of at most 63 bits; the other classes of whole bytes hold 64.
Missing: a root of 64 bits, where the claim is false (`C53_null`). -/
theorem C53_partial {c : Cfg} {A : List Int} {ops : List (Nat × Int)} (hn : A.length < 2 ^ 48)
    (hr : bits c.bound + Nat.log2 A.length ≤ 63) (hi : ∀ op ∈ ops, 0 < op.1)
    (hb : StaysWithin c.bound A ops) :
    ∃ o, run c .typeL A ops = ok o ∧
      ∀ i, i ≤ A.length → o.prefix c i = ok (pre (after A ops) i % 2 ^ 64).toNat := by
  obtain ⟨o, e, -, h⟩ := C46 (k := .typeL) hn hr hi (fun _ => hb)
  exact ⟨o, e, h⟩

example : ∃ o, run (hcfg (2 ^ 62 - 1)) .typeL [5, 2 ^ 61] [(1, 1)] = ok o ∧
    ∀ i, i ≤ 2 → o.prefix (hcfg (2 ^ 62 - 1)) i = ok (pre [6, 2 ^ 61] i % 2 ^ 64).toNat :=
  C53_partial (c := hcfg (2 ^ 62 - 1)) (A := [5, 2 ^ 61]) (ops := [(1, 1)]) (by decide)
    (by decide +kernel) (by decide) (by decide)

end MRS.Props
