import Verif.Proofs.Hft.Hybrid
import Verif.Props.HftTrees

/-!
# Properties of `Hybrid` (include/hft/fenwick/hybrid.hpp), C54-C57

`n` elements, blocks of `2^CUT`, any two of the eight classes.
-/

set_option autoImplicit false

namespace MRS.Props
open MRS.Hft Outcome Spec.Tree

/-- Construct a `Hybrid` over `A` and add to it. -/
def hrun (c : HCfg) (A : List Int) (ops : List (Nat × Int)) : Outcome Hybrid := do
  let o ← hybridBuild c (array A) A.length
  o.adds c ops

theorem Limits.mono {c : Cfg} {n m : Nat} {k : Kind} (h : Limits c n k) (hm : m ≤ n) :
    Limits c m k := by
  have hl : Nat.log2 m ≤ Nat.log2 n := by
    rcases Nat.eq_zero_or_pos m with h0 | h0
    · subst h0; simp
    · exact (Nat.le_log2 (by omega)).2 (Nat.le_trans (Nat.log2_self_le (by omega)) hm)
  unfold Limits at *
  simp only at *
  cases k <;> simp only at * <;> first | trivial | omega | skip
  · exact ⟨by omega, h.2.imp id fun h2 => by omega⟩
  · exact ⟨by omega, h.2⟩

/-- What `Hybrid` needs: the limits of the class of the large tree, over blocks whose sums reach
`BOUND * 2^CUT`, and of the class of the small trees, of at most `2^CUT - 1` elements. -/
structure HLimits (c : HCfg) (n : Nat) : Prop where
  size : n < 2 ^ 48
  cut : c.cut < 64
  top : Limits { c.cfg with bound := c.cfg.bound * 2 ^ c.cut } (n / 2 ^ c.cut) c.top
  bottom : Limits c.cfg (min n (2 ^ c.cut - 1)) c.bottom
  bound : c.top.compressed = true → c.cfg.bound * 2 ^ c.cut < 2 ^ 64

theorem HLimits.fits {c : HCfg} {n : Nat} (h : HLimits c n) : HFits c n := by
  have hq : n / c.C ≤ n := Nat.div_le_self _ _
  have hs := h.size
  refine ⟨?_, fun m h1 h2 => ?_, fun hk => h.bound hk⟩
  · by_cases hk : c.top.compressed = true
    · have e : c.topCfg = { c.cfg with bound := c.cfg.bound * 2 ^ c.cut } := by
        unfold HCfg.topCfg
        rw [Nat.mod_eq_of_lt (h.bound hk)]
      rw [e]
      exact h.top.fits (show n / c.C < _ by omega)
    · have hx : n / c.C < 2 ^ 48 := by omega
      cases ht : c.top <;> rw [ht] at hk <;> first | exact hx | simp [Kind.compressed] at hk
  · refine (h.bottom.mono ?_).fits (by omega)
    have : m ≤ 2 ^ c.cut - 1 := h2
    omega

/-- Elements between 0 and `BOUND` all along, when one of the classes is compressed. -/
def HBounded (c : HCfg) (A : List Int) (ops : List (Nat × Int)) : Prop :=
  c.top.compressed = true ∨ c.bottom.compressed = true → StaysWithin c.cfg.bound A ops

/-- Indices from 1; past the end only multiples of `2^CUT` or in the last block (see C57). -/
def HIdx (c : HCfg) (n : Nat) (ops : List (Nat × Int)) : Prop :=
  ∀ op ∈ ops, 0 < op.1 ∧ (op.1 % 2 ^ c.cut = 0 ∨ op.1 / 2 ^ c.cut ≤ n / 2 ^ c.cut)

theorem hrun_holds {c : HCfg} {A : List Int} {ops : List (Nat × Int)} (hl : HLimits c A.length)
    (hi : HIdx c A.length ops) (hb : HBounded c A ops) :
    ∃ o, hrun c A ops = ok o ∧ HHolds c (after A ops) o := by
  obtain ⟨o, e, h⟩ := hybridBuild_ok hl.fits (fun hk => staysWithin_first (hb hk))
  obtain ⟨o', e', h'⟩ := hadds_ok ops hl.fits hi hb h
  exact ⟨o', by unfold hrun; rw [e, ok_bind, e'], h'⟩

/-! ## C54: prefix sums -/

/-- **C54.**  After any history of `add`s, `prefix(i)` is the sum modulo `2^64` of the first `i`
elements of the updated array and `size()` is the number of elements, whatever the two classes and
`CUT` within the limits. -/
theorem C54 {c : HCfg} {A : List Int} {ops : List (Nat × Int)} (hl : HLimits c A.length)
    (hi : HIdx c A.length ops) (hb : HBounded c A ops) :
    ∃ o, hrun c A ops = ok o ∧ o.size = A.length ∧
      ∀ i, i ≤ A.length → o.prefix c i = ok (((pre (after A ops) i) % 2 ^ 64).toNat) := by
  obtain ⟨o, e, h⟩ := hrun_holds hl hi hb
  have el := after_length ops A
  refine ⟨o, e, by rw [h.size, el], fun i h1 => ?_⟩
  exact hprefix_ok (by rw [el]; exact hl.fits) h (by rw [el]; exact h1)

/-- Byte trees over blocks of four with bit-packed trees inside. -/
def hy (top bottom : Kind) (cut : Nat) : HCfg := ⟨hcfg 7, top, bottom, cut⟩

theorem hy_limits {top bottom : Kind} {cut n : Nat} (h : n < 2 ^ 48) (hc : cut < 60)
    (h1 : Limits { hcfg 7 with bound := 7 * 2 ^ cut } (n / 2 ^ cut) top)
    (h2 : Limits (hcfg 7) (min n (2 ^ cut - 1)) bottom) : HLimits (hy top bottom cut) n :=
  ⟨h, show cut < 64 by omega, h1, h2, fun _ => by
    have : 2 ^ cut ≤ 2 ^ 59 := Nat.pow_le_pow_right (by decide) (by omega)
    show 7 * 2 ^ cut < _
    omega⟩

example : ∃ o, hrun (hy .byteF .bitF 2) [1, 2, 3, 4, 5, 6, 7, 0, 1] [(6, -4), (8, 7), (12, 1)] = ok o ∧
    o.prefix (hy .byteF .bitF 2) 8 = ok 31 := by
  obtain ⟨o, e, _, h⟩ := C54 (c := hy .byteF .bitF 2) (A := [1, 2, 3, 4, 5, 6, 7, 0, 1])
    (ops := [(6, -4), (8, 7), (12, 1)])
    (hy_limits (by decide) (by decide) (by unfold Limits; decide +kernel) (by unfold Limits; decide +kernel))
    (by unfold HIdx; decide) (fun _ => by decide)
  exact ⟨o, e, (h 8 (by decide)).trans (by decide)⟩

/-! ## C55: find -/

/-- The sums a search compares stay below `2^64`. -/
def HSearchOk (c : HCfg) (A : List Int) : Prop :=
  c.top.compressed = false ∨ c.bottom.compressed = false → Searchable A

/-- The search ends in a small tree with elements: not when `CUT` is 0, and not past the last
element when the blocks are all full. -/
def Lands (c : HCfg) (A : List Int) (val : Nat) : Prop :=
  0 < c.cut ∧ (A.length % 2 ^ c.cut ≠ 0 ∨ (val : Int) < pre A A.length)

/-- `TypeL` searches only trees whose size has no bad zero (C49); small trees are full but for the
last. -/
def FullTypeL (c : HCfg) (n : Nat) : Prop :=
  (c.top = .typeL → ZerosOk c.topCfg.bound (n / 2 ^ c.cut)) ∧
  (c.bottom = .typeL → ZerosOk c.cfg.bound (n % 2 ^ c.cut))

/-- Six is not one less than a power of two, but its only zero is where the bytes end. -/
example : ZerosOk 255 6 := by
  intro h h1 h2
  have hlt : h < 2 := Nat.lt_of_lt_of_le h1 (by decide)
  match h, hlt with
  | 0, _ => exact Or.inl (by decide)
  | 1, _ => exact absurd h2 (by decide)

theorem searchable_top {C : Nat} {A : List Int} (hC : 0 < C) (h : Searchable A) : Searchable (topArr C A) := by
  constructor
  · intro a ha
    simp only [topArr, List.mem_map] at ha
    obtain ⟨i, -, rfl⟩ := ha
    have := pre_le h.1 (i := i * C) (j := (i + 1) * C) (by rw [Nat.add_mul]; omega)
    omega
  · rw [topArr_length, pre_topArr (Nat.le_refl _)]
    have := pre_le h.1 (Nat.div_mul_le_self A.length C)
    have h2 := h.2
    omega

theorem searchable_bot {C : Nat} {A : List Int} (h : Searchable A) (i : Nat) :
    Searchable (botArr C A i) := by
  refine ⟨fun a ha => h.1 a (List.mem_of_mem_drop (List.mem_of_mem_take ha)), ?_⟩
  have hlen : (botArr C A i).length ≤ C - 1 := by rw [botArr_length]; omega
  rw [pre_botArr hlen]
  have h1 := pre_nonneg h.1 (i * C)
  have h2 := h.2
  have h3 : pre A (i * C + (botArr C A i).length) ≤ pre A A.length := by
    rcases Nat.le_total (i * C + (botArr C A i).length) A.length with h4 | h4
    · exact pre_le h.1 h4
    · unfold pre
      rw [List.take_of_length_le h4, List.take_of_length_le (Nat.le_refl _)]
      exact Int.le_refl _
  omega

theorem hb_nonneg {c : HCfg} {A : List Int} (hb : HB c A) (hs : HSearchOk c A) : ∀ a ∈ A, 0 ≤ a := by
  cases hk : c.top.compressed with
  | false => exact (hs (Or.inl hk)).1
  | true => exact fun a ha => (hb (Or.inl hk) a ha).1

theorem topFind {c : HCfg} {A : List Int} {o : Hybrid} {val : Nat} (hf : HFits c A.length)
    (h : HHolds c A o) (hb : HB c A) (hs : HSearchOk c A)
    (hT : c.top = .typeL → ZerosOk c.topCfg.bound (A.length / 2 ^ c.cut)) (h0 : 0 < A.length / c.C) :
    ∃ r d, o.top.find c.topCfg val = ok (r, d) ∧ Spec.Tree.IsFind (topArr c.C A) val r ∧
      (d : Int) = val - pre (topArr c.C A) r := by
  have hnn := hb_nonneg hb hs
  refine find_ok hf.topA h.top (by rw [topArr_length]; exact h0) (by rw [topArr_length]; exact hT) ?_ ?_
  · intro a ha
    simp only [topArr, List.mem_map] at ha
    obtain ⟨i, -, rfl⟩ := ha
    have := pre_le hnn (i := i * c.C) (j := (i + 1) * c.C) (by rw [Nat.add_mul]; omega)
    omega
  · intro i h1 h2
    cases hk : c.top.compressed with
    | false => exact node_lt_total (searchable_top c.C_pos (hs (Or.inl hk))) h2
    | true => exact node_lt_bound hf.topA hk (HB.top hf hb hk) h1 h2

theorem botFind {c : HCfg} {A : List Int} {o : Hybrid} {i v : Nat} (hf : HFits c A.length)
    (h : HHolds c A o) (hb : HB c A) (hs : HSearchOk c A)
    (hT : c.bottom = .typeL → ZerosOk c.cfg.bound (A.length % 2 ^ c.cut)) (hi : i ≤ A.length / c.C)
    (h0 : 0 < (botArr c.C A i).length) :
    ∃ r d, (o.forest.f i).find c.cfg v = ok (r, d) ∧ Spec.Tree.IsFind (botArr c.C A i) v r ∧
      (d : Int) = v - pre (botArr c.C A i) r := by
  have hnn := hb_nonneg hb hs
  refine find_ok (hf.botA i) (h.bot i hi) h0 (fun hk => ?_)
    (fun a ha => hnn a (List.mem_of_mem_drop (List.mem_of_mem_take ha))) ?_
  · rcases bot_size hi with e | e
    · exact zerosOk_full e _
    · rw [e]; exact hT hk
  · intro j h1 h2
    cases hk : c.bottom.compressed with
    | false => exact node_lt_total (searchable_bot (hs (Or.inr hk)) i) h2
    | true => exact node_lt_bound (hf.botA i) hk (hb.bot i hk) h1 h2

/-- An empty small tree of the other classes: index 0 and the value unchanged. -/
theorem empty_isFind {C : Nat} {A : List Int} {i v : Nat} (h : (botArr C A i).length = 0) :
    Spec.Tree.IsFind (botArr C A i) v 0 ∧ (v : Int) = v - pre (botArr C A i) 0 := by
  refine ⟨⟨by omega, ?_, fun j hj _ => by omega⟩, ?_⟩
  · rw [pre_zero]; omega
  · rw [pre_zero]; omega

/-- **C55, partial.**  After any history, `find(&val)` returns the largest index whose prefix sum
does not exceed `val`, and leaves the difference.  Missing: small trees of a class with classical
numbering where the search ends in an empty one (`C55_wrong`), and `TypeL` trees whose size has a
zero elsewhere than where the element type changes (C49). -/
theorem C55_partial {c : HCfg} {A : List Int} {ops : List (Nat × Int)} (hl : HLimits c A.length)
    (hi : HIdx c A.length ops) (hb : HBounded c A ops) (hs : HSearchOk c (after A ops))
    (hT : FullTypeL c A.length) {val : Nat}
    (hk : c.bottom.classical = true → Lands c (after A ops) val) :
    ∃ o r d, hrun c A ops = ok o ∧ o.find c val = ok (r, d) ∧
      Spec.Tree.IsFind (after A ops) val r ∧ (d : Int) = val - pre (after A ops) r := by
  obtain ⟨o, e, h⟩ := hrun_holds hl hi hb
  have el := after_length ops A
  have hf := hl.fits
  unfold FullTypeL at hT
  rw [← el] at hf hT
  have hB : HB c (after A ops) := fun hk => staysWithin_last ops (hb hk)
  have hnn := hb_nonneg hB hs
  obtain ⟨r, d, e1, e2, e3⟩ := hsearch_ok (ftop := Obj.find c.topCfg) (fbot := Obj.find c.cfg)
    (val := val) h rfl hnn (fun h0 => topFind hf h hB hs hT.1 h0) (fun i v h1 h2 => by
      rcases Nat.eq_zero_or_pos (botArr c.C (after A ops) i).length with h0 | h0
      · have hcl : c.bottom.classical = false := by
          cases hc : c.bottom.classical with
          | false => rfl
          | true =>
            have := bot_nonempty (A := after A ops) h1 (hk hc).1 (hk hc).2 h2
            omega
        have hbi := h.bot i h1
        rw [h0] at hbi
        have := find_empty v hbi
        rw [hcl] at this
        exact ⟨0, v, this, empty_isFind h0⟩
      · exact botFind hf h hB hs hT.2 h1 h0)
  exact ⟨o, r, d, e, e1, e2, e3⟩

/-- **C55, negation.**  With small trees of a class with classical numbering, a search that ends in
an empty small tree takes the logarithm of zero.  This happens past the last element when the number
of elements is a multiple of `2^CUT`, and always when `CUT` is 0. -/
theorem C55_wrong {c : HCfg} {A : List Int} {ops : List (Nat × Int)} (hl : HLimits c A.length)
    (hi : HIdx c A.length ops) (hb : HBounded c A ops) (hs : HSearchOk c (after A ops))
    (hT : FullTypeL c A.length) {val : Nat} (hk : c.bottom.classical = true)
    (hv : ¬ Lands c (after A ops) val) :
    ∃ o, hrun c A ops = ok o ∧ o.find c val = ub .ctzZero := by
  obtain ⟨o, e, h⟩ := hrun_holds hl hi hb
  have el := after_length ops A
  have hf := hl.fits
  unfold FullTypeL at hT
  rw [← el] at hf hT
  have hB : HB c (after A ops) := fun hk => staysWithin_last ops (hb hk)
  refine ⟨o, e, hsearch_empty h rfl (fun h0 => topFind hf h hB hs hT.1 h0) ?_ (fun i v h1 h0 => ?_)⟩
  · rcases Nat.eq_zero_or_pos c.cut with h0 | h0
    · exact Or.inl h0
    · right
      constructor
      · exact Classical.byContradiction fun hh => hv ⟨h0, Or.inl hh⟩
      · have : ¬ (val : Int) < pre (after A ops) (after A ops).length := fun hh => hv ⟨h0, Or.inr hh⟩
        omega
  · have hbi := h.bot i h1
    rw [h0] at hbi
    rw [find_empty v hbi, hk]; rfl

/-- Eight elements in two blocks of four: fine up to the last unit, undefined at the total. -/
example : (∃ o, hrun (hy .fixedF .fixedF 2) [1, 0, 2, 1, 0, 0, 1, 3] [(1, 1)] = ok o ∧
      o.find (hy .fixedF .fixedF 2) 8 = ok (7, 2)) ∧
    ∃ o, hrun (hy .fixedF .fixedF 2) [1, 0, 2, 1, 0, 0, 1, 3] [(1, 1)] = ok o ∧
      o.find (hy .fixedF .fixedF 2) 9 = ub .ctzZero := by
  have hl : HLimits (hy .fixedF .fixedF 2) [(1 : Int), 0, 2, 1, 0, 0, 1, 3].length :=
    hy_limits (by decide) (by decide) trivial trivial
  have hT : FullTypeL (hy .fixedF .fixedF 2) [(1 : Int), 0, 2, 1, 0, 0, 1, 3].length :=
    ⟨fun h => (by cases h), fun h => (by cases h)⟩
  constructor
  · obtain ⟨o, r, d, e, e1, e2, e3⟩ := C55_partial (c := hy .fixedF .fixedF 2)
      (A := [1, 0, 2, 1, 0, 0, 1, 3]) (ops := [(1, 1)]) (val := 8) hl (by unfold HIdx; decide)
      (fun h => by simp [hy, Kind.compressed] at h) (fun _ => ⟨by decide, by decide⟩) hT
      (fun _ => ⟨by decide, Or.inr (by decide)⟩)
    have hr : r = 7 := isFind_unique e2 ⟨by decide, by decide, by decide⟩
    subst hr
    have hd : d = 2 := by
      have : pre (after [1, 0, 2, 1, 0, 0, 1, 3] [(1, 1)]) 7 = 6 := by decide
      omega
    subst hd
    exact ⟨o, e, e1⟩
  · exact C55_wrong hl (by unfold HIdx; decide) (fun h => by simp [hy, Kind.compressed] at h)
      (fun _ => ⟨by decide, by decide⟩) hT rfl (by unfold Lands; decide)

/-! ## C56: compFind -/

/-- The roots of the large tree and of the small trees fit 64 bits. -/
def HRoots (c : HCfg) (n : Nat) : Prop :=
  c.cfg.bound * 2 ^ c.cut < 2 ^ 64 ∧
  bits (c.cfg.bound * 2 ^ c.cut) + Nat.log2 (n / 2 ^ c.cut) ≤ 64 ∧
  bits c.cfg.bound + Nat.log2 (min n (2 ^ c.cut - 1)) ≤ 64

theorem topCompFind {c : HCfg} {A : List Int} {o : Hybrid} {val : Nat} (hf : HFits c A.length)
    (h : HHolds c A o) (hb : Within c.cfg.bound A) (hr : HRoots c A.length)
    (hT : c.top = .typeL → ZerosOk c.topCfg.bound (A.length / 2 ^ c.cut)) (h0 : 0 < A.length / c.C) :
    ∃ r d, o.top.compFind c.topCfg val = ok (r, d) ∧
      Spec.Tree.IsFind (topArr c.C (complement c.cfg.bound A)) val r ∧
      (d : Int) = val - pre (topArr c.C (complement c.cfg.bound A)) r := by
  have hB : c.topCfg.bound = c.cfg.bound * c.C := Nat.mod_eq_of_lt hr.1
  have := compFind_ok (val := val) hf.topA h.top (by rw [topArr_length]; exact h0)
    (by rw [topArr_length]; exact hT)
    (by rw [hB]; exact topArr_within hb)
    (by rw [Cfg.bs_eq, hB, topArr_length]; exact hr.2.1)
  rw [hB, complement_topArr] at this
  exact this

theorem botCompFind {c : HCfg} {A : List Int} {o : Hybrid} {i v : Nat} (hf : HFits c A.length)
    (h : HHolds c A o) (hb : Within c.cfg.bound A) (hr : HRoots c A.length)
    (hT : c.bottom = .typeL → ZerosOk c.cfg.bound (A.length % 2 ^ c.cut)) (hi : i ≤ A.length / c.C)
    (h0 : 0 < (botArr c.C A i).length) :
    ∃ r d, (o.forest.f i).compFind c.cfg v = ok (r, d) ∧
      Spec.Tree.IsFind (botArr c.C (complement c.cfg.bound A) i) v r ∧
      (d : Int) = v - pre (botArr c.C (complement c.cfg.bound A) i) r := by
  have := compFind_ok (val := v) (hf.botA i) (h.bot i hi) h0 (fun hk => by
      rcases bot_size hi with e | e
      · exact zerosOk_full e _
      · rw [e]; exact hT hk) (botArr_within hb i) (by
      have h1 : (botArr c.C A i).length ≤ min A.length (2 ^ c.cut - 1) := by
        rw [botArr_length]; show min (2 ^ c.cut - 1) _ ≤ _; omega
      have h2 : Nat.log2 (botArr c.C A i).length ≤ Nat.log2 (min A.length (2 ^ c.cut - 1)) :=
        (Nat.le_log2 (by omega)).2 (Nat.le_trans (Nat.log2_self_le (by omega)) h1)
      have h3 := hr.2.2
      rw [Cfg.bs_eq]; omega)
  rw [complement_botArr] at this
  exact this

/-- **C56, partial.**  `compFind(&val)` is `find` on the array of differences to `BOUND`.  Missing:
as in C55. -/
theorem C56_partial {c : HCfg} {A : List Int} {ops : List (Nat × Int)} (hl : HLimits c A.length)
    (hi : HIdx c A.length ops) (hb : StaysWithin c.cfg.bound A ops) (hr : HRoots c A.length)
    (hT : FullTypeL c A.length) {val : Nat}
    (hk : c.bottom.classical = true → Lands c (complement c.cfg.bound (after A ops)) val) :
    ∃ o r d, hrun c A ops = ok o ∧ o.compFind c val = ok (r, d) ∧
      Spec.Tree.IsFind (complement c.cfg.bound (after A ops)) val r ∧
      (d : Int) = val - pre (complement c.cfg.bound (after A ops)) r := by
  obtain ⟨o, e, h⟩ := hrun_holds hl hi (fun _ => hb)
  have el := after_length ops A
  have hf := hl.fits
  unfold FullTypeL at hT
  rw [← el] at hf hT hr
  have hB := staysWithin_last ops hb
  have hcl := complement_length c.cfg.bound (after A ops)
  obtain ⟨r, d, e1, e2, e3⟩ := hsearch_ok (A' := complement c.cfg.bound (after A ops))
    (ftop := Obj.compFind c.topCfg) (fbot := Obj.compFind c.cfg) (val := val) h hcl
    (fun a ha => (within_complement hB a ha).1)
    (fun h0 => topCompFind hf h hB hr hT.1 h0) (fun i v h1 h2 => by
      rcases Nat.eq_zero_or_pos (botArr c.C (after A ops) i).length with h0 | h0
      · have hcl' : c.bottom.classical = false := by
          cases hc : c.bottom.classical with
          | false => rfl
          | true =>
            have hk' := hk hc
            unfold Lands at hk'
            rw [hcl] at hk'
            have := bot_nonempty (A := after A ops) h1 hk'.1 hk'.2 h2
            omega
        have hbi := h.bot i h1
        rw [h0] at hbi
        have := compFind_empty v hbi
        rw [hcl'] at this
        exact ⟨0, v, this, empty_isFind (by
          rw [botArr_length, hcl, ← botArr_length]; exact h0)⟩
      · exact botCompFind hf h hB hr hT.2 h1 h0)
  exact ⟨o, r, d, e, e1, e2, e3⟩

/-- **C56, negation.**  As `C55_wrong`. -/
theorem C56_wrong {c : HCfg} {A : List Int} {ops : List (Nat × Int)} (hl : HLimits c A.length)
    (hi : HIdx c A.length ops) (hb : StaysWithin c.cfg.bound A ops) (hr : HRoots c A.length)
    (hT : FullTypeL c A.length) {val : Nat} (hk : c.bottom.classical = true)
    (hv : ¬ Lands c (complement c.cfg.bound (after A ops)) val) :
    ∃ o, hrun c A ops = ok o ∧ o.compFind c val = ub .ctzZero := by
  obtain ⟨o, e, h⟩ := hrun_holds hl hi (fun _ => hb)
  have el := after_length ops A
  have hf := hl.fits
  unfold FullTypeL at hT
  rw [← el] at hf hT hr
  have hB := staysWithin_last ops hb
  have hcl := complement_length c.cfg.bound (after A ops)
  unfold Lands at hv
  rw [hcl] at hv
  refine ⟨o, e, hsearch_empty (A' := complement c.cfg.bound (after A ops)) h hcl
    (fun h0 => topCompFind hf h hB hr hT.1 h0) ?_ (fun i v h1 h0 => ?_)⟩
  · rcases Nat.eq_zero_or_pos c.cut with h0 | h0
    · exact Or.inl h0
    · right
      constructor
      · exact Classical.byContradiction fun hh => hv ⟨h0, Or.inl hh⟩
      · have : ¬ (val : Int) < pre (complement c.cfg.bound (after A ops)) (after A ops).length :=
          fun hh => hv ⟨h0, Or.inr hh⟩
        omega
  · have hbi := h.bot i h1
    rw [h0] at hbi
    rw [compFind_empty v hbi, hk]; rfl

/-- Complements to 7 of three elements are 6, 7, 4: unit 14 is in the third. -/
example : ∃ o, hrun (hy .byteF .bitF 1) [1, 0, 2] [(3, 1)] = ok o ∧
    o.compFind (hy .byteF .bitF 1) 14 = ok (2, 1) := by
  obtain ⟨o, r, d, e, e1, e2, e3⟩ := C56_partial (c := hy .byteF .bitF 1)
    (A := [1, 0, 2]) (ops := [(3, 1)]) (val := 14)
    (hy_limits (by decide) (by decide) (by unfold Limits; decide +kernel) (by unfold Limits; decide +kernel))
    (by unfold HIdx; decide)
    (by show StaysWithin 7 _ _; decide) (by unfold HRoots; decide +kernel)
    ⟨fun h => (by cases h), fun h => (by cases h)⟩
    (fun _ => ⟨by decide, Or.inl (by decide)⟩)
  have hr : r = 2 := isFind_unique e2 ⟨by decide, by decide, by decide⟩
  subst hr
  have hd : d = 1 := by
    have : pre (complement (hy .byteF .bitF 1).cfg.bound (after [1, 0, 2] [(3, 1)])) 2 = 13 := by decide
    omega
  subst hd
  exact ⟨o, e, e1⟩

example : ∃ o, hrun (hy .fixedF .byteF 1) [1, 0, 2, 7] [(3, 1)] = ok o ∧
    o.compFind (hy .fixedF .byteF 1) 17 = ub .ctzZero :=
  C56_wrong (hy_limits (by decide) (by decide) (by unfold Limits; decide +kernel) (by unfold Limits; decide +kernel))
    (by unfold HIdx; decide) (by show StaysWithin 7 _ _; decide) (by unfold HRoots; decide +kernel)
    ⟨fun h => (by cases h), fun h => (by cases h)⟩ rfl (by unfold Lands; decide)

/-! ## C57: add past the end -/

/-- **C57, negation.**  The eight classes ignore an `add` past the end; `Hybrid` reads past the end of
its vector of small trees when the index is in a later block and not a multiple of `2^CUT`. -/
theorem C57_wrong {c : HCfg} {A : List Int} {ops : List (Nat × Int)} (hl : HLimits c A.length)
    (hi : HIdx c A.length ops) (hb : HBounded c A ops) {idx : Nat} (inc : Nat)
    (h1 : A.length / 2 ^ c.cut < idx / 2 ^ c.cut) (h2 : idx % 2 ^ c.cut ≠ 0) :
    ∃ o, hrun c A ops = ok o ∧ o.add c idx inc = ub .oob := by
  obtain ⟨o, e, h⟩ := hrun_holds hl hi hb
  exact ⟨o, e, hadd_oob inc h2 (by rw [after_length]; exact h1) h⟩

example : ∃ o, hrun (hy .fixedF .fixedL 2) [1, 2, 3] [(3, 5)] = ok o ∧
    o.add (hy .fixedF .fixedL 2) 5 1 = ub .oob :=
  C57_wrong (c := hy .fixedF .fixedL 2) (A := [1, 2, 3])
    (hy_limits (by decide) (by decide) trivial trivial) (by unfold HIdx; decide)
    (fun h => by simp [hy, Kind.compressed] at h) 1 (by decide) (by decide)

/-- **C57, partial.**  An `add` past the end, in the last block or at a multiple of `2^CUT`, leaves
every prefix sum.  Missing: the other indices past the end (`C57_wrong`). -/
theorem C57_partial {c : HCfg} {A : List Int} {ops : List (Nat × Int)} (hl : HLimits c A.length)
    (hi : HIdx c A.length ops) (hb : HBounded c A ops) {idx : Nat} (inc : Int) (h0 : A.length < idx)
    (h1 : idx % 2 ^ c.cut = 0 ∨ idx / 2 ^ c.cut = A.length / 2 ^ c.cut) :
    ∃ o o', hrun c A ops = ok o ∧ o.add c idx (u64 inc) = ok o' ∧ o'.size = A.length ∧
      ∀ i, i ≤ A.length → o'.prefix c i = ok (((pre (after A ops) i) % 2 ^ 64).toNat) := by
  obtain ⟨o, e, h⟩ := hrun_holds hl hi hb
  have el := after_length ops A
  have hf := hl.fits
  rw [← el] at hf
  have hout := addAt_out (after A ops) idx inc (by omega)
  obtain ⟨o', e', h'⟩ := hadd_ok (d := inc) hf (Nat.lt_of_le_of_lt (Nat.zero_le _) h0) (by rw [el]; exact h1.imp id Nat.le_of_eq)
    (by rw [hout]; exact fun hk => staysWithin_last ops (hb hk)) h
  rw [hout] at h'
  exact ⟨o, o', e, e', by rw [h'.size, el], fun i hi' => hprefix_ok hf h' (by rw [el]; exact hi')⟩

example : ∃ o o', hrun (hy .fixedF .byteF 2) [1, 2, 3] [(3, 4)] = ok o ∧
    o.add (hy .fixedF .byteF 2) 4 (u64 6) = ok o' ∧ o'.prefix (hy .fixedF .byteF 2) 3 = ok 10 := by
  obtain ⟨o, o', e, e', _, h⟩ := C57_partial (c := hy .fixedF .byteF 2) (A := [1, 2, 3]) (ops := [(3, 4)])
    (idx := 4)
    (hy_limits (by decide) (by decide) trivial (by unfold Limits; decide +kernel)) (by unfold HIdx; decide)
    (fun _ => by show StaysWithin 7 _ _; decide) 6 (by decide) (Or.inl (by decide))
  exact ⟨o, o', e, e', (h 3 (by decide)).trans (by decide)⟩

end MRS.Props
