import Verif.Proofs.Hft.ClassTypeL
import Verif.SpecTree

/-! # All classes at once: objects and arrays -/

set_option autoImplicit false

namespace MRS.Hft
open Outcome Spec.Tree

/-! ## Arrays and prefix sums -/

theorem pre_zero (A : List Int) : pre A 0 = 0 := by simp [pre]

theorem pre_succ (A : List Int) (i : Nat) : pre A (i + 1) = pre A i + A.getD i 0 := by
  unfold pre
  induction A generalizing i with
  | nil => simp
  | cons a A ih =>
    cases i with
    | zero => simp
    | succ i => simp [ih]; omega

theorem addAt_length (A : List Int) (i : Nat) (d : Int) : (addAt A i d).length = A.length := by
  unfold addAt; split <;> simp

theorem after_length (ops : List (Nat × Int)) : ∀ A : List Int, (after A ops).length = A.length := by
  unfold after
  induction ops with
  | nil => intro A; rfl
  | cons op ops ih => intro A; rw [List.foldl_cons, ih, addAt_length]

theorem addAt_getD (A : List Int) (i j : Nat) (d : Int) (hi : 0 < i) (hj : i ≤ A.length) :
    (addAt A i d).getD j 0 = A.getD j 0 + if j = i - 1 then d else 0 := by
  unfold addAt
  rw [if_neg (by omega)]
  simp only [List.getD_eq_getElem?_getD, List.getElem?_modify]
  by_cases h : j = i - 1
  · subst h
    have : i - 1 < A.length := by omega
    simp [this]
  · have h' : ¬ i - 1 = j := fun e => h e.symm
    simp [h, h']

theorem pre_addAt (A : List Int) (i : Nat) (d : Int) (hi : 0 < i) (hj : i ≤ A.length) (m : Nat) :
    pre (addAt A i d) m = pre A m + if i ≤ m then d else 0 := by
  induction m with
  | zero => rw [pre_zero, pre_zero, if_neg (by omega)]; rfl
  | succ m ih =>
    rw [pre_succ, pre_succ, ih, addAt_getD A i m d hi hj]
    by_cases h1 : i ≤ m
    · rw [if_pos h1, if_pos (show i ≤ m + 1 by omega), if_neg (show ¬ m = i - 1 by omega)]; omega
    · by_cases h2 : i = m + 1
      · rw [if_neg h1, if_pos (show i ≤ m + 1 by omega), if_pos (show m = i - 1 by omega)]; omega
      · rw [if_neg h1, if_neg (show ¬ i ≤ m + 1 by omega), if_neg (show ¬ m = i - 1 by omega)]; omega

theorem addAt_out (A : List Int) (i : Nat) (d : Int) (h : A.length < i) : addAt A i d = A := by
  unfold addAt
  rw [if_neg (by omega)]
  apply List.ext_getElem?
  intro j
  rw [List.getElem?_modify]
  by_cases hj : i - 1 = j
  · rw [List.getElem?_eq_none (by omega)]; rfl
  · simp [hj]

theorem within_getD {B : Nat} {A : List Int} (h : Within B A) (i : Nat) :
    0 ≤ A.getD i 0 ∧ A.getD i 0 ≤ B := by
  rw [List.getD_eq_getElem?_getD]
  cases e : A[i]? with
  | none => simp
  | some a => exact h a (List.mem_of_getElem? e)

/-- Range sums of a bounded array. -/
theorem within_range {B : Nat} {A : List Int} (h : Within B A) (a : Nat) : ∀ d,
    0 ≤ pre A (a + d) - pre A a ∧ pre A (a + d) - pre A a ≤ (B * d : Nat)
  | 0 => by simp
  | d + 1 => by
    have ih := within_range h a d
    have hg := within_getD h (a + d)
    have e : pre A (a + (d + 1)) = pre A (a + d) + A.getD (a + d) 0 := pre_succ A (a + d)
    rw [e, Nat.mul_add, Nat.mul_one]
    omega

theorem lt_ceilLog2Plus1 (n : Nat) : n < 2 ^ ceilLog2Plus1 n := by
  induction n using Nat.strongRecOn with
  | ind n ih =>
    rw [ceilLog2Plus1]
    split
    · omega
    · have := ih (n / 2) (by omega)
      rw [Nat.pow_add]; omega

/-- Partial node sums of a bounded array fit in `BOUNDSIZE + height` bits. -/
theorem within_stage {c : Cfg} {A : List Int} (h : Within c.bound A) {i : Nat} (κ : Nat) (h0 : 0 < i)
    (hW : i < W64) : ∃ y : Nat, stage (pre A) κ i = y ∧ y < 2 ^ (c.bs + tz i) := by
  obtain ⟨ht, k, hk⟩ := tz_spec h0 hW
  have hle : 2 ^ min (tz i) κ ≤ 2 ^ tz i := Nat.pow_le_pow_right (by decide) (Nat.min_le_left _ _)
  have hi : 2 ^ tz i ≤ i := by
    have := pow_le_node (tz i) k
    rw [← hk] at this; exact this
  have hr := within_range h (i - 2 ^ min (tz i) κ) (2 ^ min (tz i) κ)
  rw [Nat.sub_add_cancel (by omega)] at hr
  have hb : c.bound < 2 ^ c.bs := lt_ceilLog2Plus1 c.bound
  have hp := Nat.two_pow_pos (tz i)
  have h1 : c.bound * 2 ^ min (tz i) κ ≤ c.bound * 2 ^ tz i := Nat.mul_le_mul_left _ hle
  have h2 : (c.bound + 1) * 2 ^ tz i ≤ 2 ^ c.bs * 2 ^ tz i := Nat.mul_le_mul_right _ hb
  rw [← Nat.pow_add, Nat.add_mul, Nat.one_mul] at h2
  unfold Hft.stage
  exact ⟨(pre A i - pre A (i - 2 ^ min (tz i) κ)).toNat, by omega, by omega⟩

theorem within_fits {c : Cfg} {A : List Int} (h : Within c.bound A) {i : Nat} (κ : Nat) (h0 : 0 < i)
    (hW : i < W64) (h64 : c.bs + tz i ≤ 64) {w : Nat} (hw : c.bs + tz i ≤ w) :
    u64 (Hft.stage (pre A) κ i) < 2 ^ w := by
  obtain ⟨y, e, hy⟩ := within_stage h κ h0 hW
  have h1 : 2 ^ (c.bs + tz i) ≤ 2 ^ 64 := Nat.pow_le_pow_right (by decide) h64
  have h2 : 2 ^ (c.bs + tz i) ≤ 2 ^ w := Nat.pow_le_pow_right (by decide) hw
  rw [e, u64_nat (by simp only [W64]; omega)]
  omega

theorem within_fits' {c : Cfg} {A : List Int} (h : Within c.bound A) {i : Nat} (h0 : 0 < i)
    (hW : i < W64) (h64 : c.bs + tz i ≤ 64) {w : Nat} (hw : c.bs + tz i ≤ w) :
    u64 (nodeInt (pre A) i) < 2 ^ w := by
  have := within_fits h (tz i) h0 hW h64 hw
  rwa [stage_top (pre A) (Nat.le_refl _)] at this

/-! ## Objects -/

/-- The argument `sequence`: the elements as `uint64_t`. -/
def array (A : List Int) : Vec Nat := ⟨A.length, fun i => u64 (A.getD i 0)⟩

/-- The class stores only what a bounded array needs. -/
def Kind.compressed : Kind → Bool
  | .fixedF | .fixedL => false
  | _ => true

/-- What each class needs of its parameters and size. -/
def Fits (c : Cfg) (n : Nat) : Kind → Prop
  | .fixedF | .fixedL => n < 2 ^ 48
  | .byteF | .byteL => FitF c n 64
  | .bitF => FitBitF c n
  | .typeF => FitF c n 64 ∧ TypeAlign c n
  | .bitL => FitF c n 57 ∧ c.strictShift = false
  | .typeL => FitTL c n

/-- The object is of class `k`, has `n` elements, and holds the array with prefix sums `P`. -/
def ObjHolds (c : Cfg) (n : Nat) (P : Nat → Int) : Kind → Obj → Prop
  | .fixedF, .fixedF t => t.size = n ∧ Holds n (VRep n (fixedFPos n + 1) fixedFPos) t.tree P
  | .byteF, .byteF t => t.size = n ∧ Holds n (byteFRep c n) t.tree P
  | .bitF, .bitF t => t.size = n ∧ Holds n (bitFRep c n) t.tree P
  | .typeF, .typeF t => t.size = n ∧ Holds n (typeFRep c n) t.tree P
  | .fixedL, .fixedL t => t.size = n ∧ t.levels = levelsN n ∧
      LevOk (fun _ => 1) n (levelsN n) t.level ∧ Holds n (fixedLRep n) t.tree P
  | .byteL, .byteL t => t.size = n ∧ t.levels = levelsN n ∧
      LevOk (byteLSize c) n (levelsN n) t.level ∧ Holds n (byteLRep c n) t.tree P
  | .bitL, .bitL t => t.size = n ∧ t.levels = levelsN n ∧
      LevOk (bitLSize c) n (levelsN n) t.level ∧ Holds n (bitLRep c n) t.tree P
  | .typeL, .typeL t => t.size = n ∧ t.levels = levelsN n ∧
      (∃ ends, TLevOk c n t.level ends) ∧ Holds n (typeLRep c n) t.tree P
  | _, _ => False

theorem Fits.size {c : Cfg} {n : Nat} {k : Kind} (h : Fits c n k) : n < 2 ^ 48 := by
  cases k
  · exact h
  · exact FitF.size h
  · exact FitBitF.size h
  · exact h.1.size
  · exact h
  · exact FitF.size h
  · exact h.1.size
  · exact FitF.size h

theorem Fits.lt {c : Cfg} {n : Nat} {k : Kind} (h : Fits c n k) : n < W64 := by
  have := h.size; simp only [W64]; omega

theorem Fits.fit {c : Cfg} {n : Nat} {k : Kind} (h : Fits c n k) (hk : k.compressed = true)
    (h0 : 0 < n) : c.bs + Nat.log2 n ≤ 64 := by
  cases k
  · simp [Kind.compressed] at hk
  · exact FitF.fit h h0
  · have := FitBitF.fit h h0; omega
  · exact h.1.fit h0
  · simp [Kind.compressed] at hk
  · exact FitF.fit h h0
  · have := h.1.fit h0; omega
  · have := FitF.fit h h0; omega

/-- Widths of the nodes, per class. -/
def width (c : Cfg) : Kind → Nat → Nat
  | .fixedF, _ | .fixedL, _ => 64
  | .byteF, i => 8 * bsz c i
  | .bitF, i => bwd c i
  | .typeF, i | .typeL, i => 8 * tsz c i
  | .byteL, i => 8 * byteLSize c (tz i)
  | .bitL, i => bitLSize c (tz i)

theorem width_ge {c : Cfg} {n : Nat} {k : Kind} (h : Fits c n k) (hk : k.compressed = true) {i : Nat}
    (h0 : 0 < i) (h1 : i ≤ n) : c.bs + tz i ≤ width c k i := by
  have ht := tz_le_log2 h0 h1 h.lt
  have hf := h.fit hk (by omega)
  have hb := c.one_le_bs
  cases k
  · simp [Kind.compressed] at hk
  · simp only [width, bsz]; omega
  · simp only [width, bwd]; omega
  · simp only [width, tsz, typeBytes]; repeat' split
    all_goals omega
  · simp [Kind.compressed] at hk
  · simp only [width, byteLSize_eq]; omega
  · simp only [width, bitLSize]; omega
  · simp only [width, tsz, typeBytes]; repeat' split
    all_goals omega

theorem width_ok {c : Cfg} {n : Nat} {k : Kind} {A : List Int} (h : Fits c n k)
    (hb : k.compressed = true → Within c.bound A) (i κ : Nat) (h0 : 0 < i) (h1 : i ≤ n) :
    u64 (Hft.stage (pre A) κ i) < 2 ^ width c k i := by
  by_cases hk : k.compressed = true
  · have ht := tz_le_log2 h0 h1 h.lt
    have hf := h.fit hk (by omega)
    exact within_fits (hb hk) κ h0 (by have := h.lt; omega) (by omega) (width_ge h hk h0 h1)
  · cases k <;> simp [Kind.compressed] at hk <;> exact u64_lt _

theorem width_ok' {c : Cfg} {n : Nat} {k : Kind} {A : List Int} (h : Fits c n k)
    (hb : k.compressed = true → Within c.bound A) (i : Nat) (h0 : 0 < i) (h1 : i ≤ n) :
    u64 (nodeInt (pre A) i) < 2 ^ width c k i := by
  have := width_ok h hb i (tz i) h0 h1
  rwa [stage_top (pre A) (Nat.le_refl _)] at this

theorem array_pre (A : List Int) (i : Nat) : u64 (pre A (i + 1) - pre A i) = (array A).f i := by
  rw [pre_succ]; unfold array; congr 1; omega

/-- Construction over the first elements of `seq`. -/
theorem build_seq {c : Cfg} {k : Kind} {A : List Int} {seq : Vec Nat} (h : Fits c A.length k)
    (hb : k.compressed = true → Within c.bound A) (hl : A.length ≤ seq.len)
    (hs : ∀ i, i < A.length → seq.f i = u64 (A.getD i 0)) :
    ∃ o, build c seq A.length k = ok o ∧ ObjHolds c A.length (pre A) k o := by
  have hP : ∀ i, i < A.length → u64 (pre A (i + 1) - pre A i) = seq.f i :=
    fun i hi => by rw [hs i hi]; exact array_pre A i
  have hw := width_ok h hb
  have hw' := width_ok' h hb
  have h62 : A.length < 2 ^ 62 := by have := h.size; omega
  cases k
  · obtain ⟨t, e, hh⟩ := fixedF_build (seq := seq) h62 hl hP
    exact ⟨.fixedF ⟨_, t⟩, by simp only [build, e, ok_bind], rfl, hh⟩
  · obtain ⟨t, e, hh⟩ := byteF_build (seq := seq) h hl hP hw
    exact ⟨.byteF ⟨_, t⟩, by simp only [build, e, ok_bind], rfl, hh⟩
  · obtain ⟨t, e, hh⟩ := bitF_build (seq := seq) h hl hP hw
    exact ⟨.bitF ⟨_, t⟩, by simp only [build, e, ok_bind], rfl, hh⟩
  · obtain ⟨t, e, hh⟩ := typeF_build (seq := seq) h.1 h.2 hl hP hw
    exact ⟨.typeF ⟨_, t⟩, by simp only [build, e, ok_bind], rfl, hh⟩
  · obtain ⟨l, t, e, h1, hh⟩ := fixedL_build (seq := seq) h62 hl hP
    exact ⟨.fixedL ⟨_, levelsN A.length, l, t⟩, by simp only [build, e, ok_bind], rfl, rfl, h1, hh⟩
  · obtain ⟨l, t, e, h1, hh⟩ := byteL_build (seq := seq) h hl hP hw'
    exact ⟨.byteL ⟨_, levelsN A.length, l, t⟩, by simp only [build, e, ok_bind], rfl, rfl, h1, hh⟩
  · obtain ⟨l, t, e, h1, hh⟩ := bitL_build (seq := seq) h.1 h.2 hl hP hw'
    exact ⟨.bitL ⟨_, levelsN A.length, l, t⟩, by simp only [build, e, ok_bind], rfl, rfl, h1, hh⟩
  · obtain ⟨l, t, e, h1, hh⟩ := typeL_build (seq := seq) h hl hP hw'
    exact ⟨.typeL ⟨_, levelsN A.length, l, t⟩, by simp only [build, e, ok_bind], rfl, rfl, h1, hh⟩

theorem build_ok {c : Cfg} {k : Kind} {A : List Int} (h : Fits c A.length k)
    (hb : k.compressed = true → Within c.bound A) :
    ∃ o, build c (array A) A.length k = ok o ∧ ObjHolds c A.length (pre A) k o :=
  build_seq h hb (Nat.le_refl _) (fun _ _ => rfl)

theorem size_eq {c : Cfg} {n : Nat} {P : Nat → Int} {k : Kind} {o : Obj} (h : ObjHolds c n P k o) :
    o.size = n := by
  cases k <;> cases o <;> first | exact h.1 | exact h.elim

theorem Holds.node {T : Type} {n : Nat} {w : Nat → Nat} {R : T → (Nat → Nat) → Prop}
    {get : T → Nat → Outcome Nat} {inc : T → Nat → Nat → Outcome T} (S : Sound n w R get inc)
    {t : T} {P : Nat → Int} (h : Holds n R t P) {i : Nat} (h0 : 0 < i) (h1 : i ≤ n) :
    get t i = ok (u64 (nodeInt P i)) := by
  obtain ⟨v, hr, hv⟩ := h
  rw [S.get_ok hr h0 h1, hv i h0 h1]

/-- Reading a node. -/
theorem node_ok {c : Cfg} {n : Nat} {P : Nat → Int} {k : Kind} {o : Obj} (hf : Fits c n k)
    (h : ObjHolds c n P k o) {i : Nat} (h0 : 0 < i) (h1 : i ≤ n) :
    o.node c i = ok (u64 (nodeInt P i)) := by
  have hn := hf.lt
  cases k <;> cases o <;> first | exact h.elim | skip
  · exact h.2.node (fixedF_sound n (fun _ => 64)) h0 h1
  · exact h.2.node (byteF_sound hf) h0 h1
  · exact h.2.node (bitF_sound hf) h0 h1
  · exact h.2.node (typeF_sound hf.1 hf.2) h0 h1
  · exact h.2.2.2.node (fixedL_sound hn h.2.2.1 (fun _ => 64)) h0 h1
  · exact h.2.2.2.node (byteL_sound hf h.2.2.1) h0 h1
  · exact h.2.2.2.node (bitL_sound hf.1 hf.2 h.2.2.1) h0 h1
  · obtain ⟨ends, hl⟩ := h.2.2.1
    exact h.2.2.2.node (typeL_sound hf hl) h0 h1

/-- `prefix`. -/
theorem prefix_ok {c : Cfg} {n : Nat} {P : Nat → Int} {k : Kind} {o : Obj} (hf : Fits c n k)
    (h : ObjHolds c n P k o) (hP : P 0 = 0) {i : Nat} (h1 : i ≤ n) :
    o.prefix c i = ok (u64 (P i)) := by
  unfold Obj.prefix
  have := prefixLoop_ok (get := o.node c) (P := P) hf.lt (fun i h0 h1 => node_ok hf h h0 h1) hP
    65 i 0 0 h1 (by simp) (by omega) (by omega)
  rw [Int.zero_add] at this
  exact this

/-- `add`. -/
theorem objAdd_ok {c : Cfg} {n : Nat} {P P' : Nat → Int} {k : Kind} {o : Obj} {idx : Nat} {d : Int}
    (hf : Fits c n k) (hi : 0 < idx) (hP : ∀ m, P' m = P m + if idx ≤ m then d else 0)
    (hw : ∀ i, 0 < i → i ≤ n → u64 (nodeInt P' i) < 2 ^ width c k i) (h : ObjHolds c n P k o) :
    ∃ o', o.add c idx (u64 d) = ok o' ∧ ObjHolds c n P' k o' := by
  have hn := hf.lt
  have h63 : n < 2 ^ 63 := by have := hf.size; omega
  cases k <;> cases o <;> first | exact h.elim | skip
  · obtain ⟨t', e, hh⟩ := add_ok (fixedF_sound n (fun _ => 64)) h63 hi hP hw h.2
    exact ⟨.fixedF ⟨n, t'⟩, by simp only [Obj.add, h.1, e, ok_bind], rfl, hh⟩
  · obtain ⟨t', e, hh⟩ := add_ok (byteF_sound hf) h63 hi hP hw h.2
    exact ⟨.byteF ⟨n, t'⟩, by simp only [Obj.add, h.1, e, ok_bind], rfl, hh⟩
  · obtain ⟨t', e, hh⟩ := add_ok (bitF_sound hf) h63 hi hP hw h.2
    exact ⟨.bitF ⟨n, t'⟩, by simp only [Obj.add, h.1, e, ok_bind], rfl, hh⟩
  · obtain ⟨t', e, hh⟩ := add_ok (typeF_sound hf.1 hf.2) h63 hi hP hw h.2
    exact ⟨.typeF ⟨n, t'⟩, by simp only [Obj.add, h.1, e, ok_bind], rfl, hh⟩
  · obtain ⟨t', e, hh⟩ := add_ok (fixedL_sound hn h.2.2.1 (fun _ => 64)) h63 hi hP hw h.2.2.2
    exact ⟨.fixedL ⟨n, _, _, t'⟩, by simp only [Obj.add, h.1, e, ok_bind], rfl, h.2.1, h.2.2.1, hh⟩
  · obtain ⟨t', e, hh⟩ := add_ok (byteL_sound hf h.2.2.1) h63 hi hP hw h.2.2.2
    exact ⟨.byteL ⟨n, _, _, t'⟩, by simp only [Obj.add, h.1, e, ok_bind], rfl, h.2.1, h.2.2.1, hh⟩
  · obtain ⟨t', e, hh⟩ := add_ok (bitL_sound hf.1 hf.2 h.2.2.1) h63 hi hP hw h.2.2.2
    exact ⟨.bitL ⟨n, _, _, t'⟩, by simp only [Obj.add, h.1, e, ok_bind], rfl, h.2.1, h.2.2.1, hh⟩
  · obtain ⟨ends, hl⟩ := h.2.2.1
    obtain ⟨t', e, hh⟩ := add_ok (typeL_sound hf hl) h63 hi hP hw h.2.2.2
    exact ⟨.typeL ⟨n, _, _, t'⟩, by simp only [Obj.add, h.1, e, ok_bind], rfl, h.2.1, h.2.2.1, hh⟩

/-- `add` beyond the end changes nothing. -/
theorem objAdd_out {c : Cfg} {n : Nat} {P : Nat → Int} {k : Kind} {o : Obj} {idx : Nat} (d : Nat)
    (h : ObjHolds c n P k o) (hi : n < idx) : o.add c idx d = ok o := by
  cases k <;> cases o <;> first | exact h.elim | skip
  all_goals
    simp only [Obj.add, h.1, addLoop, if_neg (Nat.not_le.2 hi), ok_bind]
    rw [← h.1]

/-- One update, at the level of arrays. -/
theorem addAt_ok {c : Cfg} {k : Kind} {A : List Int} {o : Obj} {idx : Nat} {d : Int}
    (hf : Fits c A.length k) (hi : 0 < idx)
    (hb : k.compressed = true → Within c.bound (addAt A idx d))
    (h : ObjHolds c A.length (pre A) k o) :
    ∃ o', o.add c idx (u64 d) = ok o' ∧ ObjHolds c A.length (pre (addAt A idx d)) k o' := by
  by_cases hout : A.length < idx
  · rw [addAt_out A idx d hout]
    exact ⟨o, objAdd_out _ h hout, h⟩
  · exact objAdd_ok hf hi (pre_addAt A idx d hi (by omega)) (width_ok' hf hb) h

/-! ## find and compFind -/

theorem isFind_iff {A : List Int} {Q : Nat → Nat} {val r : Nat} (hQ : ∀ i, pre A i = Q i)
    (mono : ∀ a b, a ≤ b → b ≤ A.length → Q a ≤ Q b) (h : Hft.IsFind A.length Q val r) :
    Spec.Tree.IsFind A val r := by
  refine ⟨h.1, by rw [hQ]; exact_mod_cast h.2.1, fun j hj hp => ?_⟩
  rw [hQ] at hp
  have hp' : Q j ≤ val := by exact_mod_cast hp
  apply Classical.byContradiction
  intro hlt
  have := h.2.2 (by omega)
  have := mono (r + 1) j (by omega) hj
  omega

/-- The search, given what each node reads as. -/
theorem find_core {c : Cfg} {n : Nat} {P : Nat → Int} {k : Kind} {o : Obj} {Q : Nat → Nat} {val : Nat}
    (hf : Fits c n k) (h : ObjHolds c n P k o) (h0 : 0 < n)
    (hT : k = .typeL → Reach c n Q val) (hQ0 : Q 0 = 0)
    (mono : ∀ a b, a ≤ b → b ≤ n → Q a ≤ Q b)
    (hv : ∀ i, 0 < i → i ≤ n → u64 (nodeInt P i) = Q i - Q (i - 2 ^ tz i)) :
    ∃ r, o.find c val = ok (r, val - Q r) ∧ Hft.IsFind n Q val r := by
  have hn := hf.lt
  have hnode : ∀ i, 0 < i → i ≤ n → o.node c i = ok (Q i - Q (i - 2 ^ tz i)) := fun i h1 h2 => by
    rw [node_ok hf h h1 h2, hv i h1 h2]
  have hF : ∃ r, findF n (o.node c) val = ok (r, val - Q r) ∧ Hft.IsFind n Q val r := by
    obtain ⟨m, e, r, e', hr⟩ := findF_ok (val := val) h0 hn hQ0 hnode mono
    exact ⟨r, by unfold findF; rw [e, ok_bind, e'], hr⟩
  have hL : ∀ {read : Nat → Nat → Outcome Nat}, o.node c = byHeight read →
      ∀ h k, 2 ^ h * (2 * k + 1) ≤ n → read h k = ok (Q (2 ^ h * (2 * k + 1)) - Q (2 ^ (h + 1) * k)) := by
    intro read e h k hle
    have e1 := hnode _ (node_pos h k) hle
    rw [e, byHeight_ok (by omega), sub_low (node_lt (k := k) (by omega))] at e1
    exact e1
  cases k <;> cases o <;> first | exact h.elim | skip
  · simp only [Obj.find, h.1]; exact hF
  · simp only [Obj.find, h.1]; exact hF
  · simp only [Obj.find, h.1]; exact hF
  · simp only [Obj.find, h.1]; exact hF
  · simp only [Obj.find, h.1, h.2.1]
    exact findL_ok (fun _ => by decide) h.2.2.1 (hL rfl) hQ0 mono
  · simp only [Obj.find, h.1, h.2.1]
    exact findL_ok (fun _ => by unfold byteLSize; omega) h.2.2.1 (hL rfl) hQ0 mono
  · simp only [Obj.find, h.1, h.2.1]
    exact findL_ok (fun _ => by unfold bitLSize; have := c.one_le_bs; omega) h.2.2.1 (hL rfl) hQ0 mono
  · simp only [Obj.find, h.1, h.2.1]
    obtain ⟨ends, hl⟩ := h.2.2.1
    obtain ⟨v, hr, -⟩ := h.2.2.2
    exact findT_ok hl hr (hT rfl) (hL rfl) hQ0 mono

/-- The complement search, given what each complemented node reads as. -/
theorem compFind_core {c : Cfg} {n : Nat} {P : Nat → Int} {k : Kind} {o : Obj} {Q : Nat → Nat}
    {val : Nat} (hf : Fits c n k) (h : ObjHolds c n P k o) (h0 : 0 < n)
    (hT : k = .typeL → Reach c n Q val) (hQ0 : Q 0 = 0)
    (mono : ∀ a b, a ≤ b → b ≤ n → Q a ≤ Q b)
    (hv : ∀ i, 0 < i → i ≤ n → comp c (tz i) (u64 (nodeInt P i)) = Q i - Q (i - 2 ^ tz i)) :
    ∃ r, o.compFind c val = ok (r, val - Q r) ∧ Hft.IsFind n Q val r := by
  have hn := hf.lt
  have hnode : ∀ i, 0 < i → i ≤ n → compNode c (o.node c) i = ok (Q i - Q (i - 2 ^ tz i)) :=
    fun i h1 h2 => by
      unfold compNode
      rw [rho_ok h1, ok_bind, node_ok hf h h1 h2, ok_bind, hv i h1 h2]
  have hF : ∃ r, findF n (compNode c (o.node c)) val = ok (r, val - Q r) ∧ Hft.IsFind n Q val r := by
    obtain ⟨m, e, r, e', hr⟩ := findF_ok (val := val) h0 hn hQ0 hnode mono
    exact ⟨r, by unfold findF; rw [e, ok_bind, e'], hr⟩
  have hL : ∀ {read : Nat → Nat → Outcome Nat}, o.node c = byHeight read →
      ∀ h k, 2 ^ h * (2 * k + 1) ≤ n →
        compLevel c read h k = ok (Q (2 ^ h * (2 * k + 1)) - Q (2 ^ (h + 1) * k)) := by
    intro read e h' k' hle
    have hlt : h' < 64 := node_lt (k := k') (by omega)
    have e1 := node_ok hf h (node_pos h' k') hle
    have e2 := hv _ (node_pos h' k') hle
    rw [e, byHeight_ok (by omega)] at e1
    rw [sub_low hlt, tz_eq hlt] at e2
    unfold compLevel
    rw [e1, ok_bind, e2]
  cases k <;> cases o <;> first | exact h.elim | skip
  · simp only [Obj.compFind, h.1]; exact hF
  · simp only [Obj.compFind, h.1]; exact hF
  · simp only [Obj.compFind, h.1]; exact hF
  · simp only [Obj.compFind, h.1]; exact hF
  · simp only [Obj.compFind, h.1, h.2.1]
    exact findL_ok (fun _ => by decide) h.2.2.1 (hL rfl) hQ0 mono
  · simp only [Obj.compFind, h.1, h.2.1]
    exact findL_ok (fun _ => by unfold byteLSize; omega) h.2.2.1 (hL rfl) hQ0 mono
  · simp only [Obj.compFind, h.1, h.2.1]
    exact findL_ok (fun _ => by unfold bitLSize; have := c.one_le_bs; omega) h.2.2.1 (hL rfl) hQ0 mono
  · simp only [Obj.compFind, h.1, h.2.1]
    obtain ⟨ends, hl⟩ := h.2.2.1
    obtain ⟨v, hr, -⟩ := h.2.2.2
    exact findT_ok hl hr (hT rfl) (hL rfl) hQ0 mono

end MRS.Hft
