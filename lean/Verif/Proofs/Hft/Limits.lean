import Verif.Proofs.Hft.Objects

/-! # Where the classes stop working: alignment, shifts, empty trees, index 0 -/

set_option autoImplicit false

namespace MRS.Hft
open Outcome Spec.Tree

theorem ceilLog2Plus1_eq (n : Nat) : ceilLog2Plus1 n = bits n := by
  induction n using Nat.strongRecOn with
  | ind n ih =>
    rw [ceilLog2Plus1]
    unfold bits at *
    by_cases h : n < 2
    · rw [if_pos h]
      have : n = 0 ∨ n = 1 := by omega
      rcases this with rfl | rfl <;> rfl
    · rw [if_neg h, ih (n / 2) (by omega)]
      rw [Nat.log2_def n, if_pos (by omega)]
      omega

theorem Cfg.bs_eq (c : Cfg) : c.bs = bits c.bound := ceilLog2Plus1_eq _

/-! ## Histories -/

theorem adds_ok {c : Cfg} {k : Kind} : ∀ (ops : List (Nat × Int)) {A : List Int} {o : Obj},
    Fits c A.length k → (∀ op ∈ ops, 0 < op.1) →
    (k.compressed = true → StaysWithin c.bound A ops) → ObjHolds c A.length (pre A) k o →
    ∃ o', o.adds c ops = ok o' ∧ ObjHolds c A.length (pre (after A ops)) k o'
  | [], A, o, _, _, _, h => ⟨o, rfl, h⟩
  | op :: ops, A, o, hf, hi, hb, h => by
    obtain ⟨o1, e1, h1⟩ := addAt_ok (d := op.2) hf (hi op (List.mem_cons_self ..))
      (fun hk => by
        have := (hb hk).2
        cases ops with
        | nil => exact this
        | cons => exact this.1) h
    have hl := addAt_length A op.1 op.2
    rw [← hl] at h1 hf
    obtain ⟨o2, e2, h2⟩ := adds_ok ops hf (fun op' hm => hi op' (List.mem_cons_of_mem _ hm))
      (fun hk => (hb hk).2) h1
    refine ⟨o2, by rw [Obj.adds, e1, ok_bind, e2], ?_⟩
    rw [hl] at h2
    exact h2

theorem staysWithin_last {B : Nat} : ∀ {A : List Int} (ops : List (Nat × Int)), StaysWithin B A ops →
    Within B (after A ops)
  | _, [], h => h
  | _, _ :: ops, h => staysWithin_last ops h.2

theorem staysWithin_first {B : Nat} {A : List Int} {ops : List (Nat × Int)}
    (h : StaysWithin B A ops) : Within B A := by
  cases ops with
  | nil => exact h
  | cons => exact h.1

/-! ## Non-negative arrays -/

theorem pre_mono {A : List Int} (h : ∀ a ∈ A, 0 ≤ a) (a : Nat) : ∀ d, pre A a ≤ pre A (a + d)
  | 0 => Int.le_refl _
  | d + 1 => by
    have ih := pre_mono h a d
    have e : pre A (a + (d + 1)) = pre A (a + d) + A.getD (a + d) 0 := pre_succ A (a + d)
    have hg : 0 ≤ A.getD (a + d) 0 := by
      rw [List.getD_eq_getElem?_getD]
      cases e : A[a + d]? with
      | none => simp
      | some x => exact h x (List.mem_of_getElem? e)
    omega

theorem pre_nonneg {A : List Int} (h : ∀ a ∈ A, 0 ≤ a) (i : Nat) : 0 ≤ pre A i := by
  have := pre_mono h 0 i
  rwa [pre_zero, Nat.zero_add] at this

theorem pre_le {A : List Int} (h : ∀ a ∈ A, 0 ≤ a) {i j : Nat} (hij : i ≤ j) : pre A i ≤ pre A j := by
  have := pre_mono h i (j - i)
  rwa [show i + (j - i) = j by omega] at this

/-- The search of an object holding a non-negative array whose nodes are below `2^64`. -/
theorem find_reach {c : Cfg} {k : Kind} {A : List Int} {o : Obj} {val : Nat}
    (hf : Fits c A.length k) (h : ObjHolds c A.length (pre A) k o) (h0 : 0 < A.length)
    (hT : k = .typeL → Reach c A.length (fun i => (pre A i).toNat) val) (hA : ∀ a ∈ A, 0 ≤ a)
    (hv : ∀ i, 0 < i → i ≤ A.length → nodeInt (pre A) i < (W64 : Int)) :
    ∃ r d, o.find c val = ok (r, d) ∧ Spec.Tree.IsFind A val r ∧ (d : Int) = val - pre A r := by
  have hQ : ∀ i, pre A i = ((pre A i).toNat : Nat) := fun i => by
    have := pre_nonneg hA i; omega
  have mono : ∀ a b, a ≤ b → b ≤ A.length → (pre A a).toNat ≤ (pre A b).toNat := fun a b h _ => by
    have := pre_le hA h; omega
  obtain ⟨r, e, hr⟩ := find_core (Q := fun i => (pre A i).toNat) (val := val) hf h h0 hT
    (by simp [pre_zero]) mono (fun i h1 h2 => by
      have hlt := hv i h1 h2
      have hle := pre_le hA (Nat.sub_le i (2 ^ tz i))
      have hnn := pre_nonneg hA (i - 2 ^ tz i)
      unfold nodeInt at hlt ⊢
      obtain ⟨y, hy⟩ : ∃ y : Nat, pre A i - pre A (i - 2 ^ tz i) = y :=
        ⟨(pre A i - pre A (i - 2 ^ tz i)).toNat, by omega⟩
      rw [hy, u64_nat (by omega)]
      omega)
  refine ⟨r, _, e, isFind_iff hQ mono hr, ?_⟩
  have h1 : (pre A r).toNat ≤ val := hr.2.1
  have := hQ r
  show ((val - (pre A r).toNat : Nat) : Int) = _
  omega

/-- All zeros of the size in binary, below the leading one, are where the element type of the nodes of
`TypeL` changes.  Sizes one less than a power of two have no zeros. -/
def ZerosOk (B n : Nat) : Prop :=
  ∀ h, h < Nat.log2 n → n / 2 ^ h % 2 = 0 → bits B + h = 8 ∨ bits B + h = 16

theorem zerosOk_full {n p : Nat} (hp : n + 1 = 2 ^ p) (B : Nat) : ZerosOk B n := by
  intro h hlt h0
  have hn0 : n ≠ 0 := by
    intro e; rw [e] at hlt; exact absurd hlt (Nat.not_lt_zero _)
  have hle : 2 ^ (h + 1) ≤ n := (Nat.le_log2 hn0).1 hlt
  have hhp : h + 1 < p + 1 := by
    have := (Nat.pow_lt_pow_iff_right (a := 2) (n := h + 1) (m := p) (by decide)).1 (by omega)
    omega
  obtain ⟨d, rfl⟩ : ∃ d, p = h + 1 + d := ⟨p - (h + 1), by omega⟩
  have hpos := Nat.two_pow_pos h
  have hd := Nat.two_pow_pos d
  have e : n = 2 ^ h * (2 * 2 ^ d - 1) + (2 ^ h - 1) := by
    rw [Nat.pow_add, Nat.pow_succ, Nat.mul_assoc] at hp
    rw [Nat.mul_sub, Nat.mul_one]
    have : 2 ^ h ≤ 2 ^ h * (2 * 2 ^ d) := Nat.le_mul_of_pos_right _ (by omega)
    omega
  have e2 : n / 2 ^ h = 2 * 2 ^ d - 1 := by
    rw [e, Nat.mul_add_div hpos, Nat.div_eq_of_lt (show 2 ^ h - 1 < 2 ^ h by omega), Nat.add_zero]
  omega

theorem reach_zeros {c : Cfg} {n : Nat} (hz : ZerosOk c.bound n) (Q : Nat → Nat) (val : Nat) :
    Reach c n Q val := by
  intro g k h2 hk _
  by_cases hm : 2 ^ g * (2 * k + 1) ≤ n
  · exact Or.inl hm
  · refine Or.inr ?_
    obtain ⟨m1, -⟩ := missing hk hm
    have hn0 : n ≠ 0 := by have := Nat.two_pow_pos g; omega
    have hle : g ≤ Nat.log2 n := (Nat.le_log2 hn0).2 h2
    have hlt : g < Nat.log2 n := Nat.lt_of_le_of_ne hle fun hg => by
      have h4 : n < 2 ^ (g + 1) := (Nat.log2_lt hn0).1 (by omega)
      have h5 : n / 2 ^ g = 1 := by
        apply Nat.div_eq_of_lt_le
        · rw [Nat.one_mul]; exact h2
        · rw [Nat.pow_succ] at h4; omega
      omega
    rw [c.bs_eq]
    exact hz g hlt m1

/-- `find_reach` for sizes without a bad zero, if the class is `TypeL`. -/
theorem find_ok {c : Cfg} {k : Kind} {A : List Int} {o : Obj} {val : Nat}
    (hf : Fits c A.length k) (h : ObjHolds c A.length (pre A) k o) (h0 : 0 < A.length)
    (hT : k = .typeL → ZerosOk c.bound A.length) (hA : ∀ a ∈ A, 0 ≤ a)
    (hv : ∀ i, 0 < i → i ≤ A.length → nodeInt (pre A) i < (W64 : Int)) :
    ∃ r d, o.find c val = ok (r, d) ∧ Spec.Tree.IsFind A val r ∧ (d : Int) = val - pre A r :=
  find_reach hf h h0 (fun hk => reach_zeros (hT hk) _ _) hA hv

theorem complement_length (B : Nat) (A : List Int) : (complement B A).length = A.length := by
  simp [complement]

theorem pre_complement (B : Nat) (A : List Int) : ∀ i, i ≤ A.length →
    pre (complement B A) i = (B * i : Nat) - pre A i
  | 0, _ => by simp [pre_zero]
  | i + 1, h => by
    rw [pre_succ, pre_succ, pre_complement B A i (by omega)]
    have : (complement B A).getD i 0 = B - A.getD i 0 := by
      have hi : i < A.length := by omega
      simp [complement, List.getD_eq_getElem?_getD, hi]
    rw [this, Nat.mul_add, Nat.mul_one]
    omega

theorem within_complement {B : Nat} {A : List Int} (h : Within B A) : Within B (complement B A) := by
  intro a ha
  simp only [complement, List.mem_map] at ha
  obtain ⟨x, hx, rfl⟩ := ha
  have := h x hx
  omega

/-- The number `compFind` compares with at a node. -/
theorem comp_node {c : Cfg} {A : List Int} (hn : A.length < W64) (hA : Within c.bound A)
    (hfit : c.bs + Nat.log2 A.length ≤ 64) {i : Nat} (h1 : 0 < i) (h2 : i ≤ A.length) :
    comp c (tz i) (u64 (nodeInt (pre A) i)) = (pre (complement c.bound A) i).toNat -
      (pre (complement c.bound A) (i - 2 ^ tz i)).toNat := by
  have hA' := within_complement hA
  have hnn : ∀ a ∈ complement c.bound A, 0 ≤ a := fun a ha => (hA' a ha).1
  have hle := pre_le hnn (Nat.sub_le i (2 ^ tz i))
  have hnn' := pre_nonneg hnn (i - 2 ^ tz i)
  have htz := tz_le_log2 h1 h2 hn
  obtain ⟨y, hy, hlt⟩ := within_stage hA (tz i) h1 (by omega)
  rw [stage_top (pre A) (Nat.le_refl _)] at hy
  have hp : 2 ^ tz i ≤ i := by
    obtain ⟨_, k, hk⟩ := tz_spec h1 (by omega)
    have := pow_le_node (tz i) k
    rw [← hk] at this; exact this
  have hb : c.bound < 2 ^ c.bs := lt_ceilLog2Plus1 c.bound
  have hmul : c.bound * 2 ^ tz i < 2 ^ (c.bs + tz i) := by
    rw [Nat.pow_add]
    exact Nat.mul_lt_mul_of_pos_right hb (Nat.two_pow_pos _)
  have h64 : 2 ^ (c.bs + tz i) ≤ 2 ^ 64 := Nat.pow_le_pow_right (by decide) (by omega)
  have hB : c.bound * 2 ^ tz i < W64 := by simp only [W64]; omega
  have hr := within_range hA (i - 2 ^ tz i) (2 ^ tz i)
  rw [Nat.sub_add_cancel hp] at hr
  rw [hy]
  have hy' := hy
  unfold nodeInt at hy'
  rw [u64_nat (by simp only [W64]; omega)]
  unfold comp
  rw [Nat.shiftLeft_eq, Nat.mod_eq_of_lt hB, sub64_eq (by omega) hB]
  have e1 := pre_complement c.bound A i h2
  have e2 := pre_complement c.bound A (i - 2 ^ tz i) (Nat.le_trans (Nat.sub_le _ _) h2)
  have e3 : c.bound * i = c.bound * (i - 2 ^ tz i) + c.bound * 2 ^ tz i := by
    rw [← Nat.mul_add, Nat.sub_add_cancel hp]
  omega

/-- The complement search. -/
theorem compFind_reach {c : Cfg} {k : Kind} {A : List Int} {o : Obj} {val : Nat}
    (hf : Fits c A.length k) (h : ObjHolds c A.length (pre A) k o) (h0 : 0 < A.length)
    (hT : k = .typeL → Reach c A.length (fun i => (pre (complement c.bound A) i).toNat) val) (hA : Within c.bound A)
    (hfit : c.bs + Nat.log2 A.length ≤ 64) :
    ∃ r d, o.compFind c val = ok (r, d) ∧ Spec.Tree.IsFind (complement c.bound A) val r ∧
      (d : Int) = val - pre (complement c.bound A) r := by
  have hn := hf.lt
  have hA' := within_complement hA
  have hnn : ∀ a ∈ complement c.bound A, 0 ≤ a := fun a ha => (hA' a ha).1
  have hQ : ∀ i, pre (complement c.bound A) i = ((pre (complement c.bound A) i).toNat : Nat) :=
    fun i => by have := pre_nonneg hnn i; omega
  have mono : ∀ a b, a ≤ b → b ≤ A.length →
      (pre (complement c.bound A) a).toNat ≤ (pre (complement c.bound A) b).toNat := fun a b h _ => by
    have := pre_le hnn h; omega
  obtain ⟨r, e, hr⟩ := compFind_core (Q := fun i => (pre (complement c.bound A) i).toNat) (val := val)
    hf h h0 hT (by simp [pre_zero]) mono (fun i h1 h2 => comp_node hn hA hfit h1 h2)
  refine ⟨r, _, e, ?_, ?_⟩
  · have := isFind_iff (A := complement c.bound A) (val := val) (r := r) hQ
      (by rw [complement_length]; exact mono) (by rw [complement_length]; exact hr)
    exact this
  · have h1 : (pre (complement c.bound A) r).toNat ≤ val := hr.2.1
    have := hQ r
    show ((val - (pre (complement c.bound A) r).toNat : Nat) : Int) = _
    omega

/-- `compFind_reach` for sizes without a bad zero, if the class is `TypeL`. -/
theorem compFind_ok {c : Cfg} {k : Kind} {A : List Int} {o : Obj} {val : Nat}
    (hf : Fits c A.length k) (h : ObjHolds c A.length (pre A) k o) (h0 : 0 < A.length)
    (hT : k = .typeL → ZerosOk c.bound A.length) (hA : Within c.bound A)
    (hfit : c.bs + Nat.log2 A.length ≤ 64) :
    ∃ r d, o.compFind c val = ok (r, d) ∧ Spec.Tree.IsFind (complement c.bound A) val r ∧
      (d : Int) = val - pre (complement c.bound A) r :=
  compFind_reach hf h h0 (fun hk => reach_zeros (hT hk) _ _) hA hfit

/-! ## Alignment of TypeF -/

theorem typeAlign_iff {c : Cfg} {n : Nat} (hn : n < W64) (hfit : c.bs + Nat.log2 n ≤ 64) :
    TypeAlign c n ↔ (c.build.strictAlign = false ∨ 17 ≤ c.bs ∨ c.bs + Nat.log2 n ≤ 8 ∨
      (9 ≤ c.bs ∧ c.bs + Nat.log2 n ≤ 16)) := by
  have hb := c.one_le_bs
  constructor
  · intro h
    cases hs : c.build.strictAlign with
    | false => exact Or.inl rfl
    | true =>
      right
      have hal := h hs
      apply Classical.byContradiction
      intro hno
      have h0 : n ≠ 0 := by
        rintro rfl
        have : Nat.log2 0 = 0 := rfl
        omega
      have key : ∀ q, q ≤ Nat.log2 n → q < 64 → typeFPos c (2 ^ q) % typeBytes (c.bs + q) = 0 := by
        intro q hq hq64
        have h1 : 2 ^ q ≤ n := Nat.le_trans (Nat.pow_le_pow_right (by decide) hq) (Nat.log2_self_le h0)
        have := hal (2 ^ q) (Nat.two_pow_pos q) h1
        unfold tsz at this
        have e : 2 ^ q = 2 ^ q * (2 * 0 + 1) := by simp
        rw [show tz (2 ^ q) = q by rw [e]; exact tz_eq hq64] at this
        exact this
      by_cases h8 : c.bs ≤ 8
      · have := key (9 - c.bs) (by omega) (by omega)
        have hp : 2 ^ (9 - c.bs) - 1 < 2 ^ (9 - c.bs) := by have := Nat.two_pow_pos (9 - c.bs); omega
        have hp2 : 2 ^ (9 - c.bs) - 1 < 2 ^ (17 - c.bs) :=
          Nat.lt_of_lt_of_le hp (Nat.pow_le_pow_right (by decide) (by omega))
        unfold typeFPos at this
        simp only [if_pos h8, if_pos (show c.bs ≤ 16 by omega)] at this
        rw [show 8 - c.bs + 1 = 9 - c.bs by omega, show 16 - c.bs + 1 = 17 - c.bs by omega,
          Nat.shiftRight_eq_div_pow, Nat.shiftRight_eq_div_pow, Nat.div_eq_of_lt hp,
          Nat.div_eq_of_lt hp2, show c.bs + (9 - c.bs) = 9 by omega] at this
        simp only [typeBytes] at this
        rw [show 9 - c.bs = (8 - c.bs) + 1 by omega, Nat.pow_succ] at this
        have := Nat.two_pow_pos (8 - c.bs)
        simp at *
        omega
      · have := key (17 - c.bs) (by omega) (by omega)
        have hp : 2 ^ (17 - c.bs) - 1 < 2 ^ (17 - c.bs) := by
          have := Nat.two_pow_pos (17 - c.bs); omega
        unfold typeFPos at this
        simp only [if_neg h8, if_pos (show c.bs ≤ 16 by omega)] at this
        rw [show 16 - c.bs + 1 = 17 - c.bs by omega,
          Nat.shiftRight_eq_div_pow, Nat.shiftRight_eq_div_pow, Nat.div_eq_of_lt hp,
          show c.bs + (17 - c.bs) = 17 by omega] at this
        simp only [typeBytes] at this
        rw [show 17 - c.bs = (16 - c.bs) + 1 by omega, Nat.pow_succ] at this
        have h1 := Nat.two_pow_pos (16 - c.bs)
        simp at *
        omega
  · intro h hs i h0 h1
    have ht := tz_le_log2 h0 h1 hn
    rw [hs] at h
    unfold tsz typeFPos
    rcases h with h | h | h | h
    · exact absurd h (by decide)
    · simp only [if_neg (show ¬ c.bs ≤ 8 by omega), if_neg (show ¬ c.bs ≤ 16 by omega), typeBytes,
        if_pos (show 17 ≤ c.bs + tz i ∧ c.bs + tz i ≤ 64 by omega), Nat.shiftRight_zero]
      omega
    · simp only [typeBytes, if_neg (show ¬ (17 ≤ c.bs + tz i ∧ c.bs + tz i ≤ 64) by omega),
        if_neg (show ¬ (9 ≤ c.bs + tz i ∧ c.bs + tz i ≤ 16) by omega)]
      exact Nat.mod_one _
    · simp only [if_neg (show ¬ c.bs ≤ 8 by omega), typeBytes,
        if_neg (show ¬ (17 ≤ c.bs + tz i ∧ c.bs + tz i ≤ 64) by omega),
        if_pos (show (9 ≤ c.bs + tz i ∧ c.bs + tz i ≤ 16) by omega), Nat.shiftRight_zero]
      omega

/-- A loop whose body either succeeds or faults, and faults at one index. -/
theorem forFrom_ub {σ : Type} {body : Nat → σ → Outcome σ} {f : Fault} (P : σ → Prop) {i0 : Nat} :
    ∀ (n a : Nat) (s : σ), P s → a ≤ i0 → i0 < a + n →
    (∀ i s, a ≤ i → i < a + n → P s → body i s = ub f ∨ ∃ s', body i s = ok s' ∧ P s') →
    (∀ s, P s → body i0 s = ub f) → forFrom a n body s = ub f
  | 0, a, s, _, h1, h2, _, _ => by omega
  | n + 1, a, s, hP, h1, h2, hb, h0 => by
    rw [forFrom]
    by_cases ha : a = i0
    · subst ha; rw [h0 s hP, ub_bind]
    · rcases hb a s (Nat.le_refl _) (by omega) hP with e | ⟨s', e, hP'⟩
      · rw [e, ub_bind]
      · rw [e, ok_bind]
        exact forFrom_ub P n (a + 1) s' hP' (by omega) (by omega)
          (fun i s hi hlt => hb i s (by omega) (by omega)) h0

/-- Where nodes are misaligned, the constructor of `TypeF` makes a misaligned access. -/
theorem typeF_misaligned {c : Cfg} {A : List Int} (hc : FitF c A.length 64)
    (ha : ¬ TypeAlign c A.length) : build c (array A) A.length .typeF = ub .misaligned := by
  unfold TypeAlign at ha
  have hs : c.build.strictAlign = true := Classical.byContradiction fun h => ha fun h' => absurd h' h
  have : ∃ i, 0 < i ∧ i ≤ A.length ∧ typeFPos c i % tsz c i ≠ 0 :=
    Classical.byContradiction fun h => ha fun _ i h0 h1 =>
      Classical.byContradiction fun h2 => h ⟨i, h0, h1, h2⟩
  obtain ⟨i0, h0, h1, h2⟩ := this
  have hst : ∀ (t : Mem) (i v : Nat), t.addr = 4096 ∧ t.size = typeFPos c (A.length + 1) → 0 < i →
      i ≤ A.length → typeFPut c t i v =
        if typeFPos c i % tsz c i ≠ 0 then ub .misaligned else ok (wr t (typeFPos c i) (tsz c i) v) := by
    intro t i v ht h0 h1
    unfold typeFPut
    rw [rho_ok h0, ok_bind]
    have he := typeF_end hc h0 h1
    change store c.build t (typeFPos c i) (tsz c i) v = _
    unfold store chk
    rw [ht.1, ht.2, if_pos he, hs]
    have hm : (4096 + typeFPos c i) % tsz c i = typeFPos c i % tsz c i := by
      rcases tsz_cases c i with e | e | e <;> rw [e] <;> omega
    rw [hm]
    by_cases hz : typeFPos c i % tsz c i = 0
    · simp [hz]
    · simp [hz]
  simp only [build, typeFBuild, buildF]
  rw [forFrom_ub (f := .misaligned) (i0 := i0)
    (fun t : Mem => t.addr = 4096 ∧ t.size = typeFPos c (A.length + 1))]
  · rfl
  · exact ⟨rfl, rfl⟩
  · omega
  · omega
  · intro i t hi hlt ht
    rw [Vec.get_ok (by show i - 1 < A.length; omega), ok_bind, hst t i _ ht (by omega) (by omega)]
    split
    · exact Or.inl rfl
    · exact Or.inr ⟨_, rfl, ht⟩
  · intro t ht
    rw [Vec.get_ok (by show i0 - 1 < A.length; omega), ok_bind, hst t i0 _ ht h0 h1, if_pos h2]

/-! ## First node of a level-ordered tree -/

theorem buildL_first {T : Type} {seq : Vec Nat} {n L : Nat} {get : T → Nat → Nat → Outcome Nat}
    {put : T → Nat → Nat → Nat → Outcome T} {t : T} {f : Fault} (hn : 0 < n) (hseq : n ≤ seq.len)
    (hL : 2 ≤ L) (h : ∀ x, put t 0 0 x = ub f) : buildL seq n L get put t = ub f := by
  obtain ⟨l, rfl⟩ : ∃ l, L = l + 2 := ⟨L - 2, by omega⟩
  unfold buildL forN
  rw [show l + 2 - 1 = l + 1 by omega, forFrom]
  have : stride n (1 <<< (0 + 1)) (fun node t => do
      let v0 ← seq.get (node - 1)
      let r ← forN 0 (fun j (p : Nat × Nat) => do
        let v ← get t j (p.1 >>> 1)
        ok (p.1 >>> 1, add64 p.2 v)) (node - 1, v0)
      put t 0 (node >>> (0 + 1)) r.2) (n + 1) (1 <<< 0) t = ub f := by
    rw [stride, if_pos (by simp; omega), Vec.get_ok (by simp; omega)]
    simp only [forN, forFrom, ok_bind]
    rw [show (1 <<< 0) >>> (0 + 1) = 0 from rfl, h]
    rfl
  have e2 := congrArg (fun o => o >>= fun s => forFrom (0 + 1) l (fun l t =>
    stride n (1 <<< (l + 1)) (fun node t => do
      let v0 ← seq.get (node - 1)
      let r ← forN l (fun j (p : Nat × Nat) => do
        let v ← get t j (p.1 >>> 1)
        ok (p.1 >>> 1, add64 p.2 v)) (node - 1, v0)
      put t l (node >>> (l + 1)) r.2) (n + 1) (1 <<< l) t) s) this
  exact e2

theorem two_le_levelsN {n : Nat} (h : 0 < n) : 2 ≤ levelsN n := by
  unfold levelsN; rw [if_neg (by omega)]; omega

/-- Where shifts by 64 are undefined, `BitL` cannot store its first node. -/
theorem bitL_shift {c : Cfg} {A : List Int} (hs : c.strictShift = true) (hn : 0 < A.length) :
    build c (array A) A.length .bitL = ub .shift := by
  obtain ⟨level, el, hl⟩ := levelStarts_ok (bitLSize c) A.length (levelsN A.length) (levelsN_pos _)
  have h2 := two_le_levelsN hn
  simp only [build, bitLBuild]
  rw [levelsOf_ok, ok_bind, el, ok_bind, Vec.get_ok (by rw [hl.len]; omega), ok_bind, buildL_first
    (f := .shift) hn (Nat.le_refl _) h2]
  · rfl
  · intro x
    unfold bitLInc
    rw [lpos_ok hl (by omega), ok_bind]
    simp only [levelAt, Nat.zero_mul, Nat.add_zero]
    unfold bitwriteInc rd8
    rw [if_pos (by simp [bytes]), ok_bind, shr64_ok (by decide), ok_bind]
    simp [shr64, hs]

/-- With leaves and root such that the root needs 64 bits, `TypeL` allocates no array of words. -/
theorem typeL_null {c : Cfg} {A : List Int} (hn : 0 < A.length) (hsz : A.length < 2 ^ 48)
    (hfit : c.bs + Nat.log2 A.length = 64) : build c (array A) A.length .typeL = ub .oob := by
  obtain ⟨⟨level, ends, j⟩, el, hl⟩ := typeLLevels_ok c A.length
  have h2 := two_le_levelsN hn
  have hlog : Nat.log2 A.length < 48 := (Nat.log2_lt (by omega)).2 hsz
  have hlev : levelsN A.length = Nat.log2 A.length + 2 := by
    unfold levelsN; rw [if_neg (by omega)]
  have he := hl.elen
  simp only at he
  simp only [build, typeLBuild]
  rw [levelsOf_ok, ok_bind, el, ok_bind]
  unfold typeLAlloc
  rw [Vec.get_ok (by simp only; omega), ok_bind, Vec.get_ok (by simp only; omega), ok_bind, Vec.get_ok (by simp only; omega),
    ok_bind]
  simp only
  rw [if_neg (by omega), if_neg (by omega), ok_bind, buildL_first (f := .oob) hn (Nat.le_refl _) h2]
  · rfl
  · intro x
    unfold typeLPut
    rw [typeL_lpos hl (by omega), ok_bind]
    unfold Three.set
    simp only [Nat.add_zero, typeBytes, if_pos (show 17 ≤ c.bs ∧ c.bs ≤ 64 by omega), Three.arr,
      if_true, Vec.set, words]
    rfl

/-! ## Empty trees and index 0 -/

/-- The class has the classical layout. -/
def Kind.classical : Kind → Bool
  | .fixedF | .byteF | .bitF | .typeF => true
  | _ => false

theorem find_empty {c : Cfg} {P : Nat → Int} {k : Kind} {o : Obj} (val : Nat)
    (h : ObjHolds c 0 P k o) :
    o.find c val = if k.classical then ub .ctzZero else ok (0, val) := by
  cases k <;> cases o <;> first | exact h.elim | skip
  all_goals
    simp [Obj.find, Kind.classical, h.1, findF, maskLambda, findL]
  all_goals (rw [h.2.1]; simp [levelsN, findLevels])

theorem compFind_empty {c : Cfg} {P : Nat → Int} {k : Kind} {o : Obj} (val : Nat)
    (h : ObjHolds c 0 P k o) :
    o.compFind c val = if k.classical then ub .ctzZero else ok (0, val) := by
  cases k <;> cases o <;> first | exact h.elim | skip
  all_goals
    simp [Obj.compFind, Kind.classical, h.1, findF, maskLambda, findL]
  all_goals (rw [h.2.1]; simp [levelsN, findLevels])

theorem addLoop_stuck {T : Type} {size : Nat} {inc : T → Nat → Outcome T} (P : T → Prop)
    (h : ∀ t, P t → ∃ t', inc t 0 = ok t' ∧ P t') : ∀ (fuel : Nat) (t : T), P t →
    addLoop size inc fuel 0 t = ub .diverges
  | 0, _, _ => rfl
  | fuel + 1, t, hP => by
    obtain ⟨t', e, hP'⟩ := h t hP
    rw [addLoop, if_pos (Nat.zero_le _), e, ok_bind]
    exact addLoop_stuck P h fuel t' hP'

/-- `add(0, ..)` of `FixedF` adds to the unused cell 0 for ever. -/
theorem add0_fixedF {c : Cfg} {n : Nat} {P : Nat → Int} {o : Obj} (inc : Nat)
    (h : ObjHolds c n P .fixedF o) : o.add c 0 inc = ub .diverges := by
  cases o <;> first | exact h.elim | skip
  obtain ⟨v, hr, -⟩ := h.2
  simp only [Obj.add]
  rw [addLoop_stuck (fun t : Vec Nat => t.len = fixedFPos n + 1)]
  · rfl
  · intro t ht
    unfold fixedFInc
    have e0 : fixedFPos 0 = 0 := rfl
    rw [e0, Vec.get_ok (by omega), ok_bind, Vec.set_ok _ (by omega)]
    exact ⟨_, rfl, ht⟩
  · exact hr.len

/-- `add(0, ..)` of a level-ordered class computes `ctz(0)`. -/
theorem add0_level {c : Cfg} {n : Nat} {P : Nat → Int} {k : Kind} {o : Obj} (inc : Nat)
    (hk : k.classical = false) (h : ObjHolds c n P k o) : o.add c 0 inc = ub .ctzZero := by
  cases k <;> cases o <;> first | exact h.elim | (simp [Kind.classical] at hk; done) | skip
  all_goals
    simp [Obj.add, addLoop, byHeight, rho, builtinCtz]

end MRS.Hft
