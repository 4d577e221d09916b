import Verif.Proofs.NodeBuild
import Verif.Proofs.NodeUpdate
import Verif.Proofs.NodeSearch
import Verif.Model.Tree

/-! # Representation of the levels of a segment tree, and what each node operation does to it -/

set_option autoImplicit false

namespace MRS
open Outcome Spec

/-! ## Prefix sums -/

theorem psum_diff_le {A : Nat → Nat} {M : Nat} (h : ∀ j, A j ≤ M) (a d : Nat) :
    psum A (a + d) ≤ psum A a + d * M := by
  induction d with
  | zero => simp
  | succ d ih =>
    have := h (a + d)
    show psum A (a + d) + A (a + d) ≤ _
    rw [Nat.succ_mul]; omega

theorem psum_diff_le' {A : Nat → Nat} {M : Nat} (h : ∀ j, A j ≤ M) {a b : Nat} (hab : a ≤ b) :
    psum A b ≤ psum A a + (b - a) * M := by
  have := psum_diff_le h a (b - a)
  rwa [show a + (b - a) = b by omega] at this

theorem psum_beyond {A : Nat → Nat} {n : Nat} (h : ∀ j, n ≤ j → A j = 0) {k : Nat} (hk : n ≤ k) :
    psum A k = psum A n := by
  induction k with
  | zero => have : n = 0 := by omega
            subst this; rfl
  | succ k ih =>
    by_cases e : n = k + 1
    · rw [e]
    · show psum A k + A k = _
      rw [h k (by omega), ih (by omega)]; omega

/-- The array after `update(i, sign)`. -/
def updA (A : Nat → Nat) (i : Nat) (sign : Bool) : Nat → Nat :=
  fun j => if j = i then (if sign then A i - 1 else A i + 1) else A j

theorem psum_updA {A : Nat → Nat} {i : Nat} {sign : Bool} (hp : sign = true → 1 ≤ A i) (k : Nat) :
    psum (updA A i sign) k = if i < k then (if sign then psum A k - 1 else psum A k + 1)
      else psum A k := by
  induction k with
  | zero => simp [psum]
  | succ k ih =>
    show psum (updA A i sign) k + updA A i sign k = _
    rw [ih]
    have e : psum A (k + 1) = psum A k + A k := rfl
    by_cases h1 : i < k
    · have h2 : A i ≤ psum A k := by
        have := psum_mono A (show i + 1 ≤ k by omega)
        have e2 : psum A (i + 1) = psum A i + A i := rfl
        omega
      rw [if_pos h1, if_pos (show i < k + 1 by omega), e]
      unfold updA
      rw [if_neg (show k ≠ i by omega)]
      cases sign
      · simp only [Bool.false_eq_true, if_false]; omega
      · have := hp rfl
        simp only [if_true]; omega
    · rw [if_neg h1, e]
      by_cases h2 : k = i
      · subst h2
        rw [if_pos (show k < k + 1 by omega)]
        unfold updA
        rw [if_pos rfl]
        cases sign
        · simp only [Bool.false_eq_true, if_false]; omega
        · have := hp rfl
          simp only [if_true]; omega
      · rw [if_neg (show ¬ i < k + 1 by omega)]
        unfold updA
        rw [if_neg h2]

theorem updA_le {A : Nat → Nat} {M i : Nat} {sign : Bool} (h : ∀ j, A j ≤ M)
    (hi : sign = false → A i + 1 ≤ M) : ∀ j, updA A i sign j ≤ M := by
  intro j
  unfold updA
  split
  · cases sign
    · simpa using hi rfl
    · have := h i; simp; omega
  · exact h j

theorem updA_zero {A : Nat → Nat} {n i : Nat} {sign : Bool} (h : ∀ j, n ≤ j → A j = 0)
    (hi : i < n) : ∀ j, n ≤ j → updA A i sign j = 0 := by
  intro j hj
  unfold updA
  rw [if_neg (show j ≠ i by omega)]; exact h j hj

/-! ## Levels -/

/-- Number of nodes of span `f` needed for `n` values. -/
theorem ceilDiv_lt_iff {n f i : Nat} (hf : 0 < f) : i < ceilDiv n f ↔ i * f < n := by
  unfold ceilDiv
  rw [Nat.lt_iff_add_one_le, Nat.le_div_iff_mul_le hf, Nat.succ_mul]
  omega

/-- Prefix sums stored in an inner node: shifted by one child. -/
def innerS (A : Nat → Nat) (base step : Nat) : Nat → Nat :=
  fun k => psum A (base + (k - 1) * step) - psum A base

/-- The capacity of a level suffices when all values are at most `M`. -/
structure LevelFits (M : Nat) (c : NodeCfg) (step : Nat) : Prop where
  sum : c.fanout * step * M + 1 < 256 ^ c.sumB
  key : c.seg * step * M + 1 < 256 ^ c.keyB

/-- The signed comparisons of the SIMD search are adequate when all values are at most `M`. -/
structure LevelSimd (M : Nat) (c : NodeCfg) (step : Nat) : Prop where
  sum : 2 * (c.fanout * step * M) < 256 ^ c.sumB
  key : 2 * ((c.seg + 1) * step * M) < 256 ^ c.keyB

/-- All nodes of an inner level. -/
def InnerLvl (A : Nat → Nat) (n : Nat) (m : Mem) (c : NodeCfg) (step off : Nat) : Prop :=
  ∀ idx, idx < ceilDiv n (c.fanout * step) →
    NodeRep c m (off + idx * c.bytes) (innerS A (idx * (c.fanout * step)) step)

/-- One leaf: beyond the end of the array the entries are arbitrary values up to `M`. -/
structure LeafRep (M : Nat) (A : Nat → Nat) (n : Nat) (m : Mem) (c : NodeCfg) (off base : Nat)
    (S : Nat → Nat) : Prop where
  rep : NodeRep c m off S
  zero : S 0 = 0
  mono : MonoTo S c.fanout
  step : ∀ k, k < c.fanout → S (k + 1) ≤ S k + M
  val : ∀ k, k ≤ c.fanout → base + k ≤ n → S k = psum A (base + k) - psum A base

/-- All leaves. -/
def LeafLvl (M : Nat) (A : Nat → Nat) (n : Nat) (m : Mem) (c : NodeCfg) (off : Nat) : Prop :=
  ∀ idx, idx < ceilDiv n c.fanout →
    ∃ S, LeafRep M A n m c (off + idx * c.bytes) (idx * c.fanout) S

theorem innerS_zero (A : Nat → Nat) (base step : Nat) : innerS A base step 0 = 0 := by
  simp [innerS]

theorem innerS_mono (A : Nat → Nat) (base step F : Nat) : MonoTo (innerS A base step) F := by
  intro k _
  unfold innerS
  have : (k - 1) * step ≤ (k + 1 - 1) * step := Nat.mul_le_mul_right _ (by omega)
  have := psum_mono A (show base + (k - 1) * step ≤ base + (k + 1 - 1) * step by omega)
  omega

theorem innerS_le {A : Nat → Nat} {M : Nat} (h : ∀ j, A j ≤ M) (base step k : Nat) :
    innerS A base step k ≤ (k - 1) * step * M := by
  unfold innerS
  have := psum_diff_le h base ((k - 1) * step)
  omega

theorem add_diff_mul (base step : Nat) {a b : Nat} (h : a ≤ b) :
    base + a * step + (b - a) * step = base + b * step := by
  rw [Nat.add_assoc, ← Nat.add_mul, show a + (b - a) = b by omega]

theorem innerS_diff {A : Nat → Nat} {M : Nat} (h : ∀ j, A j ≤ M) (base step : Nat) {a b : Nat}
    (hab : a ≤ b) : innerS A base step b ≤ innerS A base step a + (b - a) * step * M := by
  unfold innerS
  have h1 : (a - 1) * step ≤ (b - 1) * step := Nat.mul_le_mul_right _ (by omega)
  have h2 := psum_diff_le h (base + (a - 1) * step) (((b - 1) - (a - 1)) * step)
  have h3 : ((b - 1) - (a - 1)) * step * M ≤ (b - a) * step * M :=
    Nat.mul_le_mul_right _ (Nat.mul_le_mul_right _ (by omega))
  rw [add_diff_mul base step (show a - 1 ≤ b - 1 by omega)] at h2
  have h4 := psum_mono A (show base ≤ base + (a - 1) * step by omega)
  omega

/-! ### Inner nodes -/

section inner
variable {b : Build} {A : Nat → Nat} {M n : Nat} {m : Mem} {c : NodeCfg} {step off : Nat}

theorem innerS_node_lt (_wf : c.WF) (hA : ∀ j, A j ≤ M) (hf : LevelFits M c step) (base k : Nat)
    (hk : k ≤ c.fanout) : innerS A base step k + 1 < 256 ^ c.sumB := by
  have h1 := innerS_le hA base step k
  have h2 : (k - 1) * step * M ≤ c.fanout * step * M :=
    Nat.mul_le_mul_right _ (Nat.mul_le_mul_right _ (by omega))
  have := hf.sum
  omega

theorem inner_key (wf : c.WF) (hA : ∀ j, A j ≤ M) (base : Nat) {j : Nat} (hj : j < c.fanout) :
    innerS A base step (j + 1) - innerS A base step (c.seg * (j / c.seg)) ≤ c.seg * step * M := by
  have hj1 : c.seg * (j / c.seg) ≤ j := Nat.mul_div_le _ _
  have hj2 : j < c.seg * (j / c.seg) + c.seg := by
    have := Nat.lt_mul_div_succ j wf.seg_pos; rw [Nat.mul_succ] at this; exact this
  have h := innerS_diff hA base step (show c.seg * (j / c.seg) ≤ j + 1 by omega)
  have h2 : (j + 1 - c.seg * (j / c.seg)) * step * M ≤ c.seg * step * M :=
    Nat.mul_le_mul_right _ (Nat.mul_le_mul_right _ (by omega))
  omega

/-- `sum` at an inner level. -/
theorem inner_sum_ok (wf : c.WF) (hA : ∀ j, A j ≤ M) (hf : LevelFits M c step)
    (hl : InnerLvl A n m c step off) {idx child : Nat} (hidx : idx < ceilDiv n (c.fanout * step))
    (hc : child < c.fanout) (ha : AlignOK b c m.addr (off + idx * c.bytes)) :
    nodeSum b c m (off + idx * c.bytes) child
      = ok (psum A (idx * (c.fanout * step) + child * step) - psum A (idx * (c.fanout * step))) := by
  rw [nodeSum_ok wf (hl idx hidx) ha (innerS_mono _ _ _ _) hc
    (by have := innerS_node_lt wf hA hf (idx * (c.fanout * step)) (child + 1) (by omega); omega)]
  rfl

/-- `update` at an inner level: position `i` lies below child `child` of node `idx`. -/
theorem inner_update_ok {idx child i : Nat} {sign : Bool} (wf : c.WF) (hA : ∀ j, A j ≤ M)
    (hf : LevelFits M c step)
    (hl : InnerLvl A n m c step off) (hidx : idx < ceilDiv n (c.fanout * step))
    (hc : child < c.fanout) (ha : AlignOK b c m.addr (off + idx * c.bytes))
    (hu : UpOK b c m.addr (off + idx * c.bytes))
    (hi1 : idx * (c.fanout * step) + child * step ≤ i)
    (hi2 : i < idx * (c.fanout * step) + child * step + step)
    (hp : sign = true → 1 ≤ A i) :
    ∃ m', nodeUpdate b c m (off + idx * c.bytes) (child + 1) sign = ok m' ∧
      InnerLvl (updA A i sign) n m' c step off ∧
      SameOff m m' (off + idx * c.bytes) (off + idx * c.bytes + c.bytes) := by
  have hstep : child * step + step ≤ c.fanout * step := by
    rw [← Nat.succ_mul]; exact Nat.mul_le_mul_right _ hc
  have hS : ∀ k, bumpS (innerS A (idx * (c.fanout * step)) step) (child + 1) sign k
      = innerS (updA A i sign) (idx * (c.fanout * step)) step k := by
    intro k
    unfold bumpS innerS
    rw [psum_updA hp, psum_updA hp, if_neg (show ¬ i < idx * (c.fanout * step) by omega)]
    by_cases hk : child + 1 < k
    · have h1 : (child + 1) * step ≤ (k - 1) * step := Nat.mul_le_mul_right _ (by omega)
      rw [Nat.succ_mul] at h1
      rw [if_pos hk, if_pos (show i < idx * (c.fanout * step) + (k - 1) * step by omega)]
      have h2 := psum_mono A (show i + 1 ≤ idx * (c.fanout * step) + (k - 1) * step by omega)
      have h3 := psum_mono A (show idx * (c.fanout * step) ≤ i by omega)
      have e : psum A (i + 1) = psum A i + A i := rfl
      cases sign
      · simp only [Bool.false_eq_true, if_false]; omega
      · have := hp rfl
        simp only [if_true]; omega
    · have h1 : (k - 1) * step ≤ child * step := Nat.mul_le_mul_right _ (by omega)
      rw [if_neg hk, if_neg (show ¬ i < idx * (c.fanout * step) + (k - 1) * step by omega)]
  obtain ⟨m', e, hr, hs⟩ := nodeUpdate_ok (b := b) (i := child + 1) (sign := sign) wf (hl idx hidx) ha hu
    (innerS_mono _ _ _ _) (by omega)
    (by
      intro hs _
      unfold innerS
      have h2 := psum_mono A (show i + 1 ≤ idx * (c.fanout * step) + (child + 1 + 1 - 1) * step by
        rw [show child + 1 + 1 - 1 = child + 1 by omega, Nat.succ_mul]; omega)
      have h3 := psum_mono A (show idx * (c.fanout * step) + (child + 1 - 1) * step ≤ i by
        rw [show child + 1 - 1 = child by omega]; omega)
      have h4 := psum_mono A (show idx * (c.fanout * step) ≤
        idx * (c.fanout * step) + (child + 1 - 1) * step by omega)
      have e : psum A (i + 1) = psum A i + A i := rfl
      have := hp hs
      omega)
    (fun _ s hs => innerS_node_lt wf hA hf _ _ (by
      rw [wf.fanout_eq]; exact Nat.mul_le_mul_right _ (by omega)))
    (fun _ j hj _ => by have := inner_key (step := step) wf hA (idx * (c.fanout * step)) hj; have := hf.key; omega)
  refine ⟨m', e, ?_, hs⟩
  intro idx' hidx'
  by_cases h : idx' = idx
  · subst h
    rw [show innerS (updA A i sign) (idx' * (c.fanout * step)) step
      = bumpS (innerS A (idx' * (c.fanout * step)) step) (child + 1) sign from
        (funext fun k => (hS k).symm)]
    exact hr
  · have hrep := hl idx' hidx'
    have hd : off + idx' * c.bytes + c.bytes ≤ off + idx * c.bytes ∨
        off + idx * c.bytes + c.bytes ≤ off + idx' * c.bytes := by
      rcases Nat.lt_or_gt_of_ne h with h | h
      · left
        have : (idx' + 1) * c.bytes ≤ idx * c.bytes := Nat.mul_le_mul_right _ h
        rw [Nat.succ_mul] at this; omega
      · right
        have : (idx + 1) * c.bytes ≤ idx' * c.bytes := Nat.mul_le_mul_right _ h
        rw [Nat.succ_mul] at this; omega
    have hrep' := hrep.frame wf hs hd
    -- only entries up to `fanout` matter
    have hval : ∀ k, k ≤ c.fanout → innerS (updA A i sign) (idx' * (c.fanout * step)) step k
        = innerS A (idx' * (c.fanout * step)) step k := by
      intro k hk
      unfold innerS
      rw [psum_updA hp, psum_updA hp]
      rcases Nat.lt_or_gt_of_ne h with h | h
      · have h1 : (idx' + 1) * (c.fanout * step) ≤ idx * (c.fanout * step) :=
          Nat.mul_le_mul_right _ h
        rw [Nat.succ_mul] at h1
        have h2 : (k - 1) * step ≤ c.fanout * step := Nat.mul_le_mul_right _ (by omega)
        rw [if_neg (show ¬ i < idx' * (c.fanout * step) + (k - 1) * step by omega),
          if_neg (show ¬ i < idx' * (c.fanout * step) by omega)]
      · have h1 : (idx + 1) * (c.fanout * step) ≤ idx' * (c.fanout * step) :=
          Nat.mul_le_mul_right _ h
        rw [Nat.succ_mul] at h1
        rw [if_pos (show i < idx' * (c.fanout * step) + (k - 1) * step by omega),
          if_pos (show i < idx' * (c.fanout * step) by omega)]
        have h2 := psum_mono A (show idx' * (c.fanout * step) ≤
          idx' * (c.fanout * step) + (k - 1) * step by omega)
        have h3 := psum_mono A (show i + 1 ≤ idx' * (c.fanout * step) by omega)
        have e : psum A (i + 1) = psum A i + A i := rfl
        cases sign
        · simp only [Bool.false_eq_true, if_false]; omega
        · have := hp rfl
          simp only [if_true]; omega
    refine ⟨hrep'.bnd, ?_, ?_⟩
    · intro s hs
      rw [hval _ (by rw [wf.fanout_eq]; exact Nat.mul_le_mul_right _ (by omega))]
      exact hrep'.sums s hs
    · intro j hj
      have := Nat.mul_div_le j c.seg
      rw [hval _ (by omega), hval _ (by omega)]
      exact hrep'.keys j hj

/-- Side conditions of the SIMD search at an inner node. -/
theorem inner_simd (wf : c.WF) (hA : ∀ j, A j ≤ M) (hs : LevelSimd M c step) {base x : Nat}
    (hx : x < psum A (base + c.fanout * step) - psum A base) :
    SimdOK c (innerS A base step) x := by
  have hx1 := psum_diff_le hA base (c.fanout * step)
  have hk1 : c.seg * step * M ≤ (c.seg + 1) * step * M :=
    Nat.mul_le_mul_right _ (Nat.mul_le_mul_right _ (by omega))
  have h1 := hs.sum
  have h2 := hs.key
  have hF : c.seg * (c.num - 1) + c.seg = c.fanout := by
    have := wf.fanout_eq; have := wf.num_pos
    rw [wf.fanout_eq, Nat.mul_comm c.num, ← Nat.mul_succ]
    congr 1; omega
  refine ⟨by omega, ?_, ?_, ?_⟩
  · intro s hsn
    have h3 := innerS_le hA base step (s * c.seg)
    have h4 : (s * c.seg - 1) * step * M ≤ c.fanout * step * M := by
      apply Nat.mul_le_mul_right; apply Nat.mul_le_mul_right
      have : s * c.seg ≤ c.num * c.seg := Nat.mul_le_mul_right _ (by omega)
      rw [wf.fanout_eq]; omega
    omega
  · intro j hj _
    have := inner_key (step := step) wf hA base hj
    exact Or.inl (by omega)
  · rw [Nat.mul_comm (c.num - 1)]
    unfold innerS
    have h3 : (c.seg * (c.num - 1) - 1) * step ≤ c.fanout * step :=
      Nat.mul_le_mul_right _ (by omega)
    have h4 := psum_diff_le hA (base + (c.seg * (c.num - 1) - 1) * step)
      ((c.fanout - (c.seg * (c.num - 1) - 1)) * step)
    rw [add_diff_mul base step (show c.seg * (c.num - 1) - 1 ≤ c.fanout by omega)] at h4
    have h5 : (c.fanout - (c.seg * (c.num - 1) - 1)) * step * M ≤ (c.seg + 1) * step * M :=
      Nat.mul_le_mul_right _ (Nat.mul_le_mul_right _ (by omega))
    have h6 := psum_mono A (show base ≤ base + (c.seg * (c.num - 1) - 1) * step by omega)
    omega

/-- `search` at an inner level descends into the child that contains rank `x`. -/
theorem inner_search_ok {idx x : Nat} (wf : c.WF) (hA : ∀ j, A j ≤ M) (hf : LevelFits M c step)
    (hg : c.guard ≠ .assertLt)
    (hl : InnerLvl A n m c step off) (hidx : idx < ceilDiv n (c.fanout * step))
    (ha : AlignOK b c m.addr (off + idx * c.bytes))
    (hxw : x < W64)
    (hx : x < psum A (idx * (c.fanout * step) + c.fanout * step) - psum A (idx * (c.fanout * step)))
    (hs : c.simd b = true → SimdOK c (innerS A (idx * (c.fanout * step)) step) x) :
    ∃ p, nodeSearch b c m (off + idx * c.bytes) x
        = ok (p + 1, psum A (idx * (c.fanout * step) + p * step) - psum A (idx * (c.fanout * step))) ∧
      p < c.fanout ∧
      psum A (idx * (c.fanout * step) + p * step) - psum A (idx * (c.fanout * step)) ≤ x ∧
      x < psum A (idx * (c.fanout * step) + p * step + step) - psum A (idx * (c.fanout * step)) := by
  obtain ⟨p, e, hfd⟩ := nodeSearch_ok (b := b) wf (hl idx hidx) ha (innerS_mono _ _ _ _)
    (innerS_zero _ _ _) hxw
    (by have := innerS_node_lt wf hA hf (idx * (c.fanout * step)) c.fanout (Nat.le_refl _); omega)
    hs (fun h => absurd h hg)
  have hF : 0 < c.fanout := by
    rw [wf.fanout_eq]; exact Nat.mul_pos wf.num_pos wf.seg_pos
  have hp : 1 ≤ p := by
    rcases Nat.eq_zero_or_pos p with h | h
    · subst h
      have := hfd.hi hF
      simp [innerS] at this
    · exact h
  have hle := hfd.le
  have hlo := hfd.lo
  refine ⟨p - 1, ?_, by omega, ?_, ?_⟩
  · rw [e, show p - 1 + 1 = p by omega]; rfl
  · exact hlo
  · by_cases h : p < c.fanout
    · have := hfd.hi h
      unfold innerS at this
      rw [show p + 1 - 1 = (p - 1) + 1 by omega, Nat.succ_mul, ← Nat.add_assoc] at this
      exact this
    · have hpF : p = c.fanout := by omega
      rw [Nat.add_assoc, ← Nat.succ_mul, show (p - 1).succ = c.fanout by omega]
      exact hx

end inner

/-! ### Leaves -/

section leaf
variable {b : Build} {A : Nat → Nat} {M n : Nat} {m : Mem} {c : NodeCfg} {off : Nat}

theorem LeafRep.le {S : Nat → Nat} {base : Nat} (h : LeafRep M A n m c off base S) {a d : Nat}
    (had : a + d ≤ c.fanout) : S (a + d) ≤ S a + d * M := by
  induction d with
  | zero => simp
  | succ d ih =>
    have h1 := ih (by omega)
    have h2 := h.step (a + d) (by omega)
    rw [Nat.succ_mul, ← Nat.add_assoc]; omega

theorem LeafRep.le' {S : Nat → Nat} {base : Nat} (h : LeafRep M A n m c off base S) {a e : Nat}
    (hae : a ≤ e) (he : e ≤ c.fanout) : S e ≤ S a + (e - a) * M := by
  have := h.le (a := a) (d := e - a) (by omega)
  rwa [show a + (e - a) = e by omega] at this

theorem LeafRep.lt {S : Nat → Nat} {base : Nat} (hf : LevelFits M c 1)
    (h : LeafRep M A n m c off base S) {k : Nat} (hk : k ≤ c.fanout) :
    S k + 1 < 256 ^ c.sumB := by
  have h1 := h.le' (Nat.zero_le k) hk
  have h2 := hf.sum
  have h3 : (k - 0) * M ≤ c.fanout * 1 * M := Nat.mul_le_mul_right _ (by omega)
  have := h.zero
  omega

theorem LeafRep.key {S : Nat → Nat} {base : Nat} (wf : c.WF)
    (h : LeafRep M A n m c off base S) {j : Nat} (hj : j < c.fanout) :
    S (j + 1) - S (c.seg * (j / c.seg)) ≤ c.seg * 1 * M := by
  have hj1 : c.seg * (j / c.seg) ≤ j := Nat.mul_div_le _ _
  have hj2 : j < c.seg * (j / c.seg) + c.seg := by
    have := Nat.lt_mul_div_succ j wf.seg_pos; rw [Nat.mul_succ] at this; exact this
  have h1 := h.le' (show c.seg * (j / c.seg) ≤ j + 1 by omega) (by omega)
  have h3 : (j + 1 - c.seg * (j / c.seg)) * M ≤ c.seg * 1 * M := Nat.mul_le_mul_right _ (by omega)
  omega

/-- `sum` at the leaves. -/
theorem leaf_sum_ok (wf : c.WF) (hf : LevelFits M c 1)
    (hl : LeafLvl M A n m c off) {idx child : Nat} (hidx : idx < ceilDiv n c.fanout)
    (hc : child < c.fanout) (hn : idx * c.fanout + child < n)
    (ha : AlignOK b c m.addr (off + idx * c.bytes)) :
    nodeSum b c m (off + idx * c.bytes) child
      = ok (psum A (idx * c.fanout + child + 1) - psum A (idx * c.fanout)) := by
  obtain ⟨S, hr⟩ := hl idx hidx
  rw [nodeSum_ok wf hr.rep ha hr.mono hc (by have := hr.lt hf (k := child + 1) (by omega); omega),
    hr.val (child + 1) (by omega) (by omega), Nat.add_assoc]

/-- `update` at the leaves. -/
theorem leaf_update_ok {idx child i : Nat} {sign : Bool} (wf : c.WF)
    (hf : LevelFits M c 1)
    (hl : LeafLvl M A n m c off) (hidx : idx < ceilDiv n c.fanout)
    (hc : child < c.fanout) (ha : AlignOK b c m.addr (off + idx * c.bytes))
    (hu : UpOK b c m.addr (off + idx * c.bytes))
    (hi : i = idx * c.fanout + child) (hn : i < n)
    (hp : sign = true → 1 ≤ A i) (hM : sign = false → A i + 1 ≤ M) :
    ∃ m', nodeUpdate b c m (off + idx * c.bytes) child sign = ok m' ∧
      LeafLvl M (updA A i sign) n m' c off ∧
      SameOff m m' (off + idx * c.bytes) (off + idx * c.bytes + c.bytes) := by
  obtain ⟨S, hrep⟩ := hl idx hidx
  have hv1 := hrep.val child (by omega) (by omega)
  have hv2 := hrep.val (child + 1) (by omega) (by omega)
  have hsA : S (child + 1) = S child + A i := by
    rw [hv1, hv2]
    have e : psum A (idx * c.fanout + (child + 1)) = psum A (idx * c.fanout + child) + A i := by
      rw [hi]; rfl
    have := psum_mono A (show idx * c.fanout ≤ idx * c.fanout + child by omega)
    omega
  obtain ⟨m', e, hr, hs⟩ := nodeUpdate_ok (b := b) (i := child) (sign := sign) wf hrep.rep ha hu
    hrep.mono (by omega)
    (fun hs _ => by have := hp hs; omega)
    (fun _ s hs => hrep.lt hf (by
      rw [wf.fanout_eq]; exact Nat.mul_le_mul_right _ (by omega)))
    (fun _ j hj _ => by have := hrep.key wf hj; have := hf.key; omega)
  refine ⟨m', e, ?_, hs⟩
  intro idx' hidx'
  by_cases h : idx' = idx
  · subst h
    refine ⟨bumpS S child sign, hr, ?_, ?_, ?_, ?_⟩
    · simp [bumpS, hrep.zero]
    · intro k hk
      have h1 := hrep.mono k hk
      have h2 : child < k → S (child + 1) ≤ S k := fun h => hrep.mono.le (by omega) (by omega)
      unfold bumpS
      by_cases h3 : child < k
      · rw [if_pos h3, if_pos (show child < k + 1 by omega)]
        have := h2 h3
        cases sign
        · simp only [Bool.false_eq_true, if_false]; omega
        · have := hp rfl
          simp only [if_true]; omega
      · rw [if_neg h3]
        by_cases h4 : child < k + 1
        · have h5 : k = child := by omega
          subst h5
          rw [if_pos h4]
          cases sign
          · simp only [Bool.false_eq_true, if_false]; omega
          · have := hp rfl
            simp only [if_true]; omega
        · rw [if_neg h4]; exact h1
    · intro k hk
      have h1 := hrep.mono k hk
      have h0 := hrep.step k hk
      have h2 : child < k → S (child + 1) ≤ S k := fun h => hrep.mono.le (by omega) (by omega)
      unfold bumpS
      by_cases h3 : child < k
      · rw [if_pos h3, if_pos (show child < k + 1 by omega)]
        have := h2 h3
        cases sign
        · simp only [Bool.false_eq_true, if_false]; omega
        · have := hp rfl
          simp only [if_true]; omega
      · rw [if_neg h3]
        by_cases h4 : child < k + 1
        · have h5 : k = child := by omega
          subst h5
          rw [if_pos h4]
          cases sign
          · have := hM rfl
            simp only [Bool.false_eq_true, if_false]; omega
          · simp only [if_true]; omega
        · rw [if_neg h4]; exact h0
    · intro k hk hkn
      unfold bumpS
      rw [psum_updA hp, psum_updA hp, if_neg (show ¬ i < idx' * c.fanout by omega)]
      have hv := hrep.val k hk hkn
      by_cases h3 : child < k
      · rw [if_pos h3, if_pos (show i < idx' * c.fanout + k by omega)]
        have h4 := psum_mono A (show i + 1 ≤ idx' * c.fanout + k by omega)
        have h5 := psum_mono A (show idx' * c.fanout ≤ i by omega)
        have e : psum A (i + 1) = psum A i + A i := rfl
        cases sign
        · simp only [Bool.false_eq_true, if_false]; omega
        · have := hp rfl
          simp only [if_true]; omega
      · rw [if_neg h3, if_neg (show ¬ i < idx' * c.fanout + k by omega), hv]
  · obtain ⟨S', hrep2⟩ := hl idx' hidx'
    have hd : off + idx' * c.bytes + c.bytes ≤ off + idx * c.bytes ∨
        off + idx * c.bytes + c.bytes ≤ off + idx' * c.bytes := by
      rcases Nat.lt_or_gt_of_ne h with h | h
      · left
        have : (idx' + 1) * c.bytes ≤ idx * c.bytes := Nat.mul_le_mul_right _ h
        rw [Nat.succ_mul] at this; omega
      · right
        have : (idx + 1) * c.bytes ≤ idx' * c.bytes := Nat.mul_le_mul_right _ h
        rw [Nat.succ_mul] at this; omega
    refine ⟨S', hrep2.rep.frame wf hs hd, hrep2.zero, hrep2.mono, hrep2.step, ?_⟩
    intro k hk hkn
    rw [psum_updA hp, psum_updA hp, hrep2.val k hk hkn]
    rcases Nat.lt_or_gt_of_ne h with h | h
    · have h1 : (idx' + 1) * c.fanout ≤ idx * c.fanout := Nat.mul_le_mul_right _ h
      rw [Nat.succ_mul] at h1
      rw [if_neg (show ¬ i < idx' * c.fanout + k by omega),
        if_neg (show ¬ i < idx' * c.fanout by omega)]
    · have h1 : (idx + 1) * c.fanout ≤ idx' * c.fanout := Nat.mul_le_mul_right _ h
      rw [Nat.succ_mul] at h1
      rw [if_pos (show i < idx' * c.fanout + k by omega),
        if_pos (show i < idx' * c.fanout by omega)]
      have h2 := psum_mono A (show idx' * c.fanout ≤ idx' * c.fanout + k by omega)
      have h3 := psum_mono A (show i + 1 ≤ idx' * c.fanout by omega)
      have e : psum A (i + 1) = psum A i + A i := rfl
      cases sign
      · simp only [Bool.false_eq_true, if_false]; omega
      · have := hp rfl
        simp only [if_true]; omega

/-- `search` at the leaves. -/
theorem leaf_search_ok {idx x : Nat} (wf : c.WF) (hf : LevelFits M c 1)
    (hsimd : LevelSimd M c 1) (hz : ∀ j, n ≤ j → A j = 0)
    (hl : LeafLvl M A n m c off) (hidx : idx < ceilDiv n c.fanout)
    (ha : AlignOK b c m.addr (off + idx * c.bytes))
    (hxw : x < W64)
    (hx : x < psum A (idx * c.fanout + c.fanout) - psum A (idx * c.fanout)) :
    ∃ p, nodeSearch b c m (off + idx * c.bytes) x
        = ok (p, psum A (idx * c.fanout + p) - psum A (idx * c.fanout)) ∧
      p < c.fanout ∧ idx * c.fanout + p < n ∧
      psum A (idx * c.fanout + p) - psum A (idx * c.fanout) ≤ x ∧
      x < psum A (idx * c.fanout + p + 1) - psum A (idx * c.fanout) := by
  obtain ⟨S, hr⟩ := hl idx hidx
  have hF : 0 < c.fanout := by
    rw [wf.fanout_eq]; exact Nat.mul_pos wf.num_pos wf.seg_pos
  rw [ceilDiv_lt_iff hF] at hidx
  -- the last position of the leaf that exists
  obtain ⟨e0, he0F, he0n, hxe⟩ : ∃ e0, e0 ≤ c.fanout ∧ idx * c.fanout + e0 ≤ n ∧ x < S e0 := by
    by_cases h : idx * c.fanout + c.fanout ≤ n
    · exact ⟨c.fanout, Nat.le_refl _, h, by rw [hr.val _ (Nat.le_refl _) h]; exact hx⟩
    · refine ⟨n - idx * c.fanout, by omega, by omega, ?_⟩
      rw [hr.val _ (by omega) (by omega), show idx * c.fanout + (n - idx * c.fanout) = n by omega]
      rwa [psum_beyond hz (show n ≤ idx * c.fanout + c.fanout by omega)] at hx
  have hxF : x < S c.fanout := Nat.lt_of_lt_of_le hxe (hr.mono.le he0F (Nat.le_refl _))
  have hlast : c.seg * (c.num - 1) + c.seg = c.fanout := by
    have := wf.num_pos
    rw [wf.fanout_eq, Nat.mul_comm c.num, ← Nat.mul_succ]
    congr 1; omega
  obtain ⟨p, e, hfd⟩ := nodeSearch_ok (b := b) wf hr.rep ha hr.mono hr.zero hxw
    (by have := hr.lt hf (Nat.le_refl _); omega)
    (fun _ => by
      have h1 := hsimd.sum
      have h2 := hsimd.key
      have hk1 : c.seg * 1 * M ≤ (c.seg + 1) * 1 * M :=
        Nat.mul_le_mul_right _ (by omega)
      have h3 := hr.le' (Nat.zero_le c.fanout) (Nat.le_refl _)
      rw [hr.zero, Nat.sub_zero] at h3
      rw [Nat.mul_one] at h1
      refine ⟨by omega, ?_, ?_, ?_⟩
      · intro s hs
        have : s * c.seg ≤ c.fanout := by
          rw [wf.fanout_eq]; exact Nat.mul_le_mul_right _ (by omega)
        have := hr.mono.le this (Nat.le_refl _)
        omega
      · intro j hj
        have := hr.key wf hj
        omega
      · rw [Nat.mul_comm (c.num - 1)]
        have h4 := hr.le' (show c.seg * (c.num - 1) ≤ c.fanout by omega) (Nat.le_refl _)
        have h5 : (c.fanout - c.seg * (c.num - 1)) * M ≤ c.seg * 1 * M :=
          Nat.mul_le_mul_right _ (by omega)
        omega)
    (fun _ => hxF)
  have hple := hfd.le
  have hplo := hfd.lo
  have hpe : p < e0 := by
    rcases Nat.lt_or_ge p e0 with h | h
    · exact h
    · have := hr.mono.le h hple
      omega
  refine ⟨p, ?_, by omega, by omega, ?_, ?_⟩
  · rw [e, hr.val p (by omega) (by omega)]
  · rw [← hr.val p (by omega) (by omega)]; exact hplo
  · rw [Nat.add_assoc, ← hr.val (p + 1) (by omega) (by omega)]; exact hfd.hi (by omega)

end leaf

/-- Frame for an inner level. -/
theorem InnerLvl.frame {A : Nat → Nat} {n : Nat} {m m' : Mem} {c : NodeCfg} {step off lo hi : Nat}
    (wf : c.WF) (h : InnerLvl A n m c step off) (hs : SameOff m m' lo hi)
    (hd : off + ceilDiv n (c.fanout * step) * c.bytes ≤ lo ∨ hi ≤ off) :
    InnerLvl A n m' c step off := by
  intro idx hidx
  refine (h idx hidx).frame wf hs ?_
  have : (idx + 1) * c.bytes ≤ ceilDiv n (c.fanout * step) * c.bytes := Nat.mul_le_mul_right _ hidx
  rw [Nat.succ_mul] at this
  omega

/-- Frame for the leaves. -/
theorem LeafLvl.frame {M : Nat} {A : Nat → Nat} {n : Nat} {m m' : Mem} {c : NodeCfg} {off lo hi : Nat}
    (wf : c.WF) (h : LeafLvl M A n m c off) (hs : SameOff m m' lo hi)
    (hd : off + ceilDiv n c.fanout * c.bytes ≤ lo ∨ hi ≤ off) :
    LeafLvl M A n m' c off := by
  intro idx hidx
  obtain ⟨S, hr⟩ := h idx hidx
  refine ⟨S, hr.rep.frame wf hs ?_, hr.zero, hr.mono, hr.step, hr.val⟩
  have : (idx + 1) * c.bytes ≤ ceilDiv n c.fanout * c.bytes := Nat.mul_le_mul_right _ hidx
  rw [Nat.succ_mul] at this
  omega

end MRS
