import Verif.Proofs.NodeUpdate

/-! # `search` of a node: SIMD and scalar bodies meet the same contract -/

set_option autoImplicit false

namespace MRS
open Outcome

/-- `p` is where a search for `x` in a node with prefix sums `S` and `F` entries must stop. -/
structure Found (S : Nat → Nat) (F x p : Nat) : Prop where
  le : p ≤ F
  lo : S p ≤ x
  hi : p < F → x < S (p + 1)

/-- A monotone predicate on `[0, n)` is a threshold. -/
theorem exists_threshold (P : Nat → Prop) (n : Nat) (hmono : ∀ z, z + 1 < n → P z → P (z + 1)) :
    ∃ q, q ≤ n ∧ ∀ z, z < n → (P z ↔ q ≤ z) := by
  induction n with
  | zero => exact ⟨0, Nat.le_refl _, fun z hz => by omega⟩
  | succ n ih =>
    obtain ⟨q, hq, h⟩ := ih (fun z hz => hmono z (by omega))
    by_cases hn : P n
    · refine ⟨q, by omega, fun z hz => ?_⟩
      by_cases e : z = n
      · subst e; exact ⟨fun _ => hq, fun _ => hn⟩
      · exact h z (by omega)
    · refine ⟨n + 1, Nat.le_refl _, fun z hz => ?_⟩
      refine ⟨fun hp => ?_, fun hp => by omega⟩
      exfalso
      -- propagate P from z up to n
      have : ∀ d, z + d ≤ n → P (z + d) := by
        intro d
        induction d with
        | zero => intro _; exact hp
        | succ d ihd => intro hd; exact hmono (z + d) (by omega) (ihd (by omega))
      exact hn (by have := this (n - z) (by omega); rwa [show z + (n - z) = n by omega] at this)

theorem foldl_congr_range {α : Type} (n : Nat) (f g : α → Nat → α) (a : α)
    (h : ∀ acc l, l < n → f acc l = g acc l) :
    (List.range n).foldl f a = (List.range n).foldl g a := by
  have : ∀ (l : List Nat) (a : α), (∀ x ∈ l, x < n) → l.foldl f a = l.foldl g a := by
    intro l
    induction l with
    | nil => intro a _; rfl
    | cons x xs ih =>
      intro a hx
      simp only [List.foldl_cons]
      rw [h a x (hx x (by simp)), ih _ (fun y hy => hx y (by simp [hy]))]
  exact this _ _ (fun x hx => List.mem_range.1 hx)

theorem maskWord_congr {w t : Nat} {f g : Nat → Bool}
    (h : ∀ z, z < (t + 1) * (8 / w) → f z = g z) : maskWord w f t = maskWord w g t := by
  unfold maskWord
  apply foldl_congr_range
  intro acc l hl
  rw [h (t * (8 / w) + l) (by rw [Nat.succ_mul]; omega)]

theorem indexFs_congr {w : Nat} {f g : Nat → Bool} (h : ∀ z, z < 4 * (8 / w) → f z = g z) :
    indexFs w f = indexFs w g := by
  unfold indexFs
  have hm : ∀ t, t < 4 → maskWord w f t = maskWord w g t := fun t ht =>
    maskWord_congr fun z hz => h z (by
      have : (t + 1) * (8 / w) ≤ 4 * (8 / w) := Nat.mul_le_mul_right _ (by omega)
      omega)
  rw [hm 0 (by decide), hm 1 (by decide), hm 2 (by decide), hm 3 (by decide)]

set_option maxRecDepth 100000 in
theorem indexFs_thr2 : ∀ q, q < 17 → indexFs 2 (fun z => decide (q ≤ z)) = q := by decide +kernel
set_option maxRecDepth 100000 in
theorem indexFs_thr4 : ∀ q, q < 9 → indexFs 4 (fun z => decide (q ≤ z)) = q := by decide +kernel
set_option maxRecDepth 100000 in
theorem indexFs_thr8 : ∀ q, q < 5 → indexFs 8 (fun z => decide (q ≤ z)) = q := by decide +kernel

/-- `index_fs` of a threshold mask over the 32 bytes of a `__m256i`. -/
theorem indexFs_eq {w n q : Nat} {mask : Nat → Bool} (hw : w = 2 ∨ w = 4 ∨ w = 8)
    (hn : n * w = 32) (hq : q ≤ n) (hm : ∀ z, z < n → mask z = decide (q ≤ z)) :
    indexFs w mask = q := by
  rcases hw with h | h | h <;> subst h
  · have : n = 16 := by omega
    subst this
    rw [indexFs_congr (g := fun z => decide (q ≤ z)) (fun z hz => hm z hz)]
    exact indexFs_thr2 q (by omega)
  · have : n = 8 := by omega
    subst this
    rw [indexFs_congr (g := fun z => decide (q ≤ z)) (fun z hz => hm z hz)]
    exact indexFs_thr4 q (by omega)
  · have : n = 4 := by omega
    subst this
    rw [indexFs_congr (g := fun z => decide (q ≤ z)) (fun z hz => hm z hz)]
    exact indexFs_thr8 q (by omega)

set_option maxRecDepth 100000 in
theorem indexFs_thr4' : ∀ q, q < 7 → indexFs 4 (fun z => decide (q ≤ z ∧ z < 7)) = q := by
  decide +kernel

/-- The last of eight lanes does not matter when an earlier one is set. -/
theorem indexFs_eq7 {q : Nat} {mask : Nat → Bool} (hq : q < 7)
    (hm : ∀ z, z < 7 → mask z = decide (q ≤ z)) : indexFs 4 mask = q := by
  cases h7 : mask 7 with
  | true =>
    refine indexFs_eq (n := 8) (by omega) (by decide) (by omega) fun z hz => ?_
    by_cases e : z = 7
    · subst e; rw [h7]; exact (decide_eq_true (by omega)).symm
    · exact hm z (by omega)
  | false =>
    rw [indexFs_congr (g := fun z => decide (q ≤ z ∧ z < 7)) ?_]
    · exact indexFs_thr4' q hq
    · intro z hz
      by_cases e : z = 7
      · subst e; rw [h7]; exact (decide_eq_false (by omega)).symm
      · rw [hm z (by omega)]
        exact decide_eq_decide.2 (by omega)

theorem maskReg_congr {n : Nat} {f g : Nat → Bool} (h : ∀ z, z < n → f z = g z) :
    maskReg n f = maskReg n g := by
  unfold maskReg
  apply foldl_congr_range
  intro acc l hl
  rw [h l hl]

set_option maxRecDepth 100000 in
theorem maskReg_thr : ∀ n, n < 33 → ∀ q, q < n + 1 →
    (if q = n then maskReg n (fun z => decide (q ≤ z)) = 0
     else maskReg n (fun z => decide (q ≤ z)) ≠ 0 ∧
       ctzFuel 64 (maskReg n (fun z => decide (q ≤ z))) = q) := by decide +kernel

theorem maskReg_eq {n q : Nat} {mask : Nat → Bool} (hn : n ≤ 32) (hq : q ≤ n)
    (hm : ∀ z, z < n → mask z = decide (q ≤ z)) :
    (q = n → maskReg n mask = 0) ∧
      (q < n → maskReg n mask ≠ 0 ∧ builtinCtz (maskReg n mask) = ok q) := by
  have h := maskReg_thr n (by omega) q (by omega)
  rw [maskReg_congr hm]
  constructor
  · intro e; rw [if_pos e] at h; exact h
  · intro e
    rw [if_neg (by omega)] at h
    refine ⟨h.1, ?_⟩
    unfold builtinCtz
    rw [if_neg h.1, h.2]

theorem toS_small {w x : Nat} (h : 2 * x < 256 ^ w) : toS w x = (x : Int) := by
  unfold toS
  have : x % 256 ^ w = x := Nat.mod_eq_of_lt (by omega)
  simp only [this]
  rw [if_pos h]

theorem cmpgt_small {w x : Nat} {v : Nat → Nat} {z : Nat} (hx : 2 * x < 256 ^ w)
    (hv : 2 * v z < 256 ^ w) : cmpgt w v x z = decide (x < v z) := by
  unfold cmpgt
  rw [toS_small hx, toS_small hv]
  simp

/-- The segment that contains the answer. -/
structure IsSeg (c : NodeCfg) (S : Nat → Nat) (x i : Nat) : Prop where
  lt : i < c.num
  lo : S (i * c.seg) ≤ x
  hi : i + 1 < c.num → x < S ((i + 1) * c.seg)

theorem segLoop_ok {b : Build} {c : NodeCfg} {m : Mem} {off x : Nat} {S : Nat → Nat}
    (wf : c.WF) (h : NodeRep c m off S) (ha : AlignOK b c m.addr off) :
    ∀ fuel i, i + 1 + fuel = c.num → S (i * c.seg) ≤ x →
      ∃ i', segLoop b c m off x fuel (i + 1) i = ok i' ∧ IsSeg c S x i' := by
  intro fuel
  induction fuel with
  | zero => intro i hi hx; exact ⟨i, rfl, by omega, hx, fun h => by omega⟩
  | succ f ih =>
    intro i hi hx
    unfold segLoop
    rw [h.load_sum wf ha (show i + 1 < c.num by omega)]
    simp only [ok_bind]
    by_cases hc : S ((i + 1) * c.seg) > x
    · rw [if_pos hc]; exact ⟨i, rfl, by omega, hx, fun _ => hc⟩
    · rw [if_neg hc]
      exact ih (i + 1) (by omega) (by omega)

theorem keyLoop_ok {b : Build} {c : NodeCfg} {m : Mem} {off x i : Nat} {S : Nat → Nat}
    (wf : c.WF) (h : NodeRep c m off S) (ha : AlignOK b c m.addr off) (hi : i < c.num) :
    ∀ fuel q, q + fuel = c.seg →
      (∀ z, z < q → S (i * c.seg + z + 1) - S (i * c.seg) ≤ x) →
      ∃ q', keyLoop b c m off x fuel (i * c.seg + q) = ok (i * c.seg + q') ∧ q' ≤ c.seg ∧
        (∀ z, z < q' → S (i * c.seg + z + 1) - S (i * c.seg) ≤ x) ∧
        (q' < c.seg → x < S (i * c.seg + q' + 1) - S (i * c.seg)) := by
  intro fuel
  induction fuel with
  | zero => intro q hq hx; exact ⟨q, rfl, by omega, hx, fun h => by omega⟩
  | succ f ih =>
    intro q hq hx
    have hF : i * c.seg + q < c.fanout := by
      have : (i + 1) * c.seg ≤ c.num * c.seg := Nat.mul_le_mul_right _ hi
      rw [Nat.succ_mul] at this; rw [wf.fanout_eq]; omega
    have hdiv : (i * c.seg + q) / c.seg = i := by
      rw [Nat.add_comm, Nat.add_mul_div_right _ _ wf.seg_pos, Nat.div_eq_of_lt (by omega),
        Nat.zero_add]
    unfold keyLoop
    rw [h.load_key wf ha hF, hdiv, Nat.mul_comm c.seg i]
    simp only [ok_bind]
    by_cases hc : S (i * c.seg + q + 1) - S (i * c.seg) > x
    · rw [if_pos hc]; exact ⟨q, rfl, by omega, hx, fun _ => hc⟩
    · rw [if_neg hc]
      have := ih (q + 1) (by omega) (fun z hz => by
        by_cases e : z = q
        · subst e; omega
        · exact hx z (by omega))
      rwa [← Nat.add_assoc] at this

/-- Side conditions under which the signed lane comparisons of the SIMD body agree with the
unsigned ones of the scalar body.  Only the keys of the segment that contains `x` matter, and the
last lane of eight may be anything when an earlier lane exceeds `x`. -/
structure SimdOK (c : NodeCfg) (S : Nat → Nat) (x : Nat) : Prop where
  x_sum : 2 * x < 256 ^ c.sumB
  sums : ∀ s, s < c.num → 2 * S (s * c.seg) < 256 ^ c.sumB
  keys : ∀ j, j < c.fanout → IsSeg c S x (j / c.seg) →
    2 * (S (j + 1) - S (c.seg * (j / c.seg))) < 256 ^ c.keyB ∨
      (c.avx512 = false ∧ c.keyB = 4 ∧ j % 8 = 7 ∧ x < S j)
  x_last : 2 * (x - S ((c.num - 1) * c.seg)) < 256 ^ c.keyB

theorem searchSeg_ok {b : Build} {c : NodeCfg} {m : Mem} {off x : Nat} {S : Nat → Nat}
    (wf : c.WF) (h : NodeRep c m off S) (ha : AlignOK b c m.addr off)
    (hm : MonoTo S c.fanout) (h0 : S 0 = 0) (hs : c.simd b = true →
      2 * x < 256 ^ c.sumB ∧ ∀ s, s < c.num → 2 * S (s * c.seg) < 256 ^ c.sumB) :
    ∃ i, searchSeg b c m off x = ok i ∧ IsSeg c S x i := by
  have hnum := wf.num_pos
  unfold searchSeg
  by_cases hsimd : c.simd b = true
  · have hok := hs hsimd
    rw [if_pos hsimd]
    have hvec : off + c.vecB ≤ m.size := by
      have := h.bnd; have := wf.sum_bytes; have := wf.vec_sum; omega
    rw [loadVec_ok (al := 1) hvec (fun _ => Nat.mod_one _)]
    simp only [ok_bind]
    have hv : ∀ z, z < c.num → rd m (off + z * c.sumB) c.sumB = S (z * c.seg) := h.sums
    obtain ⟨q, hq, hthr⟩ := exists_threshold (fun z => x < S (z * c.seg)) c.num (by
      intro z hz hlt
      have : S (z * c.seg) ≤ S ((z + 1) * c.seg) :=
        hm.le (Nat.mul_le_mul_right _ (by omega))
          (by rw [wf.fanout_eq]; exact Nat.mul_le_mul_right _ (by omega))
      show x < S ((z + 1) * c.seg)
      omega)
    have hq0 : q ≠ 0 := by
      intro e
      have := (hthr 0 hnum).2 (by omega)
      rw [Nat.zero_mul, h0] at this; omega
    have hmask : ∀ z, z < c.num →
        cmpgt c.sumB (fun z => rd m (off + z * c.sumB) c.sumB) x z = decide (q ≤ z) := by
      intro z hz
      rw [cmpgt_small hok.1 (by simp only [hv z hz]; exact hok.2 z hz)]
      simp only [hv z hz]
      exact decide_eq_decide.2 (hthr z hz)
    have hseg : IsSeg c S x (q - 1) := by
      refine ⟨by omega, ?_, ?_⟩
      · have := (hthr (q - 1) (by omega))
        by_cases hc : x < S ((q - 1) * c.seg)
        · have := this.1 hc; omega
        · omega
      · intro hlt
        have := (hthr q (by omega)).2 (Nat.le_refl _)
        rwa [show q - 1 + 1 = q by omega]
    have hl := wf.lanes
    cases h5 : c.avx512
    · simp only [Bool.false_eq_true, if_false]
      have hvB : c.num * c.sumB = 32 := by
        have := wf.vec_sum; unfold NodeCfg.vecB at this; rw [h5] at this; simpa using this.symm
      rw [indexFs_eq (by rcases wf.sum_w with h | h <;> simp [h]) hvB hq hmask]
      refine ⟨q - 1, ?_, hseg⟩
      rw [sub64_eq (by omega) (by simp only [W64]; omega)]
    · simp only [if_true]
      obtain ⟨hA, hB⟩ := maskReg_eq hl.1 hq hmask
      by_cases hqn : q = c.num
      · rw [hA hqn]
        refine ⟨c.num - 1, by simp, ?_⟩
        rw [← hqn]; exact hseg
      · obtain ⟨hne, hct⟩ := hB (by omega)
        rw [if_pos hne, hct]
        refine ⟨q - 1, ?_, hseg⟩
        simp only [ok_bind]
        rw [sub64_eq (by omega) (by simp only [W64]; omega)]
  · rw [if_neg hsimd]
    exact segLoop_ok wf h ha (c.num - 1) 0 (by omega) (by rw [Nat.zero_mul, h0]; omega)

theorem searchKey_ok {b : Build} {c : NodeCfg} {m : Mem} {off x i : Nat} {S : Nat → Nat}
    (wf : c.WF) (h : NodeRep c m off S) (ha : AlignOK b c m.addr off)
    (hm : MonoTo S c.fanout) (hs : c.simd b = true → SimdOK c S x)
    (hi : IsSeg c S x i) (hlt : c.avx512 = true → x < S c.fanout) :
    ∃ p, searchKey b c m off (x - S (i * c.seg)) (i * c.seg) = ok p ∧ Found S c.fanout x p := by
  have hnum := wf.num_pos
  have hsegp := wf.seg_pos
  have hFe := wf.fanout_eq
  have hseg1 : i * c.seg + c.seg ≤ c.fanout := by
    have : (i + 1) * c.seg ≤ c.num * c.seg := Nat.mul_le_mul_right _ hi.lt
    rw [Nat.succ_mul] at this; omega
  have hlo := hi.lo
  -- turn the position inside the segment into the final answer
  have fin : ∀ q, q ≤ c.seg →
      (∀ z, z < q → S (i * c.seg + z + 1) - S (i * c.seg) ≤ x - S (i * c.seg)) →
      (q < c.seg → x - S (i * c.seg) < S (i * c.seg + q + 1) - S (i * c.seg)) →
      Found S c.fanout x (i * c.seg + q) := by
    intro q hq h1 h2
    have hSq : S (i * c.seg + q) ≤ x := by
      by_cases e : q = 0
      · subst e; exact hlo
      · have := h1 (q - 1) (by omega)
        rw [show i * c.seg + (q - 1) + 1 = i * c.seg + q by omega] at this
        have := hm.le (a := i * c.seg) (b := i * c.seg + q) (by omega) (by omega)
        omega
    refine ⟨by omega, hSq, ?_⟩
    intro hlt
    by_cases e : q = c.seg
    · subst e
      exfalso
      have hne : i + 1 < c.num := by
        have := hi.lt
        by_cases e2 : i + 1 = c.num
        · rw [hFe, ← e2, Nat.succ_mul] at hlt; omega
        · omega
      have := hi.hi hne
      rw [Nat.succ_mul] at this; omega
    · have := h2 (by omega); omega
  unfold searchKey
  by_cases hsimd : c.simd b = true
  · have hok := hs hsimd
    rw [if_pos hsimd]
    have hvec : c.keyOff off (i * c.seg) + c.vecB ≤ m.size := by
      have h1 := h.bnd
      have h2 := wf.bytes_eq
      have h3 : (i * c.seg + c.seg) * c.keyB ≤ c.fanout * c.keyB := Nat.mul_le_mul_right _ hseg1
      rw [Nat.add_mul] at h3
      rw [wf.vec_key]; simp only [NodeCfg.keyOff]; omega
    rw [loadVec_ok (al := 1) hvec (fun _ => Nat.mod_one _)]
    simp only [ok_bind]
    have hdiv : ∀ z, z < c.seg → (i * c.seg + z) / c.seg = i := by
      intro z hz
      rw [Nat.add_comm, Nat.add_mul_div_right _ _ hsegp, Nat.div_eq_of_lt hz, Nat.zero_add]
    have hv : ∀ z, z < c.seg → rd m (c.keyOff off (i * c.seg) + z * c.keyB) c.keyB
        = S (i * c.seg + z + 1) - S (i * c.seg) := by
      intro z hz
      have := h.keys (i * c.seg + z) (by omega)
      rw [hdiv z hz, Nat.mul_comm c.seg i] at this
      rw [← this]
      congr 1
      simp only [NodeCfg.keyOff, Nat.add_mul]; omega
    have hvs : ∀ z, z < c.seg → 2 * (S (i * c.seg + z + 1) - S (i * c.seg)) < 256 ^ c.keyB ∨
        (c.avx512 = false ∧ c.keyB = 4 ∧ (i * c.seg + z) % 8 = 7 ∧ x < S (i * c.seg + z)) := by
      intro z hz
      have := hok.keys (i * c.seg + z) (by omega) (by rw [hdiv z hz]; exact hi)
      rwa [hdiv z hz, Nat.mul_comm c.seg i] at this
    have hseg8 : c.avx512 = false → c.keyB = 4 → c.seg = 8 := by
      intro h1 h2
      have := wf.vec_key; unfold NodeCfg.vecB at this; rw [h1, h2] at this
      simp only [Bool.false_eq_true, if_false] at this
      omega
    have hxs : 2 * (x - S (i * c.seg)) < 256 ^ c.keyB := by
      by_cases e : i + 1 < c.num
      · have h1 := hi.hi e
        rcases hvs (c.seg - 1) (by omega) with h2 | ⟨h3, h4, h5, h6⟩
        · rw [show i * c.seg + (c.seg - 1) + 1 = (i + 1) * c.seg by rw [Nat.succ_mul]; omega] at h2
          omega
        · have h8 := hseg8 h3 h4
          rcases hvs (c.seg - 2) (by omega) with h2 | ⟨_, _, h7, _⟩
          · rw [show i * c.seg + (c.seg - 2) + 1 = i * c.seg + (c.seg - 1) by omega] at h2
            omega
          · rw [h8] at h7; omega
      · have := hi.lt
        have e2 : i = c.num - 1 := by omega
        rw [e2]; exact hok.x_last
    obtain ⟨q, hq, hthr⟩ := exists_threshold
      (fun z => x - S (i * c.seg) < S (i * c.seg + z + 1) - S (i * c.seg)) c.seg (by
      intro z hz hlt
      have h1 := hm.le (a := i * c.seg + z + 1) (b := i * c.seg + (z + 1) + 1) (by omega) (by omega)
      show x - S (i * c.seg) < S (i * c.seg + (z + 1) + 1) - S (i * c.seg)
      omega)
    have hmask' : ∀ z, z < c.seg → 2 * (S (i * c.seg + z + 1) - S (i * c.seg)) < 256 ^ c.keyB →
        cmpgt c.keyB (fun z => rd m (c.keyOff off (i * c.seg) + z * c.keyB) c.keyB)
          (x - S (i * c.seg)) z = decide (q ≤ z) := by
      intro z hz hsm
      rw [cmpgt_small hxs (by simp only [hv z hz]; exact hsm)]
      simp only [hv z hz]
      exact decide_eq_decide.2 (hthr z hz)
    have hfound := fin q hq
      (fun z hz => by
        have := hthr z (by omega)
        by_cases hc : x - S (i * c.seg) < S (i * c.seg + z + 1) - S (i * c.seg)
        · have := this.1 hc; omega
        · omega)
      (fun hlt => (hthr q hlt).2 (Nat.le_refl _))
    have hl := wf.lanes
    have hfl := wf.fanout_le
    by_cases hall : ∃ z, z < c.seg ∧ ¬ 2 * (S (i * c.seg + z + 1) - S (i * c.seg)) < 256 ^ c.keyB
    · obtain ⟨z, hz, hnot⟩ := hall
      obtain ⟨h5, h4, h7, hxlt⟩ := (hvs z hz).resolve_left hnot
      have h8 := hseg8 h5 h4
      have hz7 : z = 7 := by rw [h8] at h7 hz; omega
      subst hz7
      have hq7 : q < 7 := by
        by_cases e : q < 7
        · exact e
        · exfalso
          have := hfound.lo
          have := hm.le (a := i * c.seg + 7) (b := i * c.seg + q) (by omega) (by omega)
          omega
      rw [h5]
      simp only [Bool.false_eq_true, if_false]
      have hmask7 : ∀ z, z < 7 →
          cmpgt c.keyB (fun z => rd m (c.keyOff off (i * c.seg) + z * c.keyB) c.keyB)
            (x - S (i * c.seg)) z = decide (q ≤ z) := by
        intro z hz
        refine hmask' z (by omega) ?_
        rcases hvs z (by omega) with h | ⟨_, _, h, _⟩
        · exact h
        · rw [h8] at h; omega
      refine ⟨i * c.seg + q, ?_, hfound⟩
      have hidx : indexFs c.keyB (cmpgt c.keyB
          (fun z => rd m (c.keyOff off (i * c.seg) + z * c.keyB) c.keyB) (x - S (i * c.seg))) = q := by
        rw [h4] at hmask7 ⊢
        exact indexFs_eq7 hq7 hmask7
      rw [hidx, add64_eq (by simp only [W64]; omega)]
    have hmask : ∀ z, z < c.seg →
        cmpgt c.keyB (fun z => rd m (c.keyOff off (i * c.seg) + z * c.keyB) c.keyB)
          (x - S (i * c.seg)) z = decide (q ≤ z) := by
      intro z hz
      refine hmask' z hz ?_
      by_cases h : 2 * (S (i * c.seg + z + 1) - S (i * c.seg)) < 256 ^ c.keyB
      · exact h
      · exact absurd ⟨z, hz, h⟩ hall
    cases h5 : c.avx512
    · simp only [Bool.false_eq_true, if_false]
      have hvB : c.seg * c.keyB = 32 := by
        have := wf.vec_key; unfold NodeCfg.vecB at this; rw [h5] at this; simpa using this.symm
      rw [indexFs_eq (by rcases wf.key_w with h | h <;> simp [h]) hvB hq hmask]
      refine ⟨i * c.seg + q, ?_, hfound⟩
      rw [add64_eq (by simp only [W64]; omega)]
    · simp only [if_true]
      obtain ⟨hA, hB⟩ := maskReg_eq hl.2 hq hmask
      have hqs : q < c.seg := by
        by_cases e : q = c.seg
        · exfalso
          have h1 := hfound.lo
          have h2 := hlt h5
          have h3 := hi.lt
          by_cases e2 : i + 1 < c.num
          · have := hi.hi e2
            rw [e] at h1
            rw [Nat.succ_mul] at this; omega
          · have e3 : i * c.seg + q = c.fanout := by
              have : c.num = i + 1 := by omega
              rw [hFe, this, Nat.succ_mul, e]
            rw [e3] at h1; omega
        · omega
      obtain ⟨hne, hct⟩ := hB hqs
      rw [massert_ok (decide_eq_true (Nat.pos_of_ne_zero hne)), hct]
      refine ⟨i * c.seg + q, ?_, hfound⟩
      simp only [ok_bind]
      rw [add64_eq (a := i * c.seg) (b := q) (by simp only [W64]; omega)]
  · rw [if_neg hsimd]
    obtain ⟨q, e, hq, h1, h2⟩ := keyLoop_ok (x := x - S (i * c.seg)) wf h ha hi.lt c.seg 0 (by omega)
      (fun z hz => by omega)
    exact ⟨i * c.seg + q, e, fin q hq h1 h2⟩

theorem searchBody_ok {b : Build} {c : NodeCfg} {m : Mem} {off x : Nat} {S : Nat → Nat}
    (wf : c.WF) (h : NodeRep c m off S) (ha : AlignOK b c m.addr off)
    (hm : MonoTo S c.fanout) (h0 : S 0 = 0) (hx : x < W64) (hSF : S c.fanout < 256 ^ c.sumB)
    (hs : c.simd b = true → SimdOK c S x)
    (hlt : c.guard ≠ .nothing → x < S c.fanout) :
    ∃ p, searchBody b c m off x = ok (p, S p) ∧ Found S c.fanout x p := by
  obtain ⟨i, e1, hi⟩ := searchSeg_ok wf h ha hm h0 (fun e => ⟨(hs e).x_sum, (hs e).sums⟩)
  obtain ⟨p, e2, hp⟩ := searchKey_ok wf h ha hm hs hi (fun h5 => hlt (wf.avx512_guard h5))
  have hmul : mul64 i c.seg = i * c.seg := by
    apply mul64_eq
    have h1 : i * c.seg ≤ c.num * c.seg := Nat.mul_le_mul_right _ (Nat.le_of_lt hi.lt)
    have h2 := wf.fanout_le
    have h3 := wf.fanout_eq
    simp only [W64]; omega
  refine ⟨p, ?_, hp⟩
  unfold searchBody
  rw [e1]
  simp only [ok_bind]
  rw [massert_ok (decide_eq_true hi.lt), h.load_sum wf ha hi.lt]
  simp only [ok_bind]
  rw [sub64_eq hi.lo hx, hmul, e2]
  simp only [ok_bind]
  have hfin : (if p = 0 then pure (p, 0) else do
      let s ← nodeSum b c m off (p - 1)
      pure (p, s) : Outcome (Nat × Nat)) = ok (p, S p) := by
    by_cases hp0 : p = 0
    · rw [if_pos hp0, hp0, h0]; rfl
    · rw [if_neg hp0]
      have hple := hp.le
      have hmono := hm.le hple (Nat.le_refl _)
      rw [nodeSum_ok wf h ha hm (i := p - 1) (by omega)
        (by rw [show p - 1 + 1 = p by omega]; omega), show p - 1 + 1 = p by omega]
      rfl
  split
  · rename_i ht
    have h1 := hlt (by rw [wf.tail_guard ht]; decide)
    have h2 := hp.lo
    have h3 := hp.le
    have h4 : p < c.fanout := by
      by_cases e : p = c.fanout
      · rw [e] at h2; omega
      · omega
    rw [massert_ok (decide_eq_true h4)]
    exact hfin
  · exact hfin

/-- Contract of `search` for every node class, SIMD and scalar. -/
theorem nodeSearch_ok {b : Build} {c : NodeCfg} {m : Mem} {off x : Nat} {S : Nat → Nat}
    (wf : c.WF) (h : NodeRep c m off S) (ha : AlignOK b c m.addr off)
    (hm : MonoTo S c.fanout) (h0 : S 0 = 0) (hx : x < W64) (hSF : S c.fanout < 256 ^ c.sumB)
    (hs : c.simd b = true → SimdOK c S x)
    (hlt : c.guard = .assertLt → x < S c.fanout) :
    ∃ p, nodeSearch b c m off x = ok (p, S p) ∧ Found S c.fanout x p := by
  have hF : 0 < c.fanout := by
    rw [wf.fanout_eq]; exact Nat.mul_pos wf.num_pos wf.seg_pos
  have hsum := nodeSum_ok wf h ha hm (i := c.fanout - 1) (by omega)
    (by rw [show c.fanout - 1 + 1 = c.fanout by omega]; exact hSF)
  rw [show c.fanout - 1 + 1 = c.fanout by omega] at hsum
  unfold nodeSearch
  cases hg : c.guard
  · -- assertLt
    simp only []
    have hl := hlt hg
    have hbody := searchBody_ok wf h ha hm h0 hx hSF hs (fun _ => hl)
    cases hn : b.ndebug
    · simp only [Bool.false_eq_true, if_false, hsum, ok_bind]
      rw [massert_ok (decide_eq_true hl)]
      exact hbody
    · simp only [if_true, pure_eq, ok_bind]
      exact hbody
  · -- nothing
    simp only []
    exact searchBody_ok wf h ha hm h0 hx hSF hs (fun hne => absurd hg hne)
  · -- early
    simp only [hsum, ok_bind, pure_eq]
    by_cases hc : x ≥ S c.fanout
    · rw [if_pos hc]
      exact ⟨c.fanout, rfl, Nat.le_refl _, hc, fun h => by omega⟩
    · rw [if_neg hc]
      exact searchBody_ok wf h ha hm h0 hx hSF hs (fun _ => by omega)

end MRS
