import Verif.Proofs.Hft.Arith

/-! # Fenwick trees over an abstract store of nodes

`R t v` says that the storage `t` holds the node values `v`.  Every class provides such a relation
and shows that its accessors respect it; the lemmas here are then about all classes at once. -/

set_option autoImplicit false

namespace MRS.Hft
open Outcome

variable {T : Type}

/-- `v` with entry `i` replaced. -/
def upd (v : Nat → Nat) (i x : Nat) : Nat → Nat := fun j => if j = i then x else v j

/-- Sum of the range covered by node `x`, from the prefix sums `P`. -/
def nodeInt (P : Nat → Int) (x : Nat) : Int := P x - P (x - 2 ^ tz x)

/-- The accessors of a class respect its representation relation. -/
structure Sound (n : Nat) (w : Nat → Nat) (R : T → (Nat → Nat) → Prop)
    (get : T → Nat → Outcome Nat) (inc : T → Nat → Nat → Outcome T) : Prop where
  get_ok : ∀ {t v i}, R t v → 0 < i → i ≤ n → get t i = ok (v i)
  inc_ok : ∀ {t v i x}, R t v → 0 < i → i ≤ n → x < W64 → add64 (v i) x < 2 ^ w i →
    ∃ t', inc t i x = ok t' ∧ R t' (upd v i (add64 (v i) x))

/-- The store holds the Fenwick tree with prefix sums `P`. -/
def Holds (n : Nat) (R : T → (Nat → Nat) → Prop) (t : T) (P : Nat → Int) : Prop :=
  ∃ v, R t v ∧ ∀ i, 0 < i → i ≤ n → v i = u64 (nodeInt P i)

theorem u64_lt (x : Int) : u64 x < W64 := by unfold u64; simp only [W64]; omega

theorem u64_add (x y : Int) : add64 (u64 x) (u64 y) = u64 (x + y) := by
  unfold add64 u64; simp only [W64]; omega

theorem u64_nat {x : Nat} (h : x < W64) : u64 (x : Int) = x := by
  unfold u64; simp only [W64] at *; omega

theorem sub_low {h k : Nat} (hh : h < 64) :
    2 ^ h * (2 * k + 1) - 2 ^ tz (2 ^ h * (2 * k + 1)) = 2 ^ (h + 1) * k := by
  rw [tz_eq hh, node_eq]; omega

theorem nodeInt_eq (P : Nat → Int) {h k : Nat} (hh : h < 64) :
    nodeInt P (2 ^ h * (2 * k + 1)) = P (2 ^ h * (2 * k + 1)) - P (2 ^ (h + 1) * k) := by
  unfold nodeInt; rw [sub_low hh]

/-! ## prefix -/

theorem dvd_tz {j h k : Nat} (h1 : 2 ^ j ∣ 2 ^ h * (2 * k + 1)) : j ≤ h := by
  by_cases hj : j ≤ h
  · exact hj
  · obtain ⟨d, rfl⟩ : ∃ d, j = h + 1 + d := ⟨j - h - 1, by omega⟩
    obtain ⟨q, hq⟩ := h1
    rw [Nat.pow_add, Nat.pow_succ, Nat.mul_assoc, Nat.mul_assoc] at hq
    have := Nat.eq_of_mul_eq_mul_left (Nat.two_pow_pos h) hq
    omega

theorem prefixLoop_ok {get : Nat → Outcome Nat} {P : Nat → Int} {n : Nat} (hn : n < W64)
    (hg : ∀ i, 0 < i → i ≤ n → get i = ok (u64 (nodeInt P i))) (h0 : P 0 = 0) :
    ∀ (fuel idx j : Nat) (s : Int), idx ≤ n → 2 ^ j ∣ idx → j ≤ 64 → 65 ≤ fuel + j →
      prefixLoop get fuel idx (u64 s) = ok (u64 (s + P idx)) := by
  intro fuel
  induction fuel with
  | zero => intro idx j s _ _ h1 h2; omega
  | succ fuel ih =>
    intro idx j s hi hd hj hf
    unfold prefixLoop
    by_cases hz : idx = 0
    · subst hz
      rw [if_pos rfl, h0]; simp
    · rw [if_neg hz, hg idx (by omega) hi, ok_bind]
      obtain ⟨h, k, hh, rfl, -⟩ := decomp (x := idx) (by omega) (by omega)
      have hjh := dvd_tz hd
      have hp2 := Nat.two_pow_pos h
      rw [clearRho_eq (by omega), u64_add,
        ih (2 ^ (h + 1) * k) (h + 1) _ (by rw [node_eq] at hi; omega) ⟨k, rfl⟩ (by omega) (by omega),
        nodeInt_eq P hh]
      congr 2
      omega

/-! ## add -/

theorem nodeInt_add {P P' : Nat → Int} {idx : Nat} {d : Int} (hi : 0 < idx)
    (hP : ∀ m, P' m = P m + if idx ≤ m then d else 0) {h k : Nat} (hh : h < 64) :
    nodeInt P' (2 ^ h * (2 * k + 1)) = nodeInt P (2 ^ h * (2 * k + 1))
      + if (idx - 1) / 2 ^ h = 2 * k then d else 0 := by
  rw [nodeInt_eq P hh, nodeInt_eq P' hh, hP, hP]
  have hc := cover_iff (h := h) (k := k) hi
  have hp2 := Nat.two_pow_pos h
  have hle : 2 ^ (h + 1) * k ≤ 2 ^ h * (2 * k + 1) := by rw [node_eq]; omega
  by_cases hx : (idx - 1) / 2 ^ h = 2 * k
  · rw [if_pos hx]
    obtain ⟨h1, h2⟩ := hc.2 hx
    rw [if_pos h2, if_neg (by omega)]; omega
  · rw [if_neg hx]
    by_cases h2 : idx ≤ 2 ^ h * (2 * k + 1)
    · have h1 : ¬ 2 ^ (h + 1) * k < idx := fun h1 => hx (hc.1 ⟨h1, h2⟩)
      rw [if_pos h2, if_pos (by omega)]; omega
    · rw [if_neg h2, if_neg (by omega)]; omega

theorem addLoop_ok {n : Nat} {w : Nat → Nat} {R : T → (Nat → Nat) → Prop}
    {get : T → Nat → Outcome Nat} {inc : T → Nat → Nat → Outcome T} (S : Sound n w R get inc)
    (hn : n < 2 ^ 63) {P P' : Nat → Int} {idx : Nat} {d : Int} (hi : 0 < idx)
    (hP : ∀ m, P' m = P m + if idx ≤ m then d else 0)
    (hw : ∀ i, 0 < i → i ≤ n → u64 (nodeInt P' i) < 2 ^ w i) :
    ∀ (fuel c j : Nat) (t : T) (v : Nat → Nat), R t v →
      (∀ i, 0 < i → i ≤ n → v i = if i < c then u64 (nodeInt P' i) else u64 (nodeInt P i)) →
      (∀ h k, c ≤ 2 ^ h * (2 * k + 1) → 2 ^ h * (2 * k + 1) ≤ n →
        ((idx - 1) / 2 ^ h = 2 * k ↔ (c - 1) / 2 ^ h = 2 * k)) →
      0 < c → 2 ^ j ∣ c → j ≤ 64 → 65 ≤ fuel + j →
      ∃ t', addLoop n (fun t i => inc t i (u64 d)) fuel c t = ok t' ∧ Holds n R t' P' := by
  intro fuel
  induction fuel with
  | zero => intro c j t v _ _ _ _ _ h1 h2; omega
  | succ fuel ih =>
    intro c j t v hR hv hch hc hd hj hf
    unfold addLoop
    by_cases hz : c ≤ n
    · rw [if_pos hz]
      obtain ⟨a, b, ha, rfl, -⟩ := decomp (x := c) hc (by simp only [W64]; omega)
      have hja := dvd_tz hd
      have hp := pow_le_node a b
      have hp2 := Nat.two_pow_pos a
      have hcov : (2 ^ a * (2 * b + 1) - 1) / 2 ^ a = 2 * b := by
        rw [Nat.div_eq_iff (Nat.two_pow_pos a), node_eq, Nat.pow_succ]
        have : 2 ^ a * 2 * b = 2 * b * 2 ^ a := by rw [Nat.mul_assoc, Nat.mul_comm]
        have := Nat.two_pow_pos a
        omega
      have hnew : nodeInt P' (2 ^ a * (2 * b + 1)) = nodeInt P (2 ^ a * (2 * b + 1)) + d := by
        rw [nodeInt_add hi hP ha, if_pos ((hch a b (Nat.le_refl _) hz).2 hcov)]
      have hval : add64 (v (2 ^ a * (2 * b + 1))) (u64 d) = u64 (nodeInt P' (2 ^ a * (2 * b + 1))) := by
        rw [hv _ hc hz, if_neg (by omega), u64_add, hnew]
      obtain ⟨t1, e1, r1⟩ := S.inc_ok hR hc hz (u64_lt d) (by rw [hval]; exact hw _ hc hz)
      rw [e1, ok_bind, maskRho_eq (by simp only [W64]; omega), add64_eq (by simp only [W64]; omega)]
      refine ih (2 ^ a * (2 * b + 1) + 2 ^ a) (a + 1) t1 _ r1 ?_ ?_ (by omega) ?_ (by omega) (by omega)
      · intro i hi0 hin
        unfold upd
        by_cases hic : i = 2 ^ a * (2 * b + 1)
        · subst hic
          rw [if_pos rfl, if_pos (by have := Nat.two_pow_pos a; omega), hval]
        · rw [if_neg hic, hv i hi0 hin]
          by_cases hlt : i < 2 ^ a * (2 * b + 1)
          · rw [if_pos hlt, if_pos (by omega)]
          · rw [if_neg hlt]
            by_cases hlt2 : i < 2 ^ a * (2 * b + 1) + 2 ^ a
            · rw [if_pos hlt2]
              obtain ⟨h, k, hh, rfl, -⟩ := decomp (x := i) hi0 (by simp only [W64]; omega)
              rw [nodeInt_add hi hP hh, if_neg, Int.add_zero]
              rw [hch h k (by omega) hin]
              exact cover_between (by omega) hlt2
            · rw [if_neg hlt2]
      · intro h k h1 h2
        rw [hch h k (by omega) h2]
        exact cover_step h1
      · exact ⟨b + 1, by rw [node_eq, Nat.mul_add, Nat.mul_one, Nat.pow_succ]; omega⟩
    · rw [if_neg hz]
      exact ⟨t, rfl, v, hR, fun i h1 h2 => by rw [hv i h1 h2, if_pos (by omega)]⟩

theorem add_ok {n : Nat} {w : Nat → Nat} {R : T → (Nat → Nat) → Prop}
    {get : T → Nat → Outcome Nat} {inc : T → Nat → Nat → Outcome T} (S : Sound n w R get inc)
    (hn : n < 2 ^ 63) {P P' : Nat → Int} {idx : Nat} {d : Int} (hi : 0 < idx)
    (hP : ∀ m, P' m = P m + if idx ≤ m then d else 0)
    (hw : ∀ i, 0 < i → i ≤ n → u64 (nodeInt P' i) < 2 ^ w i) {t : T} (hH : Holds n R t P) :
    ∃ t', addLoop n (fun t i => inc t i (u64 d)) 65 idx t = ok t' ∧ Holds n R t' P' := by
  obtain ⟨v, hR, hv⟩ := hH
  refine addLoop_ok S hn hi hP hw 65 idx 0 t v hR ?_ (fun _ _ _ _ => Iff.rfl) hi (by simp)
    (by omega) (by omega)
  intro i h1 h2
  rw [hv i h1 h2]
  by_cases hlt : i < idx
  · rw [if_pos hlt]
    obtain ⟨h, k, hh, rfl, -⟩ := decomp (x := i) h1 (by simp only [W64]; omega)
    rw [nodeInt_add hi hP hh, if_neg, Int.add_zero]
    intro hc
    have := ((cover_iff (h := h) (k := k) hi).2 hc).2
    omega
  · rw [if_neg hlt]

/-! ## find -/

/-- `r` is the largest index whose prefix sum is at most `val`. -/
def IsFind (n : Nat) (Q : Nat → Nat) (val r : Nat) : Prop :=
  r ≤ n ∧ Q r ≤ val ∧ (r + 1 ≤ n → val < Q (r + 1))

theorem findLoop_ok {n : Nat} {value : Nat → Outcome Nat} {Q : Nat → Nat} {val : Nat}
    (hn : n < W64)
    (hv : ∀ x, 0 < x → x ≤ n → value x = ok (Q x - Q (x - 2 ^ tz x)))
    (mono : ∀ a b, a ≤ b → b ≤ n → Q a ≤ Q b) :
    ∀ (H fuel node : Nat), H < fuel → node ≤ n → 2 ^ H ∣ node → Q node ≤ val →
      (node + 2 ^ H ≤ n → val < Q (node + 2 ^ H)) →
      ∃ r, findLoop n value fuel (2 ^ H / 2) node (val - Q node) = ok (r, val - Q r) ∧
        IsFind n Q val r := by
  intro H
  induction H with
  | zero =>
    intro fuel node hf hle _ hq hnx
    obtain ⟨f, rfl⟩ : ∃ f, fuel = f + 1 := ⟨fuel - 1, by omega⟩
    exact ⟨node, by simp [findLoop], hle, hq, by simpa using hnx⟩
  | succ H ih =>
    intro fuel node hf hle hd hq hnx
    obtain ⟨f, rfl⟩ : ∃ f, fuel = f + 1 := ⟨fuel - 1, by omega⟩
    have e1 : 2 ^ (H + 1) / 2 = 2 ^ H := by rw [Nat.pow_succ]; omega
    have hp := Nat.two_pow_pos H
    obtain ⟨k, rfl⟩ := hd
    have dv : 2 ^ H ∣ 2 ^ (H + 1) * k := ⟨2 * k, by rw [Nat.pow_succ, Nat.mul_assoc]⟩
    unfold findLoop
    have e0 : 2 ^ H >>> 1 = 2 ^ H / 2 := by rw [Nat.shiftRight_eq_div_pow]
    rw [e1, if_neg (by omega), e0]
    by_cases hc : 2 ^ (H + 1) * k + 2 ^ H > n
    · rw [if_pos hc]
      exact ih f _ (by omega) hle dv hq (fun h => by omega)
    · rw [if_neg hc]
      have hx : 2 ^ (H + 1) * k + 2 ^ H = 2 ^ H * (2 * k + 1) := (node_eq H k).symm
      have hlt : 2 ^ H * (2 * k + 1) < W64 := by omega
      have hval := hv (2 ^ H * (2 * k + 1)) (node_pos H k) (by omega)
      rw [sub_low (node_lt hlt)] at hval
      have hm := mono (2 ^ (H + 1) * k) (2 ^ H * (2 * k + 1)) (by omega) (by omega)
      rw [hx, hval, ok_bind]
      by_cases hge : val - Q (2 ^ (H + 1) * k) ≥ Q (2 ^ H * (2 * k + 1)) - Q (2 ^ (H + 1) * k)
      · rw [if_pos hge]
        have e2 : val - Q (2 ^ (H + 1) * k) - (Q (2 ^ H * (2 * k + 1)) - Q (2 ^ (H + 1) * k))
            = val - Q (2 ^ H * (2 * k + 1)) := by omega
        rw [e2]
        refine ih f _ (by omega) (by omega) ⟨2 * k + 1, rfl⟩ (by omega) (fun h => ?_)
        have e3 : 2 ^ H * (2 * k + 1) + 2 ^ H = 2 ^ (H + 1) * k + 2 ^ (H + 1) := by
          rw [← hx, Nat.pow_succ]; omega
        rw [e3] at h ⊢
        exact hnx h
      · rw [if_neg hge]
        refine ih f _ (by omega) hle dv hq (fun h => ?_)
        rw [hx]; omega

theorem findF_ok {n : Nat} {value : Nat → Outcome Nat} {Q : Nat → Nat} {val : Nat}
    (h0 : 0 < n) (hn : n < W64) (hQ0 : Q 0 = 0)
    (hv : ∀ x, 0 < x → x ≤ n → value x = ok (Q x - Q (x - 2 ^ tz x)))
    (mono : ∀ a b, a ≤ b → b ≤ n → Q a ≤ Q b) :
    ∃ m, maskLambda n = ok m ∧ ∃ r, findLoop n value 65 m 0 val = ok (r, val - Q r) ∧
      IsFind n Q val r := by
  have hl : Nat.log2 n < 64 := (Nat.log2_lt (by omega)).2 hn
  refine ⟨_, maskLambda_ok h0 hn, ?_⟩
  have := findLoop_ok (val := val) hn hv mono (Nat.log2 n + 1) 65 0 (by omega) (Nat.zero_le _)
    (Nat.dvd_zero _) (by omega)
    (fun h => by
      have := (Nat.log2_lt (n := n) (k := Nat.log2 n + 1) (by omega)).1 (by omega)
      omega)
  have e1 : 2 ^ (Nat.log2 n + 1) / 2 = 2 ^ Nat.log2 n := by rw [Nat.pow_succ]; omega
  rw [e1, hQ0] at this
  exact this

theorem findLevels_ok {n : Nat} {probe : Nat → Nat → Outcome (Option Nat)} {Q : Nat → Nat}
    {val : Nat} (L : Nat)
    (hv : ∀ h k, h < L → 2 ^ (h + 1) * k ≤ n → Q (2 ^ (h + 1) * k) ≤ val → probe h k =
      ok (if 2 ^ h * (2 * k + 1) ≤ n then some (Q (2 ^ h * (2 * k + 1)) - Q (2 ^ (h + 1) * k))
        else none))
    (mono : ∀ a b, a ≤ b → b ≤ n → Q a ≤ Q b) :
    ∀ (H k : Nat), H ≤ L → 2 ^ H * k ≤ n → Q (2 ^ H * k) ≤ val →
      (2 ^ H * k + 2 ^ H ≤ n → val < Q (2 ^ H * k + 2 ^ H)) →
      ∃ r, findLevels probe H k (2 ^ H * k) (val - Q (2 ^ H * k)) = ok (r, val - Q r) ∧
        IsFind n Q val r := by
  intro H
  induction H with
  | zero =>
    intro k _ hle hq hnx
    exact ⟨2 ^ 0 * k, by simp [findLevels], hle, hq, by simpa using hnx⟩
  | succ H ih =>
    intro k hL hle hq hnx
    have hp := Nat.two_pow_pos H
    have e2k : 2 ^ (H + 1) * k = 2 ^ H * (2 * k) := by rw [Nat.pow_succ, Nat.mul_assoc]
    have hx : 2 ^ H * (2 * k + 1) = 2 ^ (H + 1) * k + 2 ^ H := node_eq H k
    unfold findLevels
    rw [hv H k (by omega) hle hq, ok_bind]
    have s1 : k <<< 1 = 2 * k := by rw [Nat.shiftLeft_eq]; omega
    have s2 : 1 <<< H = 2 ^ H := by rw [Nat.shiftLeft_eq]; omega
    by_cases hc : 2 ^ H * (2 * k + 1) ≤ n
    · rw [if_pos hc]
      have hm := mono (2 ^ (H + 1) * k) (2 ^ H * (2 * k + 1)) (by omega) hc
      by_cases hge : val - Q (2 ^ (H + 1) * k) ≥ Q (2 ^ H * (2 * k + 1)) - Q (2 ^ (H + 1) * k)
      · have := ih (2 * k + 1) (by omega) hc (by omega) (fun h => by
          have e3 : 2 ^ H * (2 * k + 1) + 2 ^ H = 2 ^ (H + 1) * k + 2 ^ (H + 1) := by
            rw [hx, Nat.pow_succ]; omega
          rw [e3] at h ⊢
          exact hnx h)
        simp only [s1, s2]
        rw [if_pos hge, ← hx]
        have e2 : val - Q (2 ^ (H + 1) * k) - (Q (2 ^ H * (2 * k + 1)) - Q (2 ^ (H + 1) * k))
            = val - Q (2 ^ H * (2 * k + 1)) := by omega
        rw [e2]
        exact this
      · have := ih (2 * k) (by omega) (by omega) (by rw [← e2k]; exact hq) (fun h => by
          rw [← e2k, ← hx]; omega)
        simp only [s1]
        rw [if_neg hge, e2k]
        exact this
    · rw [if_neg hc]
      have := ih (2 * k) (by omega) (by omega) (by rw [← e2k]; exact hq) (fun h => by
        rw [← e2k, ← hx] at h; omega)
      simp only [s1]
      rw [e2k]
      exact this

end MRS.Hft
