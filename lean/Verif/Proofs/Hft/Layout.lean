import Verif.Proofs.Hft.Bits

/-! # Level-ordered layouts and arrays of words -/

set_option autoImplicit false

namespace MRS.Hft
open Outcome

/-- Number of nodes of height `h` in a tree of `n` elements. -/
def cnt (n h : Nat) : Nat := (n + 2 ^ h) / 2 ^ (h + 1)

theorem lt_cnt (n h k : Nat) : k < cnt n h ↔ 2 ^ h * (2 * k + 1) ≤ n := by
  unfold cnt
  rw [Nat.lt_div_iff_mul_lt (Nat.two_pow_pos _), node_eq]
  have hp := Nat.two_pow_pos h
  rw [Nat.mul_comm (2 ^ (h + 1)) k, Nat.pow_succ]
  omega

/-- First position of level `h`. -/
def levelAt (hsize : Nat → Nat) (n : Nat) : Nat → Nat
  | 0 => 0
  | h + 1 => cnt n h * hsize h + levelAt hsize n h

theorem levelAt_mono (hsize : Nat → Nat) (n a d : Nat) :
    levelAt hsize n a ≤ levelAt hsize n (a + d) := by
  induction d with
  | zero => exact Nat.le_refl _
  | succ d ih => exact Nat.le_trans ih (by rw [← Nat.add_assoc]; exact Nat.le_add_left _ _)

/-- The `Level` array is right. -/
structure LevOk (hsize : Nat → Nat) (n levels : Nat) (level : Vec Nat) : Prop where
  len : level.len = levels
  at_ : ∀ h, h < levels → level.f h = levelAt hsize n h

/-- `Levels` of a tree of `n` elements. -/
def levelsN (n : Nat) : Nat := if n = 0 then 1 else Nat.log2 n + 2

theorem levelsOf_ok (n : Nat) : levelsOf n = ok (levelsN n) := by
  unfold levelsOf levelsN lambda
  by_cases h : n = 0
  · simp [h]
  · simp [h]

theorem levelsN_pos (n : Nat) : 0 < levelsN n := by unfold levelsN; split <;> omega

theorem lt_levelsN (n : Nat) : n < 2 ^ (levelsN n - 1) := by
  unfold levelsN
  by_cases h : n = 0
  · subst h; simp
  · rw [if_neg h]
    have := (Nat.log2_lt (n := n) (k := Nat.log2 n + 1) h).1 (by omega)
    simpa using this

theorem height_lt {n h k : Nat} (hle : 2 ^ h * (2 * k + 1) ≤ n) : h + 1 < levelsN n := by
  have h0 : n ≠ 0 := by have := node_pos h k; omega
  unfold levelsN
  rw [if_neg h0]
  have h1 : 2 ^ h ≤ n := Nat.le_trans (pow_le_node h k) hle
  have := (Nat.le_log2 h0).2 h1
  omega

theorem levelStarts_ok (hsize : Nat → Nat) (n levels : Nat) (h0 : 0 < levels) :
    ∃ level, levelStarts hsize n levels = ok level ∧ LevOk hsize n levels level := by
  unfold levelStarts
  obtain ⟨l, e, p⟩ := forFrom_inv
    (body := fun i l => do
      let prev ← Vec.get l (i - 1)
      Vec.set l i ((n + 1 <<< (i - 1)) / (1 <<< i) * hsize (i - 1) + prev))
    (fun i l => l.len = levels ∧ ∀ h, h < i → l.f h = levelAt hsize n h) (levels - 1) 1 (words levels)
    ⟨rfl, fun h hh => by
      have : h = 0 := by omega
      subst this; rfl⟩
    (by
      intro i l h1 h2 ⟨hl, hf⟩
      refine ⟨⟨l.len, fun j => if j = i then
          (n + 1 <<< (i - 1)) / (1 <<< i) * hsize (i - 1) + l.f (i - 1) else l.f j⟩,
        by rw [Vec.get_ok (by omega), ok_bind, Vec.set_ok _ (by omega)], hl, ?_⟩
      intro h hh
      show (if h = i then _ else _) = _
      by_cases hi : h = i
      · rw [if_pos hi, hf (i - 1) (by omega), hi]
        obtain ⟨j, rfl⟩ : ∃ j, i = j + 1 := ⟨i - 1, by omega⟩
        simp only [Nat.add_sub_cancel, levelAt, cnt, Nat.shiftLeft_eq, Nat.one_mul]
      · rw [if_neg hi]; exact hf h (by omega))
  refine ⟨l, e, p.1, fun h hh => p.2 h (by omega)⟩

theorem lpos_ok {hsize : Nat → Nat} {n levels : Nat} {level : Vec Nat}
    (hl : LevOk hsize n levels level) {h k : Nat} (hh : h < levels) :
    lpos hsize level h k = ok (levelAt hsize n h + k * hsize h) := by
  unfold lpos
  rw [Vec.get_ok (by rw [hl.len]; exact hh), ok_bind, hl.at_ h hh]

/-- Position of node `i` in a level-ordered layout. -/
def posL (hsize : Nat → Nat) (n i : Nat) : Nat :=
  levelAt hsize n (tz i) + i / 2 ^ (tz i + 1) * hsize (tz i)

theorem node_div {h k : Nat} : 2 ^ h * (2 * k + 1) / 2 ^ (h + 1) = k := by
  have hp := Nat.two_pow_pos h
  rw [node_eq, Nat.mul_comm, Nat.div_eq_iff (Nat.two_pow_pos _), Nat.pow_succ]
  omega

theorem posL_eq (hsize : Nat → Nat) (n : Nat) {h k : Nat} (hh : h < 64) :
    posL hsize n (2 ^ h * (2 * k + 1)) = levelAt hsize n h + k * hsize h := by
  unfold posL; rw [tz_eq hh, node_div]

/-- Level-ordered positions scaled by `u` (bits per unit) form disjoint slots. -/
theorem slotsL (hsize : Nat → Nat) (n u : Nat) (hn : n < W64) :
    Slots n (fun i => u * posL hsize n i) (fun i => u * hsize (tz i)) := by
  refine ⟨fun i j hi hin hj hjn hne => ?_⟩
  obtain ⟨h, k, hh, rfl, -⟩ := decomp hi (by omega)
  obtain ⟨h', k', hh', rfl, -⟩ := decomp hj (by omega)
  rw [posL_eq hsize n hh, posL_eq hsize n hh', tz_eq hh, tz_eq hh', ← Nat.mul_add, ← Nat.mul_add]
  have aux : ∀ {a b x y : Nat}, 2 ^ a * (2 * x + 1) ≤ n → (a < b ∨ a = b ∧ x < y) →
      u * (levelAt hsize n a + x * hsize a + hsize a) ≤ u * (levelAt hsize n b + y * hsize b) := by
    intro a b x y hle hc
    apply Nat.mul_le_mul_left
    rcases hc with hc | ⟨rfl, hc⟩
    · have h1 := (lt_cnt n a x).2 hle
      have h2 : (x + 1) * hsize a ≤ cnt n a * hsize a := Nat.mul_le_mul_right _ h1
      have h3 := levelAt_mono hsize n (a + 1) (b - (a + 1))
      rw [show a + 1 + (b - (a + 1)) = b by omega, levelAt] at h3
      rw [Nat.add_mul, Nat.one_mul] at h2
      omega
    · have h2 : (x + 1) * hsize a ≤ y * hsize a := Nat.mul_le_mul_right _ hc
      rw [Nat.add_mul, Nat.one_mul] at h2
      omega
  have hne' : ¬ (h = h' ∧ k = k') := by rintro ⟨rfl, rfl⟩; exact hne rfl
  by_cases hlt : h < h' ∨ h = h' ∧ k < k'
  · exact Or.inl (aux hin hlt)
  · exact Or.inr (aux hjn (by omega))

theorem posL_end (hsize : Nat → Nat) {n h k : Nat} (hle : 2 ^ h * (2 * k + 1) ≤ n) :
    levelAt hsize n h + k * hsize h + hsize h ≤ levelAt hsize n (levelsN n - 1) := by
  have h1 := (lt_cnt n h k).2 hle
  have h2 : (k + 1) * hsize h ≤ cnt n h * hsize h := Nat.mul_le_mul_right _ h1
  have h4 := height_lt hle
  have h3 := levelAt_mono hsize n (h + 1) (levelsN n - 1 - (h + 1))
  rw [show h + 1 + (levelsN n - 1 - (h + 1)) = levelsN n - 1 by omega, levelAt] at h3
  rw [Nat.add_mul, Nat.one_mul] at h2
  omega

theorem probeL_ok {hsize : Nat → Nat} {n : Nat} {level : Vec Nat} (hs : ∀ h, 0 < hsize h)
    (hl : LevOk hsize n (levelsN n) level) {read : Nat → Nat → Outcome Nat} {f : Nat → Nat → Nat}
    (hr : ∀ h k, 2 ^ h * (2 * k + 1) ≤ n → read h k = ok (f h k)) {h k : Nat}
    (hh : h < levelsN n - 1) :
    probeL hsize level read h k = ok (if 2 ^ h * (2 * k + 1) ≤ n then some (f h k) else none) := by
  unfold probeL
  rw [lpos_ok hl (by omega), ok_bind, Vec.get_ok (by rw [hl.len]; omega), ok_bind,
    hl.at_ (h + 1) (by omega), levelAt]
  by_cases hc : 2 ^ h * (2 * k + 1) ≤ n
  · have h1 := (lt_cnt n h k).2 hc
    have h2 : (k + 1) * hsize h ≤ cnt n h * hsize h := Nat.mul_le_mul_right _ h1
    have := hs h
    rw [Nat.add_mul, Nat.one_mul] at h2
    rw [if_neg (by omega), if_pos hc, hr h k hc, ok_bind]
  · have h1 : cnt n h ≤ k := by
      rcases Nat.lt_or_ge k (cnt n h) with h | h
      · exact absurd ((lt_cnt n _ k).1 h) hc
      · exact h
    have h2 : cnt n h * hsize h ≤ k * hsize h := Nat.mul_le_mul_right _ h1
    rw [if_pos (by omega), if_neg hc]

theorem findL_ok {n : Nat} {hsize : Nat → Nat} {level : Vec Nat} (hs : ∀ h, 0 < hsize h)
    (hl : LevOk hsize n (levelsN n) level) {read : Nat → Nat → Outcome Nat} {Q : Nat → Nat} {val : Nat}
    (hr : ∀ h k, 2 ^ h * (2 * k + 1) ≤ n →
      read h k = ok (Q (2 ^ h * (2 * k + 1)) - Q (2 ^ (h + 1) * k)))
    (hQ0 : Q 0 = 0) (mono : ∀ a b, a ≤ b → b ≤ n → Q a ≤ Q b) :
    ∃ r, findL n (levelsN n) (probeL hsize level read) val = ok (r, val - Q r) ∧
      IsFind n Q val r := by
  have hlt := lt_levelsN n
  obtain ⟨r, e, hf⟩ := findLevels_ok (n := n) (probe := probeL hsize level read) (Q := Q)
    (val := val) (levelsN n - 1)
    (fun h k hh _ _ => probeL_ok (f := fun h k => Q (2 ^ h * (2 * k + 1)) - Q (2 ^ (h + 1) * k))
      hs hl hr hh) mono (levelsN n - 1) 0 (Nat.le_refl _) (by simp) (by simp [hQ0])
    (fun h => by simp at h; omega)
  simp only [Nat.mul_zero, hQ0, Nat.sub_zero] at e
  refine ⟨r, ?_, hf⟩
  unfold findL
  rw [e, ok_bind]
  simp only [Nat.min_eq_left hf.1]

/-! ## Arrays of words -/

/-- `t` holds the node values `v` at the given positions. -/
structure VRep (n N : Nat) (pos : Nat → Nat) (t : Vec Nat) (v : Nat → Nat) : Prop where
  len : t.len = N
  val : ∀ i, 0 < i → i ≤ n → t.f (pos i) = v i

/-- The positions of the nodes `1 .. n` in an array of `N` words. -/
structure Cells (n N : Nat) (pos : Nat → Nat) : Prop where
  lt : ∀ i, 0 < i → i ≤ n → pos i < N
  inj : ∀ i j, 0 < i → i ≤ n → 0 < j → j ≤ n → pos i = pos j → i = j

theorem VRep.zero {n N : Nat} {pos : Nat → Nat} : VRep n N pos (words N) (fun _ => 0) :=
  ⟨rfl, fun _ _ _ => rfl⟩

theorem VRep.get {n N : Nat} {pos : Nat → Nat} {t : Vec Nat} {v : Nat → Nat} (hC : Cells n N pos)
    (h : VRep n N pos t v) {i : Nat} (h0 : 0 < i) (h1 : i ≤ n) : t.get (pos i) = ok (v i) := by
  rw [Vec.get_ok (by rw [h.len]; exact hC.lt i h0 h1), h.val i h0 h1]

theorem VRep.set {n N : Nat} {pos : Nat → Nat} {t : Vec Nat} {v : Nat → Nat} (hC : Cells n N pos)
    (h : VRep n N pos t v) {i : Nat} (h0 : 0 < i) (h1 : i ≤ n) (x : Nat) :
    ∃ t', t.set (pos i) x = ok t' ∧ VRep n N pos t' (upd v i x) := by
  refine ⟨_, Vec.set_ok _ (by rw [h.len]; exact hC.lt i h0 h1), h.len, fun j hj0 hj1 => ?_⟩
  simp only [upd]
  by_cases hj : j = i
  · rw [if_pos hj, if_pos (by rw [hj])]
  · rw [if_neg hj, if_neg (fun e => hj (hC.inj j i hj0 hj1 h0 h1 e)), h.val j hj0 hj1]

end MRS.Hft
