import Verif.Proofs.Util

/-!
# C34, C35, C36: random bitmaps and the random number generator

`create_random_bits` is the library's generator of test and benchmark bitmaps.
-/

set_option autoImplicit false

namespace MRS.Props
open MRS Outcome Spec

theorem toList_length {α : Type} (v : Vec α) : v.toList.length = v.len := by simp [Vec.toList]

theorem toList_rep (v : Vec Word) : Rep v.f (bitsOf v.toList) := by
  refine ⟨fun i hi => ?_⟩
  rw [bitsOf_length] at hi
  rw [bitsOf_get _ i hi]
  rw [toList_length] at hi
  unfold fbit Vec.toList
  rw [List.getD_eq_getElem?_getD, List.getElem?_map, List.getElem?_range (by omega)]
  rfl

theorem toList_bit (v : Vec Word) {i : Nat} (hi : i < 64 * v.len) :
    (bitsOf v.toList)[i]? = some (fbit v.f i) :=
  (toList_rep v).bit i (by rw [bitsOf_length, toList_length]; exact hi)

theorem zeros_fbit (n t : Nat) : fbit (Vec.ofList (List.replicate n 0#64)).f t = false := by
  unfold fbit Vec.ofList
  dsimp only
  rw [List.getD_eq_getElem?_getD, List.getElem?_replicate]
  split <;> exact BitVec.getLsbD_zero

/-- C34: on a vector of at least four zero words `create_random_bits` returns the number of ones it
leaves, at least one of them in the first 256 bits.  The bits are the ones drawn below the threshold;
only if there is none in the first 256 bits, bit 0 is set in addition. -/
theorem C34 (n : Nat) (threshold seed : Word) (h4 : 4 ≤ n) (hn : n * 64 < 2 ^ 64) :
    ∃ k v, createRandomBits (Vec.ofList (List.replicate n 0#64)) threshold seed = ok (k, v) ∧
      v.len = n ∧ k = ones (bitsOf v.toList) (64 * n) ∧
      (∃ i, i < 256 ∧ (bitsOf v.toList)[i]? = some true) ∧
      ∀ i, i < 64 * n → ((bitsOf v.toList)[i]? = some true ↔
        (smNth seed i < threshold ∨ i = 0 ∧ ∀ t, t < 256 → ¬ smNth seed t < threshold)) := by
  have hl : (Vec.ofList (List.replicate n 0#64)).len = n := List.length_replicate
  have hb : ∀ t, t < 64 * n → crbBit (Vec.ofList (List.replicate n 0#64)) seed threshold t =
      drawn seed threshold t := by
    intro t ht
    unfold crbBit
    rw [zeros_fbit, hl, decide_eq_true (by omega), Bool.false_or, Bool.true_and]
  rcases createRandomBits_cases (old := Vec.ofList (List.replicate n 0#64)) seed threshold
    (by rw [hl]; simp only [W64]; omega) with ⟨v, e, h1, h2, t, h3, h4, h5⟩ | ⟨h1, _, h2⟩
  · rw [hl] at e h1 h4
    refine ⟨_, v, e, h1, ?_, ⟨t, h3, ?_⟩, fun i hi => ?_⟩
    · rw [(toList_rep v).ones (by rw [bitsOf_length, toList_length, h1]; exact Nat.le_refl _), fcnt_ind,
        Nat.mul_comm]
      refine psum_congr fun j hj => ?_
      unfold ind
      rw [h2, hb j (by omega)]
    · rw [toList_bit v (by omega), h2, h5]
    · rw [toList_bit v (by omega), h2, hb i hi]
      rw [hb t (by omega)] at h5
      have h6 : smNth seed t < threshold := of_decide_eq_true h5
      unfold drawn
      constructor
      · intro h
        injection h with h
        exact Or.inl (of_decide_eq_true h)
      · rintro (h | ⟨_, h⟩)
        · rw [decide_eq_true h]
        · exact absurd h6 (h t h3)
  · obtain ⟨v, e, h3, h5⟩ := h2 (by rw [hl]; exact h4)
    rw [hl] at e h3
    have h0 : ∀ t, t < 256 → drawn seed threshold t = false := fun t ht => by
      rw [← hb t (by omega)]; exact h1 t ht (by rw [hl]; omega)
    refine ⟨_, v, e, h3, ?_, ⟨0, by omega, ?_⟩, fun i hi => ?_⟩
    · rw [(toList_rep v).ones (by rw [bitsOf_length, toList_length, h3]; exact Nat.le_refl _), fcnt_ind,
        add64_eq (by
          have := psum_ind_le (drawn seed threshold) (n * 64)
          simp only [W64]; omega), Nat.mul_comm]
      have := psum_flip (f := drawn seed threshold) (g := fun t => if t = 0 then true else
        drawn seed threshold t) (i := 0) (fun t => by rw [h0 0 (by omega), Bool.not_false]) (64 * n)
      rw [h0 0 (by omega), if_neg (by simp), if_pos (by simp; omega)] at this
      have h6 : psum (ind (fbit v.f)) (64 * n) = psum (ind fun t => if t = 0 then true else
          drawn seed threshold t) (64 * n) := by
        refine psum_congr fun j hj => ?_
        unfold ind
        rw [h5 j, hb j hj]
      omega
    · rw [toList_bit v (by omega), h5 0, if_pos rfl]
    · rw [toList_bit v (by omega), h5 i]
      by_cases hi0 : i = 0
      · rw [if_pos hi0]
        exact ⟨fun _ => Or.inr ⟨hi0, fun t ht => of_decide_eq_false (h0 t ht)⟩, fun _ => rfl⟩
      · rw [if_neg hi0, hb i hi]
        unfold drawn
        constructor
        · intro h
          injection h with h
          exact Or.inl (of_decide_eq_true h)
        · rintro (h | ⟨h, _⟩)
          · rw [decide_eq_true h]
          · exact absurd h hi0

/-- The vector has to be zero: on any vector whose first word is not zero, a zero threshold makes
`create_random_bits` return 0. -/
theorem C34_zero_needed (ws : List Word) (w seed : Word) (hw : w ≠ 0#64)
    (hn : (w :: ws).length * 64 < 2 ^ 64) :
    ∃ v, createRandomBits (Vec.ofList (w :: ws)) 0#64 seed = ok (0, v) ∧
      ones (bitsOf v.toList) (64 * v.len) ≠ 0 := by
  have hl : (Vec.ofList (w :: ws)).len = (w :: ws).length := rfl
  have hd : ∀ t, drawn seed 0#64 t = false := fun t =>
    decide_eq_false (fun h => absurd (BitVec.lt_def.1 h) (Nat.not_lt_zero _))
  obtain ⟨o, ho, hb⟩ := word_ne_zero hw
  have ho' : crbBit (Vec.ofList (w :: ws)) seed 0#64 o = true := by
    unfold crbBit fbit
    rw [Nat.div_eq_of_lt ho, Nat.mod_eq_of_lt ho]
    show (w.getLsbD o || _) = true
    rw [hb, Bool.true_or]
  have hlen : (w :: ws).length = ws.length + 1 := rfl
  rcases createRandomBits_cases (old := Vec.ofList (w :: ws)) seed 0#64
    (by rw [hl]; simp only [W64]; omega) with ⟨v, e, h1, h2, _⟩ | ⟨h1, _⟩
  · rw [psum_ind_zero fun t _ => hd t] at e
    refine ⟨v, e, fun h0 => ?_⟩
    have h3 : ones (bitsOf v.toList) (o + 1) ≤ ones (bitsOf v.toList) (64 * v.len) := by
      rw [(toList_rep v).ones (by rw [bitsOf_length, toList_length, h1, hl]; omega),
        (toList_rep v).ones (by rw [bitsOf_length, toList_length]; exact Nat.le_refl _)]
      exact fcnt_mono _ (by rw [h1, hl]; omega)
    rw [ones_succ (by rw [bitsOf_length, toList_length, h1, hl]; omega), (toList_rep v).get, h2, ho'] at h3
    simp only [if_true] at h3
    omega
  · exact absurd ho' (by rw [h1 o (by omega) (by rw [hl]; omega)]; decide)

/-- The hypotheses of `C34` (a threshold no draw is below: exactly bit 0 is set) and of
`C34_zero_needed`. -/
example : ∃ v, createRandomBits (Vec.ofList (List.replicate 4 0#64)) 0#64 13#64 = ok (1, v) ∧
    bitsOf v.toList = true :: List.replicate 255 false := by
  obtain ⟨k, v, e, h1, h2, _, h3⟩ := C34 4 0#64 13#64 (by decide) (by decide)
  have hB : bitsOf v.toList = true :: List.replicate 255 false := by
    have hlen : (bitsOf v.toList).length = 256 := by rw [bitsOf_length, toList_length, h1]
    refine List.ext_getElem? fun i => ?_
    by_cases hi : i < 256
    · have h4 := h3 i (by omega)
      have hlt : ∀ t, ¬ smNth 13#64 t < 0#64 := fun t h => absurd (BitVec.lt_def.1 h) (Nat.not_lt_zero _)
      cases i with
      | zero => rw [h4.2 (Or.inr ⟨rfl, fun t _ => hlt t⟩)]; rfl
      | succ i =>
        rw [List.getElem?_cons_succ, List.getElem?_replicate, if_pos (by omega)]
        rw [List.getElem?_eq_getElem (by omega)] at h4 ⊢
        cases hb : (bitsOf v.toList)[i + 1]
        · rfl
        · rw [hb] at h4
          rcases h4.1 rfl with h | ⟨h, _⟩
          · exact absurd h (hlt _)
          · cases h
    · rw [List.getElem?_eq_none (by omega), List.getElem?_eq_none (by rw [List.length_cons, List.length_replicate]; omega)]
  refine ⟨v, ?_, hB⟩
  rw [e, h2, hB, show ones (true :: List.replicate 255 false) (64 * 4) = 1 by decide +kernel]

example : ∃ v, createRandomBits (Vec.ofList [7#64, 0#64, 0#64, 0#64]) 0#64 13#64 = ok (0, v) ∧
    ones (bitsOf v.toList) (64 * v.len) ≠ 0 := C34_zero_needed _ _ _ (by decide) (by decide)

/-- C35 as wished for. -/
def C35_full : Prop :=
  ∀ (ws : List Word) (threshold seed : Word), ws.length * 64 < 2 ^ 64 →
    createRandomBits (Vec.ofList ws) threshold seed ≠ ub .oob

/-- C35, exactly: `create_random_bits` leaves the vector iff it has fewer than four words, all of them
are zero, and no draw is below the threshold; otherwise it returns. -/
theorem C35_iff (ws : List Word) (threshold seed : Word) (hn : ws.length * 64 < 2 ^ 64) :
    (createRandomBits (Vec.ofList ws) threshold seed = ub .oob ↔
      ws.length < 4 ∧ (∀ w, w ∈ ws → w = 0#64) ∧
        ∀ i, i < 64 * ws.length → ¬ smNth seed i < threshold) ∧
    ((∃ k v, createRandomBits (Vec.ofList ws) threshold seed = ok (k, v) ∧ v.len = ws.length) ↔
      ¬ (ws.length < 4 ∧ (∀ w, w ∈ ws → w = 0#64) ∧
        ∀ i, i < 64 * ws.length → ¬ smNth seed i < threshold)) := by
  have hl : (Vec.ofList ws).len = ws.length := rfl
  have hbad : (∀ t, t < 256 → t < ws.length * 64 → crbBit (Vec.ofList ws) seed threshold t = false) →
      ws.length < 4 → (∀ w, w ∈ ws → w = 0#64) ∧
        ∀ i, i < 64 * ws.length → ¬ smNth seed i < threshold := by
    intro h h4
    constructor
    · intro w hw
      obtain ⟨j, hj, e⟩ := List.mem_iff_getElem.1 hw
      refine Classical.byContradiction fun h0 => ?_
      obtain ⟨o, ho, hb⟩ := word_ne_zero h0
      have := h (64 * j + o) (by omega) (by omega)
      unfold crbBit fbit at this
      rw [show (64 * j + o) / 64 = j by omega, show (64 * j + o) % 64 = o by omega] at this
      have hw' : (Vec.ofList ws).f j = w := by
        show ws.getD j 0#64 = w
        rw [List.getD_eq_getElem?_getD, List.getElem?_eq_getElem hj, e]; rfl
      rw [hw', hb, Bool.true_or] at this
      cases this
    · intro i hi hd
      have := h i (by omega) (by omega)
      unfold crbBit drawn at this
      rw [hl, decide_eq_true hd, decide_eq_true (by omega), Bool.and_true, Bool.or_true] at this
      cases this
  have hgood : ∀ t, (∀ w, w ∈ ws → w = 0#64) → (∀ i, i < 64 * ws.length → ¬ smNth seed i < threshold) →
      t < ws.length * 64 → crbBit (Vec.ofList ws) seed threshold t = false := by
    intro t h1 h2 ht
    unfold crbBit drawn fbit
    have hw : (Vec.ofList ws).f (t / 64) = 0#64 := by
      show ws.getD (t / 64) 0#64 = 0#64
      rw [List.getD_eq_getElem?_getD, List.getElem?_eq_getElem (by omega)]
      exact h1 _ (List.getElem_mem _)
    rw [hw, BitVec.getLsbD_zero, decide_eq_false (h2 t (by omega)), Bool.and_false, Bool.or_false]
  rcases createRandomBits_cases (old := Vec.ofList ws) seed threshold
    (by rw [hl]; simp only [W64]; omega) with ⟨v, e, h1, _, t, h3, h4, h5⟩ | ⟨h1, h2, h3⟩
  · have hno : ¬ (ws.length < 4 ∧ (∀ w, w ∈ ws → w = 0#64) ∧
        ∀ i, i < 64 * ws.length → ¬ smNth seed i < threshold) := by
      rintro ⟨_, h6, h7⟩
      rw [hgood t h6 h7 h4] at h5
      cases h5
    refine ⟨⟨fun h => ?_, fun h => absurd h hno⟩, fun _ => hno, fun _ => ⟨_, v, e, h1⟩⟩
    rw [e] at h; cases h
  · by_cases h4 : ws.length < 4
    · have hyes := hbad h1 h4
      have e := h2 h4
      refine ⟨⟨fun _ => ⟨h4, hyes⟩, fun _ => e⟩, ?_, fun h => absurd ⟨h4, hyes⟩ h⟩
      rintro ⟨k, v, h, _⟩
      rw [e] at h; cases h
    · obtain ⟨v, e, h5, _⟩ := h3 (Nat.le_of_not_lt h4)
      refine ⟨⟨fun h => ?_, fun h => absurd h.1 h4⟩, fun _ h => h4 h.1, fun _ => ⟨_, v, e, h5⟩⟩
      rw [e] at h; cases h

/-- What holds.  Missing: vectors of one to three words when no bit is drawn, and the empty vector. -/
theorem C35_partial (ws : List Word) (threshold seed : Word) (hn : ws.length * 64 < 2 ^ 64)
    (h4 : 4 ≤ ws.length) :
    ∃ k v, createRandomBits (Vec.ofList ws) threshold seed = ok (k, v) ∧ v.len = ws.length :=
  (C35_iff ws threshold seed hn).2.2 fun h => absurd h.1 (Nat.not_lt.2 h4)

/-- C35 is false: the empty vector. -/
theorem C35_false : ¬ C35_full := fun h =>
  h [] 5#64 13#64 (by decide) ((C35_iff [] 5#64 13#64 (by decide)).1.2
    ⟨by decide, by simp, fun i hi => absurd hi (Nat.not_lt_zero i)⟩)

/-- Another witness, with three words and the smallest threshold. -/
example : createRandomBits (Vec.ofList [0#64, 0#64, 0#64]) 0#64 13#64 = ub .oob :=
  (C35_iff _ _ _ (by decide)).1.2 ⟨by decide, by simp, fun i _ h =>
    absurd (BitVec.lt_def.1 h) (Nat.not_lt_zero _)⟩

example : ∃ k v, createRandomBits (Vec.ofList [0#64, 0#64, 0#64, 0#64, 0#64]) 9#64 13#64 = ok (k, v) ∧
    v.len = 5 := C35_partial _ _ _ (by decide) (by decide)

/-- C36: calls number `i` and `j` of `next` return the same value iff `i` and `j` agree modulo 2^64,
so the first 2^64 outputs are distinct and then repeat in the same order. -/
theorem C36_period (seed : Word) (i j : Nat) :
    smNth seed i = smNth seed j ↔ i % 2 ^ 64 = j % 2 ^ 64 := smNth_eq_iff seed i j

/-- C36: every 64-bit value is among the first 2^64 outputs, exactly once. -/
theorem C36_onto (seed v : Word) :
    ∃ i, i < 2 ^ 64 ∧ smNth seed i = v ∧ ∀ j, j < 2 ^ 64 → smNth seed j = v → j = i := by
  obtain ⟨i, hi, e⟩ := smNth_surj seed v
  refine ⟨i, hi, e, fun j hj ej => ?_⟩
  have := (smNth_eq_iff seed j i).1 (ej.trans e.symm)
  rwa [Nat.mod_eq_of_lt hi, Nat.mod_eq_of_lt hj] at this

/-- Generators with different seeds differ in their first output. -/
theorem C36_seeds (s1 s2 : Word) : smNth s1 0 = smNth s2 0 ↔ s1 = s2 := by
  constructor
  · intro h
    rw [smNth_eq, smNth_eq] at h
    exact (BitVec.add_left_inj _).1 (smMix_inj h)
  · rintro rfl; rfl

/-- Reference values of splitmix64 (seed 1234567) and an instance of C36. -/
example : smNth 1234567#64 0 = 6457827717110365317#64 ∧ smNth 1234567#64 1 = 3203168211198807973#64 ∧
    smNth 1234567#64 0 ≠ smNth 1234567#64 (2 ^ 63) ∧ smNth 1234567#64 5 = smNth 1234567#64 (2 ^ 64 + 5) :=
  ⟨by decide +kernel, by decide +kernel, fun h => absurd ((C36_period _ _ _).1 h) (by decide),
    (C36_period _ _ _).2 (by decide)⟩

end MRS.Props
