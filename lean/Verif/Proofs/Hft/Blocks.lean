import Verif.Proofs.Hft.Limits
import Verif.Model.Hft.Hybrid

/-! # Arrays cut into blocks: what the two layers of Hybrid hold -/

set_option autoImplicit false

namespace MRS.Hft
open Outcome Spec.Tree

theorem ext_getD {A B : List Int} (hl : A.length = B.length)
    (h : ∀ i, i < A.length → A.getD i 0 = B.getD i 0) : A = B := by
  apply List.ext_getElem hl
  intro i h1 h2
  have := h i h1
  simp only [List.getD_eq_getElem?_getD, List.getElem?_eq_getElem h1, List.getElem?_eq_getElem h2,
    Option.getD_some] at this
  exact this

/-- Sums of whole blocks of `C` elements. -/
def topArr (C : Nat) (A : List Int) : List Int :=
  (List.range (A.length / C)).map fun i => pre A ((i + 1) * C) - pre A (i * C)

/-- The first `C - 1` elements of block `i`. -/
def botArr (C : Nat) (A : List Int) (i : Nat) : List Int := (A.drop (i * C)).take (C - 1)

theorem topArr_length (C : Nat) (A : List Int) : (topArr C A).length = A.length / C := by
  simp [topArr]

theorem botArr_length (C : Nat) (A : List Int) (i : Nat) :
    (botArr C A i).length = min (C - 1) (A.length - i * C) := by
  simp [botArr]

theorem topArr_getD {C : Nat} {A : List Int} {i : Nat} (h : i < A.length / C) :
    (topArr C A).getD i 0 = pre A ((i + 1) * C) - pre A (i * C) := by
  simp [topArr, List.getD_eq_getElem?_getD, h]

theorem botArr_getD (C : Nat) (A : List Int) (i j : Nat) :
    (botArr C A i).getD j 0 = if j < C - 1 then A.getD (i * C + j) 0 else 0 := by
  unfold botArr
  simp only [List.getD_eq_getElem?_getD, List.getElem?_take]
  by_cases h : j < C - 1
  · simp [h]
  · simp [h]

theorem pre_topArr {C : Nat} {A : List Int} : ∀ {j : Nat}, j ≤ A.length / C →
    pre (topArr C A) j = pre A (j * C)
  | 0, _ => by simp [pre_zero]
  | j + 1, h => by
    rw [pre_succ, pre_topArr (by omega), topArr_getD (by omega)]; omega

theorem pre_botArr {C : Nat} {A : List Int} {i : Nat} : ∀ {j : Nat}, j ≤ C - 1 →
    pre (botArr C A i) j = pre A (i * C + j) - pre A (i * C)
  | 0, _ => by simp [pre_zero]
  | j + 1, h => by
    rw [pre_succ, pre_botArr (by omega), botArr_getD, if_pos (by omega), ← Nat.add_assoc, pre_succ]
    omega

theorem topArr_within {B C : Nat} {A : List Int} (h : Within B A) : Within (B * C) (topArr C A) := by
  intro a ha
  simp only [topArr, List.mem_map] at ha
  obtain ⟨i, -, rfl⟩ := ha
  have := within_range h (i * C) C
  rw [Nat.add_mul, Nat.one_mul]
  exact this

theorem botArr_within {B C : Nat} {A : List Int} (h : Within B A) (i : Nat) :
    Within B (botArr C A i) :=
  fun a ha => h a (List.mem_of_mem_drop (List.mem_of_mem_take ha))

/-- The element of the block sums that an update of element `idx` changes. -/
def topIdx (C idx : Nat) : Nat := if idx % C = 0 then idx / C else idx / C + 1

theorem block_iff {C idx i : Nat} (hC : 0 < C) (h0 : 0 < idx) :
    i = topIdx C idx - 1 ↔ i * C < idx ∧ idx ≤ (i + 1) * C := by
  have hdm := Nat.div_add_mod idx C
  have hm := Nat.mod_lt idx hC
  unfold topIdx
  rw [Nat.mul_comm] at hdm
  constructor
  · intro h
    split at h
    · rename_i hz
      have hq : 0 < idx / C := by
        rcases Nat.eq_zero_or_pos (idx / C) with e | e
        · rw [e] at hdm; omega
        · exact e
      subst h
      rw [Nat.sub_add_cancel hq, Nat.sub_mul, Nat.one_mul]
      have : C ≤ idx / C * C := Nat.le_mul_of_pos_left _ hq
      omega
    · subst h
      rw [Nat.add_sub_cancel, Nat.add_mul, Nat.one_mul]
      omega
  · rintro ⟨h1, h2⟩
    split
    · rename_i hz
      have e : idx = idx / C * C := by omega
      rw [e] at h1 h2
      have h3 := Nat.lt_of_mul_lt_mul_right h1
      have h4 := Nat.le_of_mul_le_mul_right h2 hC
      omega
    · rename_i hz
      rw [Nat.add_sub_cancel]
      apply Nat.le_antisymm
      · exact (Nat.le_div_iff_mul_le hC).2 (by omega)
      · apply Nat.le_of_lt_succ
        rw [Nat.div_lt_iff_lt_mul hC, Nat.succ_eq_add_one]
        rcases Nat.lt_or_ge idx ((i + 1) * C) with h | h
        · exact h
        · have : idx = (i + 1) * C := by omega
          rw [this, Nat.mul_mod_left] at hz
          exact absurd rfl hz

/-- An update changes one block sum. -/
theorem addAt_topArr {C : Nat} {A : List Int} {idx : Nat} (d : Int) (hC : 0 < C) (h0 : 0 < idx)
    (hn : idx ≤ A.length) : addAt (topArr C A) (topIdx C idx) d = topArr C (addAt A idx d) := by
  have hl : (topArr C (addAt A idx d)).length = A.length / C := by rw [topArr_length, addAt_length]
  have htop : 0 < topIdx C idx := by
    unfold topIdx
    split
    · rename_i hz
      have hdm := Nat.div_add_mod idx C
      rcases Nat.eq_zero_or_pos (idx / C) with e | e
      · rw [e] at hdm; omega
      · exact e
    · exact Nat.succ_pos _
  apply ext_getD
  · rw [addAt_length, topArr_length, hl]
  · intro i hi
    rw [addAt_length, topArr_length] at hi
    rw [topArr_getD (by rw [addAt_length]; exact hi), pre_addAt A idx d h0 hn, pre_addAt A idx d h0 hn]
    have hb := block_iff (i := i) hC h0
    have hmul : i * C ≤ (i + 1) * C := Nat.mul_le_mul_right _ (by omega)
    by_cases hout : (topArr C A).length < topIdx C idx
    · rw [addAt_out _ _ _ hout, topArr_getD hi]
      rw [topArr_length] at hout
      have hne : ¬ i = topIdx C idx - 1 := by omega
      rw [hb] at hne
      by_cases h1 : idx ≤ (i + 1) * C
      · rw [if_pos h1, if_pos (by omega)]; omega
      · rw [if_neg h1, if_neg (by omega)]; omega
    · rw [addAt_getD _ _ _ _ htop (by omega), topArr_getD hi]
      by_cases h2 : i = topIdx C idx - 1
      · have h3 := hb.1 h2
        rw [if_pos h2, if_pos h3.2, if_neg (by omega)]; omega
      · rw [if_neg h2]
        rw [hb] at h2
        by_cases h1 : idx ≤ (i + 1) * C
        · rw [if_pos h1, if_pos (by omega)]; omega
        · rw [if_neg h1, if_neg (by omega)]; omega

/-- An update inside a block changes the small array of that block. -/
theorem addAt_botArr {C : Nat} {A : List Int} {idx : Nat} (d : Int) (hC : 0 < C)
    (hn : idx ≤ A.length) (hm : idx % C ≠ 0) :
    addAt (botArr C A (idx / C)) (idx % C) d = botArr C (addAt A idx d) (idx / C) := by
  have hdm := Nat.div_add_mod idx C
  have hlt := Nat.mod_lt idx hC
  rw [Nat.mul_comm] at hdm
  have h0 : 0 < idx := by
    rcases Nat.eq_zero_or_pos idx with e | e
    · subst e; simp at hm
    · exact e
  apply ext_getD
  · rw [addAt_length, botArr_length, botArr_length, addAt_length]
  · intro j hj
    rw [addAt_length, botArr_length] at hj
    have hj' : j < C - 1 := by omega
    rw [addAt_getD _ _ _ _ (by omega) (by rw [botArr_length]; omega), botArr_getD, botArr_getD,
      if_pos hj', if_pos hj', addAt_getD _ _ _ _ h0 hn]
    by_cases h : j = idx % C - 1
    · rw [if_pos h, if_pos (by omega)]
    · rw [if_neg h, if_neg (by omega)]

/-- The other small arrays stay. -/
theorem botArr_addAt {C : Nat} {A : List Int} {idx i : Nat} (d : Int) (hC : 0 < C)
    (h0 : 0 < idx) (hn : idx ≤ A.length) (h : idx % C = 0 ∨ i ≠ idx / C) :
    botArr C (addAt A idx d) i = botArr C A i := by
  have hdm := Nat.div_add_mod idx C
  have hlt := Nat.mod_lt idx hC
  rw [Nat.mul_comm] at hdm
  apply ext_getD
  · rw [botArr_length, botArr_length, addAt_length]
  · intro j hj
    rw [botArr_length, addAt_length] at hj
    rw [botArr_getD, botArr_getD, if_pos (by omega), if_pos (by omega), addAt_getD _ _ _ _ h0 hn, if_neg]
    · omega
    · intro e
      have hi : idx = i * C + (j + 1) := by omega
      have h1 : idx / C = i := by
        rw [hi, Nat.mul_comm, Nat.mul_add_div hC, Nat.div_eq_of_lt (by omega)]; omega
      have h2 : idx % C = j + 1 := by
        rw [hi, Nat.mul_comm, Nat.mul_add_mod, Nat.mod_eq_of_lt (by omega)]
      omega

/-- Complementing commutes with cutting. -/
theorem complement_topArr (B C : Nat) (A : List Int) :
    complement (B * C) (topArr C A) = topArr C (complement B A) := by
  apply ext_getD
  · rw [complement_length, topArr_length, topArr_length, complement_length]
  · intro i hi
    rw [complement_length, topArr_length] at hi
    have hle : (i + 1) * C ≤ A.length :=
      Nat.le_trans (Nat.mul_le_mul_right _ hi) (Nat.div_mul_le_self _ _)
    have hle' : i * C ≤ A.length :=
      Nat.le_trans (Nat.mul_le_mul_right _ (Nat.le_succ i)) hle
    rw [topArr_getD (by rw [complement_length]; exact hi), pre_complement B A _ hle,
      pre_complement B A _ hle']
    have : (complement (B * C) (topArr C A)).getD i 0 = (B * C : Nat) - (topArr C A).getD i 0 := by
      have hi' : i < (topArr C A).length := by rw [topArr_length]; exact hi
      simp [complement, List.getD_eq_getElem?_getD, hi']
    rw [this, topArr_getD hi, Nat.add_mul, Nat.one_mul, Nat.mul_add]
    omega

theorem complement_botArr (B C : Nat) (A : List Int) (i : Nat) :
    complement B (botArr C A i) = botArr C (complement B A) i := by
  simp [complement, botArr, List.map_take, List.map_drop]

/-- Two searches, in the blocks and in the block, make a search. -/
theorem isFind_blocks {C : Nat} {A : List Int} {val t b : Nat} {v' : Nat} (hC : 0 < C)
    (hA : ∀ a ∈ A, 0 ≤ a) (ht : Spec.Tree.IsFind (topArr C A) val t)
    (hv : (v' : Int) = val - pre A (t * C)) (hb : Spec.Tree.IsFind (botArr C A t) v' b) :
    Spec.Tree.IsFind A val (t * C + b) ∧ (v' : Int) - pre (botArr C A t) b = val - pre A (t * C + b) := by
  obtain ⟨t1, t2, t3⟩ := ht
  obtain ⟨b1, b2, b3⟩ := hb
  rw [topArr_length] at t1
  rw [botArr_length] at b1
  have htn : t * C ≤ A.length := Nat.le_trans (Nat.mul_le_mul_right _ t1) (Nat.div_mul_le_self _ _)
  have e := pre_botArr (C := C) (A := A) (i := t) (j := b) (by omega)
  refine ⟨⟨by omega, by omega, fun j hj hp => ?_⟩, by omega⟩
  have hdm := Nat.div_add_mod j C
  have hlt := Nat.mod_lt j hC
  rw [Nat.mul_comm] at hdm
  have hq : j / C ≤ A.length / C := Nat.div_le_div_right hj
  have h1 : j / C ≤ t := t3 _ (by rw [topArr_length]; exact hq) (by
    rw [pre_topArr hq]
    exact Int.le_trans (pre_le hA (by omega)) hp)
  rcases Nat.lt_or_ge (j / C) t with h2 | h2
  · have : (j / C + 1) * C ≤ t * C := Nat.mul_le_mul_right _ h2
    rw [Nat.add_mul, Nat.one_mul] at this
    omega
  · have h3 : j / C = t := by omega
    rw [h3] at hdm
    have h4 := b3 (j % C) (by rw [botArr_length]; omega) (by
      rw [pre_botArr (by omega), hdm]; omega)
    omega

end MRS.Hft
