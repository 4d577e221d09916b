import Verif.Proofs.Mranisz.CF
import Verif.Proofs.BitmapSpec

/-! # Compressed rank: the model's text and the specification's -/

set_option autoImplicit false

namespace MRS.Mran
open Outcome Spec

/-- The text as the model sees it. -/
def textOf (X : List Byte) : Vec Byte := ⟨X.length, fun k => X.getD k 0#8⟩

theorem bits_length (X : List Byte) : (Text.bits X).length = 8 * X.length := by
  induction X with
  | nil => rfl
  | cons w X ih =>
    unfold Text.bits at *
    rw [List.flatMap_cons, List.length_append, ih]
    simp
    omega

theorem tbyte_textOf (X : List Byte) (k : Nat) : tbyte (textOf X) k = X.getD k 0#8 := by
  unfold tbyte textOf
  simp only []
  split
  · rfl
  · rename_i h
    rw [List.getD_eq_getElem?_getD, List.getElem?_eq_none (by omega)]; rfl

theorem bits_get (X : List Byte) : ∀ i, i < 8 * X.length →
    (Text.bits X)[i]? = some (tbit (textOf X) i) := by
  induction X with
  | nil => intro i hi; simp at hi
  | cons w X ih =>
    intro i hi
    unfold Text.bits at *
    rw [List.flatMap_cons]
    by_cases h : i < 8
    · rw [List.getElem?_append_left (by simpa using h)]
      unfold tbit
      rw [tbyte_textOf, Nat.div_eq_of_lt h, Nat.mod_eq_of_lt h]
      simp [h]
    · rw [List.getElem?_append_right (by simp; omega)]
      simp only [List.length_map, List.length_range]
      rw [ih (i - 8) (by rw [List.length_cons] at hi; omega)]
      unfold tbit
      rw [tbyte_textOf, tbyte_textOf]
      have e1 : (i - 8) % 8 = i % 8 := by omega
      have e2 : i / 8 = (i - 8) / 8 + 1 := by omega
      rw [e1, e2]
      simp

theorem ones_T (X : List Byte) (p : Nat) : ones (Text.bits X) p = T (textOf X) p := by
  have key : ∀ p, p ≤ 8 * X.length → ones (Text.bits X) p = T (textOf X) p := by
    intro p
    induction p with
    | zero => intro _; rw [T_zero]; rfl
    | succ p ih =>
      intro h
      have hl : p < (Text.bits X).length := by rw [bits_length]; omega
      have hg := bits_get X p (by omega)
      rw [List.getElem?_eq_getElem hl] at hg
      injection hg with hg
      rw [ones_succ hl, ih (by omega), T_succ, hg]
      cases tbit (textOf X) p <;> rfl
  by_cases h : p ≤ 8 * X.length
  · exact key p h
  · rw [T_beyond _ (show 8 * (textOf X).len ≤ p by show 8 * X.length ≤ p; omega)]
    show _ = T (textOf X) (8 * X.length)
    rw [← key _ (Nat.le_refl _)]
    unfold ones
    rw [List.take_of_length_le (by rw [bits_length]; omega), List.take_of_length_le (by rw [bits_length]; omega)]

theorem nblk_blocks (X : List Byte) : nblk (textOf X) = Text.blocks X := nblk_eq _

theorem byte_all {c : Byte} {b : Bool} (h : ∀ j, j < 8 → c.getLsbD (7 - j) = b) :
    c = if b then 255#8 else 0#8 := by
  apply BitVec.eq_of_getLsbD_eq
  intro l hl
  have h1 := h (7 - l) (by omega)
  rw [show 7 - (7 - l) = l by omega] at h1
  rw [h1]
  have : ∀ l : Fin 8, (255#8).getLsbD l.1 = true := by decide
  cases b
  · simp
  · exact (this ⟨l, hl⟩).symm

theorem getD_bit {X : List Byte} {k j : Nat} (hj : j < 8) :
    (X.getD k 0#8).getLsbD (7 - j) = tbit (textOf X) (8 * k + j) := by
  unfold tbit
  rw [tbyte_textOf, show (8 * k + j) / 8 = k by omega, show (8 * k + j) % 8 = j by omega]

theorem homog_iff (X : List Byte) (q : Nat) : Text.Homog X q ↔ Hom (textOf X) q := by
  constructor
  · rintro ⟨b, h⟩
    have hlen : 512 * q + 512 ≤ 8 * X.length := by
      have := congrArg List.length h
      rw [List.length_take, List.length_drop, List.length_replicate, bits_length] at this
      omega
    have hbit : ∀ i, i < 512 → tbit (textOf X) (512 * q + i) = b := by
      intro i hi
      have h1 := congrArg (fun l => l[i]?) h
      rw [List.getElem?_take, if_pos hi, List.getElem?_drop, bits_get X _ (by omega),
        List.getElem?_replicate, if_pos hi] at h1
      injection h1
    have hbyte : ∀ j, j < 64 → (textOf X).f (64 * q + j) = if b then 255#8 else 0#8 := by
      intro j hj
      show X.getD (64 * q + j) 0#8 = _
      apply byte_all
      intro m hm
      rw [getD_bit hm, show 8 * (64 * q + j) + m = 512 * q + (8 * j + m) by omega]
      exact hbit _ (by omega)
    refine ⟨by show 64 * q + 64 ≤ X.length; omega, ?_⟩
    cases b
    · exact Or.inl hbyte
    · exact Or.inr hbyte
  · rintro ⟨h1, h2⟩
    have h1' : 64 * q + 64 ≤ X.length := h1
    have hall : ∀ b : Bool, (∀ i, i < 512 → tbit (textOf X) (512 * q + i) = b) → Text.Homog X q := by
      intro b hb
      refine ⟨b, ?_⟩
      apply List.ext_getElem?
      intro i
      by_cases hi : i < 512
      · rw [List.getElem?_take, if_pos hi, List.getElem?_drop, bits_get X _ (by omega),
          List.getElem?_replicate, if_pos hi, hb i hi]
      · rw [List.getElem?_take, if_neg hi, List.getElem?_replicate, if_neg hi]
    have hall255 : ∀ l : Fin 8, (255#8).getLsbD (7 - l.1) = true := by decide
    rcases h2 with h2 | h2
    · apply hall false
      intro i hi
      unfold tbit
      rw [tbyte_textOf, show (512 * q + i) / 8 = 64 * q + i / 8 by omega]
      have : X.getD (64 * q + i / 8) 0#8 = 0#8 := h2 _ (by omega)
      rw [this]; simp
    · apply hall true
      intro i hi
      unfold tbit
      rw [tbyte_textOf, show (512 * q + i) / 8 = 64 * q + i / 8 by omega]
      have : X.getD (64 * q + i / 8) 0#8 = 255#8 := h2 _ (by omega)
      rw [this]; exact hall255 ⟨(512 * q + i) % 8, by omega⟩

theorem ne_countP (X : List Byte) (n : Nat) :
    (List.range n).countP (fun q => decide (¬ Text.Homog X q)) = ne (textOf X) n := by
  induction n with
  | zero => rfl
  | succ n ih =>
    rw [List.range_succ, List.countP_append, ih, ne_succ]
    by_cases h : Hom (textOf X) n
    · have h' := (homog_iff X n).2 h
      rw [if_pos h]; simp [h']
    · have h' : ¬ Text.Homog X n := fun hh => h ((homog_iff X n).1 hh)
      rw [if_neg h]; simp [h']

theorem ne_mixed (X : List Byte) : ne (textOf X) (nblk (textOf X)) = Text.mixed X := by
  rw [nblk_blocks]; exact (ne_countP X _).symm

/-! ## Words as text -/

theorem bytesOf_length (ws : List Word) : (Text.bytesOf ws).length = 8 * ws.length := by
  induction ws with
  | nil => rfl
  | cons w ws ih =>
    unfold Text.bytesOf at *
    rw [List.flatMap_cons, List.length_append, ih]
    simp
    omega

theorem bytesOf_get (ws : List Word) : ∀ k, k < 8 * ws.length →
    (Text.bytesOf ws)[k]? = some ((ws.getD (k / 8) 0#64).extractLsb' (8 * (k % 8)) 8) := by
  induction ws with
  | nil => intro i hi; simp at hi
  | cons w ws ih =>
    intro i hi
    unfold Text.bytesOf at *
    rw [List.flatMap_cons]
    by_cases h : i < 8
    · rw [List.getElem?_append_left (by simpa using h)]
      rw [Nat.div_eq_of_lt h, Nat.mod_eq_of_lt h]
      simp [h]
    · rw [List.getElem?_append_right (by simp; omega)]
      simp only [List.length_map, List.length_range]
      rw [ih (i - 8) (by rw [List.length_cons] at hi; omega)]
      have e1 : (i - 8) % 8 = i % 8 := by omega
      have e2 : i / 8 = (i - 8) / 8 + 1 := by omega
      rw [e1, e2]
      simp

theorem wordBytes_textOf (ws : List Word) : wordBytes (Vec.ofList ws) = textOf (Text.bytesOf ws) := by
  unfold wordBytes textOf Vec.ofList
  simp only []
  congr 1
  · rw [bytesOf_length]; omega
  · funext k
    by_cases h : k < 8 * ws.length
    · rw [List.getD_eq_getElem?_getD, List.getD_eq_getElem?_getD, bytesOf_get ws k h,
        List.getD_eq_getElem?_getD]
      rfl
    · rw [List.getD_eq_getElem?_getD, List.getD_eq_getElem?_getD,
        List.getElem?_eq_none (by omega), List.getElem?_eq_none (by rw [bytesOf_length]; omega)]
      apply BitVec.eq_of_getLsbD_eq
      intro l hl
      simp

theorem bytes_get (ws : List Word) {i : Nat} (h : i < 64 * ws.length) :
    (Text.bits (Text.bytesOf ws))[i]? = (bitsOf ws)[8 * (i / 8) + (7 - i % 8)]? := by
  have hlt : 8 * (i / 8) + (7 - i % 8) < 64 * ws.length := by omega
  rw [bits_get _ i (by rw [bytesOf_length]; omega), bitsOf_get _ _ hlt]
  unfold tbit
  rw [tbyte_textOf, List.getD_eq_getElem?_getD, bytesOf_get ws _ (by omega)]
  show some ((BitVec.extractLsb' _ 8 _).getLsbD _) = _
  rw [BitVec.getLsbD_extractLsb', show i / 8 / 8 = (8 * (i / 8) + (7 - i % 8)) / 64 by omega,
    show 8 * (i / 8 % 8) + (7 - i % 8) = (8 * (i / 8) + (7 - i % 8)) % 64 by omega,
    decide_eq_true (by omega), Bool.true_and]

theorem ones_next {B : List Bool} {i : Nat} {b : Bool} (h : B[i]? = some b) :
    ones B (i + 1) = ones B i + b.toNat := by
  unfold ones
  rw [List.take_add_one, List.count_append, h]
  cases b <;> simp

/-- Whole bytes count the same in either order of bits. -/
theorem ones_bytes (ws : List Word) (m : Nat) (h : m ≤ 8 * ws.length) :
    ones (Text.bits (Text.bytesOf ws)) (8 * m) = ones (bitsOf ws) (8 * m) := by
  induction m with
  | zero => rfl
  | succ m ih =>
    have hb : ∀ j, j < 8 → ∃ b, (bitsOf ws)[8 * m + j]? = some b ∧
        (Text.bits (Text.bytesOf ws))[8 * m + (7 - j)]? = some b := by
      intro j hj
      have hl : 8 * m + j < 64 * ws.length := by omega
      refine ⟨_, bitsOf_get ws _ hl, ?_⟩
      rw [bytes_get ws (by omega), ← bitsOf_get ws _ hl]
      congr 1; omega
    obtain ⟨b0, l0, r0⟩ := hb 0 (by omega)
    obtain ⟨b1, l1, r1⟩ := hb 1 (by omega)
    obtain ⟨b2, l2, r2⟩ := hb 2 (by omega)
    obtain ⟨b3, l3, r3⟩ := hb 3 (by omega)
    obtain ⟨b4, l4, r4⟩ := hb 4 (by omega)
    obtain ⟨b5, l5, r5⟩ := hb 5 (by omega)
    obtain ⟨b6, l6, r6⟩ := hb 6 (by omega)
    obtain ⟨b7, l7, r7⟩ := hb 7 (by omega)
    have u0 := ones_next l0
    have u1 := ones_next l1
    have u2 := ones_next l2
    have u3 := ones_next l3
    have u4 := ones_next l4
    have u5 := ones_next l5
    have u6 := ones_next l6
    have u7 := ones_next l7
    have v0 := ones_next r7
    have v1 := ones_next r6
    have v2 := ones_next r5
    have v3 := ones_next r4
    have v4 := ones_next r3
    have v5 := ones_next r2
    have v6 := ones_next r1
    have v7 := ones_next r0
    have hi := ih (by omega)
    rw [show 8 * (m + 1) = 8 * m + 7 + 1 by omega]
    simp only [Nat.add_assoc, Nat.add_zero, Nat.reduceSub, Nat.reduceAdd] at u0 u1 u2 u3 u4 u5 u6 u7 v0 v1 v2 v3 v4 v5 v6 v7 ⊢
    omega

end MRS.Mran
