import Verif.Proofs.Mranisz.MpeRank
import Verif.Proofs.Mranisz.Link

/-! # Compressed rank with pairs left out: the model's text and the specification's -/

set_option autoImplicit false

namespace MRS.Mran
open Outcome Spec

theorem nblkM_blocks (X : List Byte) : nblkM (textOf X) = Text.blocks128 X := nblkM_eq _

theorem homM_iff (X : List Byte) (q : Nat) : Text.Homog128 X q ↔ HomM (textOf X) q := by
  constructor
  · rintro ⟨b, h⟩
    have hlen : 1024 * q + 1024 ≤ 8 * X.length := by
      have := congrArg List.length h
      rw [List.length_take, List.length_drop, List.length_replicate, bits_length] at this
      omega
    have hbit : ∀ i, i < 1024 → tbit (textOf X) (1024 * q + i) = b := by
      intro i hi
      have h1 := congrArg (fun l => l[i]?) h
      rw [List.getElem?_take, if_pos hi, List.getElem?_drop, bits_get X _ (by omega),
        List.getElem?_replicate, if_pos hi] at h1
      injection h1
    have hbyte : ∀ j, j < 128 → (textOf X).f (128 * q + j) = if b then 255#8 else 0#8 := by
      intro j hj
      show X.getD (128 * q + j) 0#8 = _
      apply byte_all
      intro m hm
      rw [getD_bit hm, show 8 * (128 * q + j) + m = 1024 * q + (8 * j + m) by omega]
      exact hbit _ (by omega)
    refine ⟨by show 128 * q + 128 ≤ X.length; omega, ?_⟩
    cases b
    · exact Or.inl hbyte
    · exact Or.inr hbyte
  · rintro ⟨h1, h2⟩
    have h1' : 128 * q + 128 ≤ X.length := h1
    have hall : ∀ b : Bool, (∀ i, i < 1024 → tbit (textOf X) (1024 * q + i) = b) → Text.Homog128 X q := by
      intro b hb
      refine ⟨b, ?_⟩
      apply List.ext_getElem?
      intro i
      by_cases hi : i < 1024
      · rw [List.getElem?_take, if_pos hi, List.getElem?_drop, bits_get X _ (by omega),
          List.getElem?_replicate, if_pos hi, hb i hi]
      · rw [List.getElem?_take, if_neg hi, List.getElem?_replicate, if_neg hi]
    have hall255 : ∀ l : Fin 8, (255#8).getLsbD (7 - l.1) = true := by decide
    rcases h2 with h2 | h2
    · apply hall false
      intro i hi
      unfold tbit
      rw [tbyte_textOf, show (1024 * q + i) / 8 = 128 * q + i / 8 by omega]
      have : X.getD (128 * q + i / 8) 0#8 = 0#8 := h2 _ (by omega)
      rw [this]; simp
    · apply hall true
      intro i hi
      unfold tbit
      rw [tbyte_textOf, show (1024 * q + i) / 8 = 128 * q + i / 8 by omega]
      have : X.getD (128 * q + i / 8) 0#8 = 255#8 := h2 _ (by omega)
      rw [this]; exact hall255 ⟨(1024 * q + i) % 8, by omega⟩

theorem neM_countP (X : List Byte) (n : Nat) :
    (List.range n).countP (fun q => decide (¬ Text.Homog128 X q)) = neM (textOf X) n := by
  induction n with
  | zero => rfl
  | succ n ih =>
    rw [List.range_succ, List.countP_append, ih, neM_succ]
    by_cases h : HomM (textOf X) n
    · have h' := (homM_iff X n).2 h
      rw [if_pos h]; simp [h']
    · have h' : ¬ Text.Homog128 X n := fun hh => h ((homM_iff X n).1 hh)
      rw [if_neg h]; simp [h']

theorem neM_mixed (X : List Byte) : neM (textOf X) (nblkM (textOf X)) = Text.mixed128 X := by
  rw [nblkM_blocks]; exact (neM_countP X _).symm

theorem blk_textOf (X : List Byte) (q j : Nat) : blk (textOf X) q j = X.getD (128 * q + j) 0#8 := tbyte_textOf _ _

theorem count_pairs (X : List Byte) (q : Nat) (a : Byte) (n : Nat) :
    ((List.range n).map fun p => (X.getD (128 * q + 2 * p) 0#8, X.getD (128 * q + 2 * p + 1) 0#8)).count (a, a) =
      psum (fun p => if blk (textOf X) q (2 * p) == a && blk (textOf X) q (2 * p + 1) == a then 1 else 0) n := by
  induction n with
  | zero => rfl
  | succ n ih =>
    rw [List.range_succ, List.map_append, List.count_append, ih]
    show _ = psum _ n + _
    congr 1
    rw [List.map_cons, List.map_nil, List.count_singleton]
    show _ = if (blk (textOf X) q (2 * n) == a && blk (textOf X) q (2 * n + 1) == a) = true then 1 else 0
    rw [blk_textOf, blk_textOf, Nat.add_assoc]
    rfl

theorem zc_zeros (X : List Byte) (q : Nat) : zc (blk (textOf X) q) 64 = Text.zeros X q :=
  (count_pairs X q 0#8 64).symm

theorem fc_fulls (X : List Byte) (q : Nat) : fc (blk (textOf X) q) 64 = Text.fulls X q :=
  (count_pairs X q 255#8 64).symm

theorem pairs_le (X : List Byte) (q : Nat) : Text.zeros X q + Text.fulls X q ≤ 64 := by
  rw [← zc_zeros, ← fc_fulls]; exact counts_le _ _

/-- Bytes of a stored block. -/
def blockBytes : MpeType → Nat → Nat → Nat
  | .mpe1 => Text.bytes1
  | .mpe2 => Text.bytes2
  | .mpe3 => Text.bytes3

theorem sl_bytes (ty : MpeType) (X : List Byte) (q : Nat) :
    sl ty (textOf X) q = blockBytes ty (Text.zeros X q) (Text.fulls X q) := by
  obtain ⟨h3, h1, h2⟩ := kp_counts (blk (textOf X) q) 64
  have h0 := kp_zero (c := blk (textOf X) q) 64
  rw [← zc_zeros, ← fc_fulls]
  unfold sl kd
  generalize zc (blk (textOf X) q) 64 = z at *
  generalize fc (blk (textOf X) q) 64 = f at *
  have e0 : hdM 0 = 0 := rfl
  have e1 : hdM 1 = 8 := rfl
  have e2 : hdM 2 = 8 := rfl
  have e3 : hdM 3 = 16 := rfl
  cases ty <;> simp only [kindOf, blockBytes, Text.bytes1, Text.bytes2, Text.bytes3] <;> (repeat' split) <;> omega

theorem eo_total (ty : MpeType) (X : List Byte) (n : Nat) :
    eo ty (textOf X) n = Text.total (blockBytes ty) X n := by
  unfold Text.total
  induction n with
  | zero => rfl
  | succ n ih =>
    rw [List.range_succ, List.map_append, List.sum_append, ← ih, eo_succ, sl_bytes]
    have h := homM_iff X n
    by_cases hh : HomM (textOf X) n
    · rw [if_pos hh]; simp [h.2 hh]
    · have h' : ¬ Text.Homog128 X n := fun h' => hh (h.1 h')
      rw [if_neg hh]; simp [h']

end MRS.Mran
