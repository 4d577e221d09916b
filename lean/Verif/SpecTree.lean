/-!
# Specification of the vendored Fenwick trees (include/hft)

An array of integers, 1-based; what the interface of fenwick_tree.hpp promises about it.  No
definition of the model is used.
-/

set_option autoImplicit false

namespace MRS.Spec.Tree

/-- Sum of the first `i` elements. -/
def pre (A : List Int) (i : Nat) : Int := (A.take i).sum

/-- Element `i` (counting from 1) increased by `d`; indices outside the array change nothing. -/
def addAt (A : List Int) (i : Nat) (d : Int) : List Int :=
  if i = 0 then A else A.modify (i - 1) (· + d)

/-- The array after a history of updates. -/
def after (A : List Int) (ops : List (Nat × Int)) : List Int :=
  ops.foldl (fun A op => addAt A op.1 op.2) A

/-- Every element is between 0 and `B`. -/
def Within (B : Nat) (A : List Int) : Prop := ∀ a ∈ A, 0 ≤ a ∧ a ≤ B

/-- The array stays within bounds along a history. -/
def StaysWithin (B : Nat) : List Int → List (Nat × Int) → Prop
  | A, [] => Within B A
  | A, op :: ops => Within B A ∧ StaysWithin B (addAt A op.1 op.2) ops

/-- `r` is the largest index whose prefix sum does not exceed `val`. -/
def IsFind (A : List Int) (val r : Nat) : Prop :=
  r ≤ A.length ∧ pre A r ≤ val ∧ ∀ j, j ≤ A.length → pre A j ≤ val → j ≤ r

/-- Number of bits of the numbers up to `B`, at least 1. -/
def bits (B : Nat) : Nat := Nat.log2 B + 1

/-- The complement of every element to `B`. -/
def complement (B : Nat) (A : List Int) : List Int := A.map fun a => (B : Int) - a

end MRS.Spec.Tree
