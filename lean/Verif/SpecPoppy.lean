import Verif.Spec

/-!
# Specification for `poppy` (include/poppy)

The library numbers the bits of a word from the most significant one.
-/

set_option autoImplicit false

namespace MRS.Spec.Poppy
open MRS.Spec

/-- The bits of a sequence of 64-bit words, most significant bit of each word first. -/
def msbBits (ws : List (BitVec 64)) : List Bool :=
  ws.flatMap fun w => (List.range 64).map fun j => w.getLsbD (63 - j)

/-- Number of superblocks of `2^32` bits; a shorter bitmap is one superblock. -/
def supers (n : Nat) : Nat := max (n / 2 ^ 32) 1

/-- Ones of superblock `i` of a bitmap cut to a multiple of `m` bits. -/
def superOnes (B : List Bool) (n m i : Nat) : Nat :=
  ones B (min (2 ^ 32 * (i + 1)) (n / m * m)) - ones B (min (2 ^ 32 * i) (n / m * m))

/-- Positions whose rank is answered: whole lines of 2048 bits in whole superblocks. -/
def answered (n : Nat) : Nat := if n < 2 ^ 32 then n / 2048 * 2048 else n / 2 ^ 32 * 2 ^ 32

/-- The select samples of every superblock fit in the space reserved for them: the count of ones does
not wrap when it is rounded up, and the ones after the last whole line of 2048 bits need no more
samples. -/
def SamplesFit (B : List Bool) (n : Nat) : Prop :=
  ∀ i, i < supers n → superOnes B n 2048 i ≤ 2 ^ 32 - 8192 ∧
    (superOnes B n 512 i + 8191) / 8192 ≤ (superOnes B n 2048 i + 8191) / 8192

end MRS.Spec.Poppy
