/-!
# Specification

What a user of the library relies on, stated without any definition of the model:
bitmaps are lists of booleans, arrays of counters are functions with prefix sums.
-/

set_option autoImplicit false

namespace MRS.Spec

/-- Sum of the first `k` values of `f`. -/
def psum (f : Nat → Nat) : Nat → Nat
  | 0 => 0
  | k + 1 => psum f k + f k

/-- Number of ones among the first `i` bits. -/
def ones (B : List Bool) (i : Nat) : Nat := (B.take i).count true

/-- Inclusive rank: number of ones at positions `0..i`. -/
def rank (B : List Bool) (i : Nat) : Nat := ones B (i + 1)

/-- `p` is the position of the `k`-th one (counting from 0). -/
def IsSelect (B : List Bool) (k p : Nat) : Prop := B[p]? = some true ∧ ones B p = k

/-- The bitmap with bit `i` inverted. -/
def flip (B : List Bool) (i : Nat) : List Bool := B.modify i (!·)

/-- The bitmap after a sequence of flips. -/
def flips (B : List Bool) (is : List Nat) : List Bool := is.foldl flip B

/-- The bits of a sequence of 64-bit words, least significant bit first. -/
def bitsOf (ws : List (BitVec 64)) : List Bool :=
  ws.flatMap fun w => (List.range 64).map fun j => w.getLsbD j

/-- `B` followed by zeros up to the next multiple of `m`. -/
def pad (B : List Bool) (m : Nat) : List Bool := B ++ List.replicate ((m - B.length % m) % m) false

/-- The logical bitmap after building from `ws` with blocks of `m` bits and flipping `is`. -/
def content (m : Nat) (ws : List (BitVec 64)) (is : List Nat) : List Bool :=
  flips (pad (bitsOf ws) m) is

/-- A mutating call on a bitmap object.  `addr` is where the allocator puts the index; no
specification depends on it. -/
inductive Op
  | build (addr : Nat) (ws : List (BitVec 64))
  | flip (i : Nat)

/-- What `build` leaves in an object that held `old`: the new words; the padding of the last block
keeps the bits that were there. -/
def rebuilt (m : Nat) (old : List Bool) (ws : List (BitVec 64)) : List Bool :=
  bitsOf ws ++ (List.range' (bitsOf ws).length ((m - (bitsOf ws).length % m) % m)).map
    fun i => old.getD i false

/-- Effect of a call on the logical bitmap, blocks of `m` bits. -/
def Op.apply (m : Nat) (B : List Bool) : Op → List Bool
  | .build _ ws => rebuilt m B ws
  | .flip i => Spec.flip B i

/-- The logical bitmap after a sequence of calls on a default-constructed object. -/
def history (m : Nat) (ops : List Op) : List Bool := ops.foldl (Op.apply m) []

/-- Number of ones of a word. -/
def wordOnes (w : BitVec 64) : Nat := ((List.range 64).map fun j => w.getLsbD j).count true

/-! ## Arrays of counters -/

/-- Sum of the first `k` values. -/
def total (vals : List Nat) (k : Nat) : Nat := (vals.take k).sum

/-- Add one to (`sign = false`) or subtract one from (`sign = true`) entry `i`. -/
def bump (vals : List Nat) (i : Nat) (sign : Bool) : List Nat :=
  vals.modify i fun v => if sign then v - 1 else v + 1

/-- A sequence of such updates. -/
def bumps (vals : List Nat) (us : List (Nat × Bool)) : List Nat :=
  us.foldl (fun v u => bump v u.1 u.2) vals

/-- Every update hits an existing entry and keeps it between 0 and `M`. -/
def BumpsOK (M : Nat) : List Nat → List (Nat × Bool) → Prop
  | _, [] => True
  | vals, u :: us => u.1 < vals.length ∧ (u.2 = true → 1 ≤ vals.getD u.1 0) ∧
      (u.2 = false → vals.getD u.1 0 + 1 ≤ M) ∧ BumpsOK M (bump vals u.1 u.2) us

end MRS.Spec
