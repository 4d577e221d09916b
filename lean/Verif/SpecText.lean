import Verif.Spec

/-!
# Specification for the compressed rank/select of include/mranisz

A text is a sequence of bytes; its bits are numbered from the most significant bit of the first
byte.
-/

set_option autoImplicit false

namespace MRS.Spec.Text
open MRS.Spec

/-- The bits of a text, most significant bit of each byte first. -/
def bits (T : List (BitVec 8)) : List Bool :=
  T.flatMap fun b => (List.range 8).map fun j => b.getLsbD (7 - j)

/-- The bytes of a sequence of 64-bit words as they lie in memory, least significant byte first. -/
def bytesOf (ws : List (BitVec 64)) : List (BitVec 8) :=
  ws.flatMap fun w => (List.range 8).map fun k => w.extractLsb' (8 * k) 8

/-- Number of blocks of 64 bytes, the last one possibly incomplete. -/
def blocks (T : List (BitVec 8)) : Nat := (T.length + 63) / 64

/-- Block `q` is complete and its 512 bits are all equal. -/
def Homog (T : List (BitVec 8)) (q : Nat) : Prop :=
  ∃ b : Bool, ((bits T).drop (512 * q)).take 512 = List.replicate 512 b

instance (T : List (BitVec 8)) (q : Nat) : Decidable (Homog T q) :=
  decidable_of_iff (((bits T).drop (512 * q)).take 512 = List.replicate 512 false ∨
    ((bits T).drop (512 * q)).take 512 = List.replicate 512 true)
    ⟨fun h => h.elim (fun h => ⟨_, h⟩) (fun h => ⟨_, h⟩),
      fun ⟨b, h⟩ => match b, h with | false, h => Or.inl h | true, h => Or.inr h⟩

/-- Number of blocks that are not homogeneous; only these are kept. -/
def mixed (T : List (BitVec 8)) : Nat :=
  (List.range (blocks T)).countP fun q => decide (¬ Homog T q)

/-- `e` bits are the shortest beginning of `B` with `k` ones. -/
def UpTo (B : List Bool) (k e : Nat) : Prop := ones B e = k ∧ (e = 0 ∨ B[e - 1]? = some true)

instance (B : List Bool) (k e : Nat) : Decidable (UpTo B k e) := inferInstanceAs (Decidable (_ ∧ _))

/-- The ones in groups of `L`: the last group has fewer than `L` ones, but takes `L` bits. -/
def LastWide (B : List Bool) (L : Nat) : Prop :=
  B.count true % L > 0 ∧ ∃ a, UpTo B (B.count true / L * L) a ∧ UpTo B (B.count true) (a + L)

/-- There are fewer than `L` ones and the last one is at position `TH`. -/
def LastAt (B : List Bool) (L TH : Nat) : Prop := B.count true < L ∧ UpTo B (B.count true) (TH + 1)

/-- The ones in groups of `L`: the last group, complete or not, takes `L` bits. -/
def LastTight (B : List Bool) (L : Nat) : Prop :=
  ∃ a, UpTo B ((B.count true + (L - 1)) / L * L - L) a ∧ UpTo B (B.count true) (a + L)

/-- Group `k` of `L` ones takes more than `TH` bits. -/
def GroupWide (B : List Bool) (L TH k : Nat) : Prop :=
  ∃ a b, UpTo B (k * L) a ∧ UpTo B ((k + 1) * L) b ∧ a + TH < b

/-! ## Blocks of 128 bytes -/

/-- Number of blocks of 128 bytes, the last one possibly incomplete. -/
def blocks128 (T : List (BitVec 8)) : Nat := (T.length + 127) / 128

/-- Block `q` of 128 bytes is complete and its 1024 bits are all equal. -/
def Homog128 (T : List (BitVec 8)) (q : Nat) : Prop :=
  ∃ b : Bool, ((bits T).drop (1024 * q)).take 1024 = List.replicate 1024 b

instance (T : List (BitVec 8)) (q : Nat) : Decidable (Homog128 T q) :=
  decidable_of_iff (((bits T).drop (1024 * q)).take 1024 = List.replicate 1024 false ∨
    ((bits T).drop (1024 * q)).take 1024 = List.replicate 1024 true)
    ⟨fun h => h.elim (fun h => ⟨_, h⟩) (fun h => ⟨_, h⟩),
      fun ⟨b, h⟩ => match b, h with | false, h => Or.inl h | true, h => Or.inr h⟩

/-- Number of blocks of 128 bytes that are not homogeneous. -/
def mixed128 (T : List (BitVec 8)) : Nat :=
  (List.range (blocks128 T)).countP fun q => decide (¬ Homog128 T q)

/-- The pairs of bytes of a block of 128 bytes, with zeros after the end of the text. -/
def pairs (T : List (BitVec 8)) (q : Nat) : List (BitVec 8 × BitVec 8) :=
  (List.range 64).map fun p => (T.getD (128 * q + 2 * p) 0#8, T.getD (128 * q + 2 * p + 1) 0#8)

/-- Number of pairs 00 00 of a block, and of pairs FF FF. -/
def zeros (T : List (BitVec 8)) (q : Nat) : Nat := (pairs T q).count (0#8, 0#8)
def fulls (T : List (BitVec 8)) (q : Nat) : Nat := (pairs T q).count (255#8, 255#8)

/-- Bytes for the first `n` blocks if a block that is not homogeneous takes `S` bytes, which depends on its
pairs 00 00 and FF FF. -/
def total (S : Nat → Nat → Nat) (T : List (BitVec 8)) (n : Nat) : Nat :=
  ((List.range n).map fun q => if Homog128 T q then 0 else S (zeros T q) (fulls T q)).sum

/-- The best of: the block, or without its pairs 00 00 and FF FF and with two words. -/
def bytes1 (z f : Nat) : Nat := min 128 (144 - 2 * (z + f))

/-- The best of these and: without its pairs 00 00, or without its pairs FF FF, and with one word. -/
def bytes2 (z f : Nat) : Nat := min (min 128 (136 - 2 * z)) (min (136 - 2 * f) (144 - 2 * (z + f)))

/-- The same choices, taken only if they leave out more. -/
def bytes3 (z f : Nat) : Nat :=
  if 10 ≤ z ∧ 10 ≤ f then 144 - 2 * (z + f) else if 18 ≤ z ∧ f ≤ 9 then 136 - 2 * z
  else if z ≤ 9 ∧ 18 ≤ f then 136 - 2 * f else 128

end MRS.Spec.Text
