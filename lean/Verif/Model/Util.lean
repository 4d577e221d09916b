import Verif.Model.Machine
import Verif.Model.Word

/-!
# Model of `include/util.hpp`, lines 32-75

The pseudo-random generator and the generator of random bitmaps (`build_node_prefix_sums` of the same
file is in `Model/Node.lean`).
-/

set_option autoImplicit false

namespace MRS
open Outcome

/-- `splitmix64::next` after the increment of the state.  util.hpp:38-40. -/
def smMix (z : Word) : Word :=
  let z := (z ^^^ (z >>> 30)) * 0xBF58476D1CE4E5B9#64
  let z := (z ^^^ (z >>> 27)) * 0x94D049BB133111EB#64
  z ^^^ (z >>> 31)

/-- `splitmix64::next`: the result and the new state `x`.  util.hpp:36-41. -/
def smNext (x : Word) : Word × Word :=
  let x' := x + 0x9E3779B97F4A7C15#64
  (smMix x', x')

/-- The state after `n` calls of `next` on `splitmix64 hasher(seed)`.  util.hpp:34, 36-41. -/
def smState (seed : Word) : Nat → Word
  | 0 => seed
  | n + 1 => (smNext (smState seed n)).2

/-- The value the call of `next` number `n` (from 0) returns. -/
def smNth (seed : Word) (n : Nat) : Word := (smNext (smState seed n)).1

/-- Locals of `create_random_bits`: `hasher.x`, `num_ones`, `bits`.  util.hpp:49-50. -/
structure CrbState where
  x : Word
  numOnes : Nat
  bits : Vec Word

/-- One iteration of the first loop of `create_random_bits`.  util.hpp:52-55. -/
def crbStep (threshold : Word) (i : Nat) (s : CrbState) : Outcome CrbState :=
  let (z, x') := smNext s.x
  if z < threshold then do
    let w ← s.bits.get (i / 64)
    let bits' ← s.bits.set (i / 64) (w ||| (1#64 <<< (i % 64)))
    ok ⟨x', add64 s.numOnes 1, bits'⟩
  else ok { s with x := x' }

/-- The loop that computes `allzero`, at index `i` with `n` iterations left.  util.hpp:61-67. -/
def crbAllZero (bits : Vec Word) (i : Nat) : Nat → Outcome Bool
  | 0 => ok true
  | n + 1 => do
    let w ← bits.get i
    if w ≠ 0#64 then ok false else crbAllZero bits (i + 1) n

/-- `create_random_bits`: the returned count and the vector.  util.hpp:47-74.  `bits.size()` does not
change during the call, so the bound of the first loop is computed once. -/
def createRandomBits (bits : Vec Word) (threshold seed : Word) : Outcome (Nat × Vec Word) := do
  let s ← forN (mul64 bits.len 64) (crbStep threshold) ⟨seed, 0, bits⟩
  let allzero ← crbAllZero s.bits 0 4
  if allzero then do
    let bits' ← s.bits.set 0 1#64
    ok (add64 s.numOnes 1, bits')
  else ok (s.numOnes, s.bits)

end MRS
