import Verif.Model.Tests
import Verif.Model.Block

/-!
# Model of the repository's tests of the block algorithms

test/test_rank_select_algorithms.hpp: the naive rank and select the algorithms are compared with, and
the four test functions.  `goto EXIT` leaves both loops; it is a flag here.
-/

set_option autoImplicit false

namespace MRS.Test
open Outcome

/-- The loop over the bits of one word, shared by the two naive functions; `stop ones pos` is the
condition of `goto EXIT`, the flag tells if it was taken.
test_rank_select_algorithms.hpp:15-20, 35-40. -/
def naiveBits (stop : Nat → Nat → Bool) : Nat → Word → Nat → Nat → Bool × Nat × Nat
  | 0, _, ones, pos => (false, ones, pos)
  | n + 1, word, ones, pos =>
    let ones := add64 ones (word &&& 1#64).toNat
    if stop ones pos then (true, ones, pos)
    else naiveBits stop n (word >>> 1) ones (add64 pos 1)

/-- The loop over the words, at word `w` with `n` of them left: `ones` and `pos` at `EXIT`.
test_rank_select_algorithms.hpp:13-22, 33-42. -/
def naiveWords (stop : Nat → Nat → Bool) (x : Ptr) : Nat → Nat → Nat → Nat → Outcome (Nat × Nat)
  | 0, _, ones, pos => ok (ones, pos)
  | n + 1, w, ones, pos => do
    let word ← x.at w
    let r := naiveBits stop 64 word ones pos
    if r.1 then ok r.2 else naiveWords stop x n (w + 1) r.2.1 r.2.2

/-- `naive_rank_for_words<Words>(x, i)`.  test_rank_select_algorithms.hpp:8-25. -/
def naiveRank (b : Build) (W : Nat) (x : Ptr) (i : Nat) : Outcome Nat := do
  massert b (i < 64 * W)
  let r ← naiveWords (fun _ pos => pos = i) x W 0 0 0
  massert b (r.1 ≤ 64 * W)
  ok r.1

/-- `naive_select_for_words<Words>(x, i)`; the argument of the assertion is only evaluated in debug
builds.  test_rank_select_algorithms.hpp:27-45. -/
def naiveSelect (b : Build) (W : Nat) (x : Ptr) (i : Nat) : Outcome Nat := do
  let t ← (if b.ndebug then ok 0 else naiveRank b W x (64 * W - 1) : Outcome Nat)
  massert b (i < t)
  let i := add64 i 1
  let r ← naiveWords (fun ones _ => ones = i) x W 0 0 0
  massert b (r.2 < 64 * W)
  ok r.2

/-- The words `{distr.next(), …}`; a braced list is evaluated from left to right.
test_rank_select_algorithms.hpp:51-53, 68-71, 86-88, 104-107. -/
def randomWords (W : Nat) (seed : Word) : List Word := (List.range W).map (smNth seed)

/-- The body of the tests of `rank_u256` (`W = 4`) and `rank_u512` (`W = 8`), with the algorithm as a
parameter.  test_rank_select_algorithms.hpp:54-60, 72-78. -/
def testRankWords (b : Build) (W : Nat) (ws : List Word) (alg : Ptr → Nat → Outcome Nat) :
    Outcome Unit :=
  forN (64 * W) (fun i _ => do
    let got ← alg ⟨Vec.ofList ws, 0⟩ i
    let expected ← naiveRank b W ⟨Vec.ofList ws, 0⟩ i
    requireMsg (decide (got = expected))) ()

/-- The body of the tests of `select_u256` and `select_u512`.
test_rank_select_algorithms.hpp:89-96, 108-115. -/
def testSelectWords (b : Build) (W : Nat) (ws : List Word) (alg : Ptr → Nat → Outcome Nat) :
    Outcome Unit := do
  let total ← naiveRank b W ⟨Vec.ofList ws, 0⟩ (64 * W - 1)
  forN total (fun i _ => do
    let got ← alg ⟨Vec.ofList ws, 0⟩ i
    let expected ← naiveSelect b W ⟨Vec.ofList ws, 0⟩ i
    requireMsg (decide (got = expected))) ()

/-- `test_rank_256<Mode>`.  test_rank_select_algorithms.hpp:47-62. -/
def testRank256 (b : Build) (mode : Nat) (g : Nat → Scratch) (seed : Word) : Outcome Unit :=
  testRankWords b 4 (randomWords 4 seed) fun x i => rankU256 b mode (g i) x i

/-- `test_rank_512<Mode>`.  test_rank_select_algorithms.hpp:64-80. -/
def testRank512 (b : Build) (mode : Nat) (g : Nat → Scratch) (seed : Word) : Outcome Unit :=
  testRankWords b 8 (randomWords 8 seed) fun x i => rankU512 b mode (g i) x i

/-- `test_select_256<Mode>`.  test_rank_select_algorithms.hpp:82-98. -/
def testSelect256 (b : Build) (mode : Nat) (g : Nat → Scratch) (seed : Word) : Outcome Unit :=
  testSelectWords b 4 (randomWords 4 seed) fun x i => selectU256 b mode (g i) x i

/-- `test_select_512<Mode>`.  test_rank_select_algorithms.hpp:100-117. -/
def testSelect512 (b : Build) (mode : Nat) (g : Nat → Scratch) (seed : Word) : Outcome Unit :=
  testSelectWords b 8 (randomWords 8 seed) fun x i => selectU512 b mode (g i) x i

end MRS.Test
