import Verif.Model.Util
import Verif.Model.Usage

/-!
# Model of the repository's test of `mutable_bitmap`

test/test_mutable_bitmap.hpp: a random bitmap, `rank` of every position and `select` of every one
against values counted along the words, 5000 random flips, and both loops again.  A failing
`REQUIRE_MESSAGE` throws and so ends the test case; it is an `abort` here.  The two seeds
(`essentials::get_random_seed()`, the clock) are parameters.
-/

set_option autoImplicit false

namespace MRS.Test
open Outcome

/-- `REQUIRE_MESSAGE(cond, …)`.  test_mutable_bitmap.hpp:41-43, 69-72. -/
def requireMsg (cond : Bool) : Outcome Unit := if cond then ok () else abort

/-- `bits_in_word`, `word_index`, `word`: the next bit to look at.
test_mutable_bitmap.hpp:23-25, 50-52. -/
structure Walk where
  left : Nat
  idx : Nat
  word : Word

/-- The part of the inner loops that steps to the next bit: shift the word, count down, load the next
word after the last bit.  The flag is set by the `break` at the end of the words.
test_mutable_bitmap.hpp:31-37, 58-64 (`++expected` of line 59 is in `selectWhile`). -/
def Walk.next (bits : Vec Word) (s : Walk) : Outcome (Bool × Walk) :=
  let word := s.word >>> 1
  let left := sub64 s.left 1
  if left = 0 then
    let idx := add64 s.idx 1
    if idx = bits.len then ok (true, ⟨left, idx, word⟩)
    else do
      let w ← bits.get idx
      ok (false, ⟨64, idx, w⟩)
  else ok (false, ⟨left, s.idx, word⟩)

/-- Locals of the lambda `rank`.  test_mutable_bitmap.hpp:23-27. -/
structure RankSt where
  walk : Walk
  pos : Nat
  expected : Nat

/-- `while (true)` of the lambda `rank`; `pos++ == i` compares before it increments.  The first
argument bounds the iterations.  test_mutable_bitmap.hpp:29-39. -/
def rankWhile (bits : Vec Word) (i : Nat) : Nat → RankSt → Outcome RankSt
  | 0, _ => ub .diverges
  | n + 1, s => do
    let expected := add64 s.expected (s.walk.word &&& 1#64).toNat
    let r ← s.walk.next bits
    if r.1 then ok ⟨r.2, s.pos, expected⟩
    else if s.pos = i then ok ⟨r.2, add64 s.pos 1, expected⟩
    else rankWhile bits i n ⟨r.2, add64 s.pos 1, expected⟩

/-- No inner loop makes more iterations than this: every 64 iterations, or every `2^64` if
`bits_in_word` starts at zero, the next word is loaded. -/
@[irreducible] def fuel (bits : Vec Word) : Nat := W64 * (bits.len + 2)

/-- The lambda `rank`, with the method `rank` of the object as a parameter.
test_mutable_bitmap.hpp:20-45. -/
def rankPhase (bits : Vec Word) (numBits : Nat) (rank : Nat → Outcome Nat) : Outcome Unit := do
  let w ← bits.get 0
  let _ ← forN numBits (fun i s => do
    let s ← rankWhile bits i (fuel bits) s
    let got ← rank i
    requireMsg (decide (got = s.expected))
    ok s) ⟨⟨64, 0, w⟩, 0, 0⟩
  ok ()

/-- Locals of the lambda `select`.  test_mutable_bitmap.hpp:50-54. -/
structure SelectSt where
  walk : Walk
  expected : Nat
  ones : Nat

/-- `while (true)` of the lambda `select`.  test_mutable_bitmap.hpp:56-67. -/
def selectWhile (bits : Vec Word) (i : Nat) : Nat → SelectSt → Outcome SelectSt
  | 0, _ => ub .diverges
  | n + 1, s => do
    let ones := add64 s.ones (s.walk.word &&& 1#64).toNat
    let expected := add64 s.expected 1
    let r ← s.walk.next bits
    if r.1 then ok ⟨r.2, expected, ones⟩
    else if ones = add64 i 1 then ok ⟨r.2, expected, ones⟩
    else selectWhile bits i n ⟨r.2, expected, ones⟩

/-- The lambda `select`, with the method `select` of the object as a parameter; `expected` starts at
`-1`.  test_mutable_bitmap.hpp:47-74. -/
def selectPhase (bits : Vec Word) (numOnes : Nat) (select : Nat → Outcome Nat) : Outcome Unit := do
  let w ← bits.get 0
  let _ ← forN numOnes (fun i s => do
    let s ← selectWhile bits i (fuel bits) s
    let got ← select i
    requireMsg (decide (got = s.expected))
    ok s) ⟨⟨64, 0, w⟩, W64 - 1, 0⟩
  ok ()

/-- `num_flips`.  test_mutable_bitmap.hpp:79. -/
def numFlips : Nat := 5000

/-- The random flips.  test_mutable_bitmap.hpp:80-85. -/
def flipPhase (c : Config) (seed : Word) (bm : Bitmap) : Outcome Bitmap :=
  forN numFlips (fun i bm => bmFlip c bm ((smNth seed i).toNat % bmSize bm)) bm

/-- `test_mutable_bitmap<MutableBitmap>(num_bits, density)`.  test_mutable_bitmap.hpp:6-91.
`threshold` is `UINT64_MAX * density` (line 15) and `seed1`, `seed2` the two random seeds (lines 16,
80).  `g ph i` is what uninitialised scratch memory holds in query `i` of phase `ph`.  `num_ones` is
counted once, before the flips (line 15). -/
def testBitmap (c : Config) (addr numBits : Nat) (threshold seed1 seed2 : Word)
    (g : Nat → Nat → Scratch) : Outcome Unit := do
  massert c.b (256 ≤ numBits)
  let r ← createRandomBits (Vec.ofList (List.replicate ((numBits + 63) / 64) 0#64)) threshold seed1
  let bm ← bmBuild c addr (Vec.ofList r.2.toList) r.2.toList.length Bitmap.empty
  rankPhase bm.bits numBits fun i => bmRank c (g 0 i) bm i
  selectPhase bm.bits r.1 fun i => bmSelect c (g 1 i) bm i
  let bm ← flipPhase c seed2 bm
  rankPhase bm.bits numBits fun i => bmRank c (g 2 i) bm i
  selectPhase bm.bits r.1 fun i => bmSelect c (g 3 i) bm i

end MRS.Test
