import Verif.Model.Tests
import Verif.Model.Usage

/-!
# Model of the repository's tests of nodes and segment trees

test/test_node.hpp and test/test_tree.hpp.  The array drawn with `uniform_int_rng` is a parameter
(`vals`), and so is the generator of the search arguments: `rng hi i` is draw `i` of
`uniform_int_rng(0, hi, …)`.
-/

set_option autoImplicit false

namespace MRS.Test
open Outcome

abbrev W32 : Nat := 4294967296

/-- The vector `A`. -/
def arrayOf (vals : List Nat) : Vec Nat := ⟨vals.length, fun j => vals.getD j 0⟩

/-- The loop that looks for the position of `x` in the array, at `pos` with `m` entries left:
`expected_position` and `expected_sum`.  test_node.hpp:61-66, test_tree.hpp:62-67. -/
def refSearch (A : Vec Nat) (x : Nat) : Nat → Nat → Nat → Outcome (Nat × Nat)
  | 0, pos, sum => ok (pos, sum)
  | m + 1, pos, sum => do
    let a ← A.get pos
    if x < add64 sum a then ok (pos, sum) else refSearch A x m (pos + 1) (add64 sum a)

/-- The search queries; the method `search` of the object is a parameter.
test_node.hpp:59-75, test_tree.hpp:60-76. -/
def searchPhase (count : Nat) (A : Vec Nat) (x : Nat → Nat) (search : Nat → Outcome (Nat × Nat)) :
    Outcome Unit :=
  forN count (fun i _ => do
    let e ← refSearch A (x i) A.len 0 0
    let got ← search (x i)
    requireMsg (decide (got = e))) ()

/-- `A[i] += delta`, `delta` one or minus one, in an unsigned type with `K` values.
test_node.hpp:43, test_tree.hpp:45. -/
def addDelta (K a : Nat) (sign : Bool) : Nat := (a + if sign then K - 1 else 1) % K

/-! ## Nodes -/

/-- The sum queries.  test_node.hpp:22-33. -/
def nodeSumPhase (A : Vec Nat) (sum : Nat → Outcome Nat) : Outcome Unit := do
  let _ ← forN A.len (fun i expected => do
    let got ← sum i
    let a ← A.get i
    let expected := add64 expected a
    requireMsg (decide (got = expected))
    ok expected) 0
  ok ()

/-- One run of the lambda `update`.  test_node.hpp:39-50. -/
def nodeUpdateRun {σ : Type} (K n : Nat) (sum : σ → Nat → Outcome Nat)
    (update : σ → Nat → Bool → Outcome σ) (sign : Bool) (s : σ × Vec Nat) : Outcome (σ × Vec Nat) := do
  let r ← forN n (fun i (r : (σ × Vec Nat) × Nat) => do
    let s ← update r.1.1 i sign
    let got ← sum s i
    let a ← r.1.2.get i
    let A ← r.1.2.set i (addDelta K a sign)
    let a ← A.get i
    let expected := add64 r.2 a
    requireMsg (decide (got = expected))
    ok ((s, A), expected)) (s, 0)
  ok r.1

/-- The lambda `update`; `sign = delta >> 7`.  test_node.hpp:35-52. -/
def nodeUpdatePhase {σ : Type} (K n : Nat) (sum : σ → Nat → Outcome Nat)
    (update : σ → Nat → Bool → Outcome σ) (sign : Bool) (s : σ × Vec Nat) : Outcome (σ × Vec Nat) :=
  forN 100 (fun _ s => nodeUpdateRun K n sum update sign s) s

/-- `test_node<Node, max_int>` on the drawn array `vals`; `out` is the memory `m`, the node starts at
its first byte.  The generator of the search arguments works in `key_type`, so `max_sum - 1` is
truncated.  test_node.hpp:5-82. -/
def testNode (b : Build) (c : NodeCfg) (vals : List Nat) (rng : Nat → Nat → Nat) (m : Mem) :
    Outcome Unit := do
  let m ← nodeBuild b c (arrayOf vals) 0 m
  nodeSumPhase (arrayOf vals) fun i => nodeSum b c m 0 i
  let maxSum ← nodeSum b c m 0 (c.fanout - 1)
  searchPhase 10000 (arrayOf vals) (fun i => rng (sub64 maxSum 1 % 256 ^ c.keyB) i)
    fun x => nodeSearch b c m 0 x
  let s ← nodeUpdatePhase (256 ^ c.keyB) c.fanout (fun m i => nodeSum b c m 0 i)
    (fun m i sign => nodeUpdate b c m 0 i sign) false (m, arrayOf vals)
  let _ ← nodeUpdatePhase (256 ^ c.keyB) c.fanout (fun m i => nodeSum b c m 0 i)
    (fun m i sign => nodeUpdate b c m 0 i sign) true s
  ok ()

/-- The instances.  test_nodes.cpp:4-39. -/
def nodeTests : List (NodeCfg × Nat) :=
  [(avx2Node128, 2 ^ 8), (avx2Node128, 2 ^ 9), (avx2Node64, 2 ^ 15), (avx2Node64, 2 ^ 16),
   (avx2Node64, 2 ^ 21), (avx2Node64, 2 ^ 22), (avx2Node32, 2 ^ 27), (avx2Node32, 2 ^ 28),
   (avx512Node512, 2 ^ 8), (avx512Node512, 2 ^ 9), (avx512Node256, 2 ^ 17), (avx512Node256, 2 ^ 18),
   (avx512Node128, 2 ^ 25), (avx512Node128, 2 ^ 26)]

/-! ## Trees -/

/-- `for (uint32_t i = 0; i < n; i += step)`; the first argument bounds the iterations.
test_tree.hpp:24, 42. -/
def stepLoop {σ : Type} (n step : Nat) (body : Nat → σ → Outcome σ) : Nat → Nat → σ → Outcome σ
  | 0, _, _ => ub .diverges
  | m + 1, i, s =>
    if i < n then do
      let s ← body i s
      stepLoop n step body m ((i + step) % W32) s
    else ok s

/-- `for (; k != i + 1; ++k) expected += A[k]`.  test_tree.hpp:26, 46. -/
def accTo (A : Vec Nat) (stop : Nat) : Nat → Nat → Nat → Outcome (Nat × Nat)
  | 0, _, _ => ub .diverges
  | m + 1, k, e =>
    if k = stop then ok (k, e) else do
      let a ← A.get k
      accTo A stop m ((k + 1) % W32) (add64 e a)

/-- `n / 5000`, at least one.  test_tree.hpp:19-21, 36-38. -/
def stepOf (n : Nat) : Nat := if n / 5000 = 0 then 1 else n / 5000

/-- More iterations than any loop over 32-bit integers makes. -/
@[irreducible] def fuel32 : Nat := W32 + 1

/-- The sum queries.  test_tree.hpp:17-31. -/
def treeSumPhase (A : Vec Nat) (sum : Nat → Outcome Nat) : Outcome Unit := do
  let _ ← stepLoop A.len (stepOf A.len) (fun i (s : Nat × Nat) => do
    let got ← sum i
    let s ← accTo A ((i + 1) % W32) fuel32 s.1 s.2
    requireMsg (decide (got = s.2))
    ok s) fuel32 0 (0, 0)
  ok ()

/-- One run of the lambda `update`.  test_tree.hpp:40-51. -/
def treeUpdateRun {σ : Type} (n : Nat) (sum : σ → Nat → Outcome Nat)
    (update : σ → Nat → Bool → Outcome σ) (sign : Bool) (s : σ × Vec Nat) : Outcome (σ × Vec Nat) := do
  let r ← stepLoop n (stepOf n) (fun i (r : (σ × Vec Nat) × Nat × Nat) => do
    let s ← update r.1.1 i sign
    let got ← sum s i
    let a ← r.1.2.get i
    let A ← r.1.2.set i (addDelta 65536 a sign)
    let e ← accTo A ((i + 1) % W32) fuel32 r.2.1 r.2.2
    requireMsg (decide (got = e.2))
    ok ((s, A), e)) fuel32 0 (s, 0, 0)
  ok r.1

/-- The lambda `update`.  test_tree.hpp:33-53. -/
def treeUpdatePhase {σ : Type} (n : Nat) (sum : σ → Nat → Outcome Nat)
    (update : σ → Nat → Bool → Outcome σ) (sign : Bool) (s : σ × Vec Nat) : Outcome (σ × Vec Nat) :=
  forN 100 (fun _ s => treeUpdateRun n sum update sign s) s

/-- `test_tree<fam::segment_tree<H>>(n)` on the drawn array `vals`.  test_tree.hpp:5-83. -/
def testTree (fam : TreeFam) (b : Build) (H addr : Nat) (vals : List Nat) (rng : Nat → Nat → Nat) :
    Outcome Unit := do
  let t ← fam.build b H addr vals
  treeSumPhase (arrayOf vals) fun i => fam.sum b H t i
  let maxSum ← fam.sum b H t (vals.length - 1)
  searchPhase 1000 (arrayOf vals) (fun i => rng (sub64 maxSum 1) i) fun x => fam.search b H t x
  let s ← treeUpdatePhase vals.length (fun t i => fam.sum b H t i)
    (fun t i sign => fam.update b H t i sign) false (t, arrayOf vals)
  let _ ← treeUpdatePhase vals.length (fun t i => fam.sum b H t i)
    (fun t i sign => fam.update b H t i sign) true s
  ok ()

end MRS.Test
