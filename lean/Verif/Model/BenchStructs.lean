import Verif.Model.Bench
import Verif.Model.Usage
import Verif.Model.Poppy
import Verif.Model.Hft.Trees

/-!
# Model of the benchmarks of whole structures

src/perf_mutable_bitmap.cpp, src/perf_immutable_bitmap.cpp (class `poppy_wrapper`),
src/perf_prefix_sum.cpp and src/perf_hft.cpp, and what these and src/perf_compressed_bitmap.cpp do with
the option `-i`.  Per size a structure is built, queries are drawn, and forty calls of `measure` run all
queries a hundred times each and print a number.

Times are left out; the text that is printed for them is a parameter of `perfTest`.  The drawn arrays
and queries of the two programs that use `uniform_int_rng` are parameters: `rng hi j` is draw `j` of
`uniform_int_rng(0, hi, …)`.
-/

set_option autoImplicit false

namespace MRS.Bench
open Outcome

/-- `num_queries`.  perf_mutable_bitmap.cpp:13, perf_immutable_bitmap.cpp:28, perf_prefix_sum.cpp:12,
perf_hft.cpp:10. -/
def numQueries : Nat := 10000

/-- `hasher.next() % M` for each query; `t` calls of `next` were made, `m` are left.
perf_mutable_bitmap.cpp:48-52, perf_immutable_bitmap.cpp:306-310, perf_compressed_bitmap.cpp:252-256. -/
def drawBelow (M : Nat) (seed : Word) : Nat → Nat → Outcome (List Nat)
  | 0, _ => ok []
  | m + 1, t => do
    let q ← mod64 (smNth seed t).toNat M
    let qs ← drawBelow M seed m (t + 1)
    ok (q :: qs)

/-- The calls of `measure` number `k`, …, `k + m - 1`: the numbers printed and the structure afterwards.
E.g. perf_mutable_bitmap.cpp:92-127. -/
def calls {σ : Type} (f : Nat → σ → Outcome (Nat × σ)) : Nat → Nat → σ → Outcome (List Nat × σ)
  | 0, _, s => ok ([], s)
  | m + 1, k, s => do
    let r ← f k s
    let rs ← calls f m (k + 1) r.2
    ok (r.1 :: rs.1, rs.2)

/-- All four loops over `K = 10`.  E.g. perf_mutable_bitmap.cpp:92-127. -/
def forty {σ : Type} (f : Nat → σ → Outcome (Nat × σ)) (s : σ) : Outcome (List Nat × σ) := calls f 40 0 s

/-! ## perf_mutable_bitmap.cpp -/

/-- `for (auto q : queries) vec.flip(q);`.  perf_mutable_bitmap.cpp:76. -/
def flipAll (c : Config) : List Nat → Bitmap → Outcome Bitmap
  | [], bm => ok bm
  | q :: qs, bm => do
    let bm ← bmFlip c bm q
    flipAll c qs bm

/-- `measure`: the number printed and the bitmap; `g run i` is what scratch memory holds.
perf_mutable_bitmap.cpp:59-90. -/
def measureBitmap (c : Config) (op : String) (g : Nat → Nat → Scratch) (qs : List Nat) (bm : Bitmap) :
    Outcome (Nat × Bitmap) :=
  if op = "rank" then do
    let total ← measure (fun run i q => bmRank c (g run i) bm q) qs
    ok (total, bm)
  else if op = "select" then do
    let total ← measure (fun run i q => bmSelect c (g run i) bm q) qs
    ok (total, bm)
  else if op = "flip" then do
    let bm ← forN 100 (fun _ bm => flipAll c qs bm) bm
    let total ← bmRank c (g 100 0) bm (sub64 (bmSize bm) 1)
    ok (total, bm)
  else if op = "build" then do
    let total ← measure (fun _ _ q => ok q) qs
    ok (total, bm)
  else do
    massert c.b false
    ok (0, bm)

/-- `test<I, …>::run` for `n = sizes[I]`: the forty numbers printed and the bitmap at the end.
`threshold` is `UINT64_MAX * density`, `bitsSeed` 13 and `seed` 71.  perf_mutable_bitmap.cpp:28-138. -/
def bitmapRound (c : Config) (op : String) (addr n : Nat) (threshold bitsSeed seed : Word)
    (g : Nat → Nat → Nat → Scratch) : Outcome (List Nat × Bitmap) := do
  let r ← createRandomBits (Vec.ofList (List.replicate ((n + 63) / 64) 0#64)) threshold bitsSeed
  let bm ← bmBuild c addr (Vec.ofList r.2.toList) r.2.toList.length Bitmap.empty
  let qs ← drawBelow (if op = "select" then r.1 else n) seed numQueries 0
  forty (fun k bm => measureBitmap c op (g k) qs bm) bm

/-! ## perf_immutable_bitmap.cpp with `poppy_wrapper` -/

/-- `measure`.  perf_immutable_bitmap.cpp:317-341. -/
def measurePoppy (b : Build) (op : String) (qs : List Nat) (o : Poppy.Obj) : Outcome (Nat × Poppy.Obj) :=
  if op = "rank" then do
    let total ← measure (fun _ _ q => Poppy.wrapRank b o q) qs
    ok (total, o)
  else if op = "select" then do
    let total ← measure (fun _ _ q => Poppy.wrapSelect b o q) qs
    ok (total, o)
  else if op = "build" then do
    let total ← measure (fun _ _ q => ok q) qs
    ok (total, o)
  else do
    massert b false
    ok (0, o)

/-- `test<I, poppy_wrapper>::run`.  `g1`, `g2`, `g3` are the contents of new arrays.
perf_immutable_bitmap.cpp:288-389. -/
def poppyRound (b : Build) (op : String) (n : Nat) (threshold bitsSeed seed : Word)
    (g1 g2 : Nat → Nat) (g3 : Nat → Nat → Nat) : Outcome (List Nat × Poppy.Obj) := do
  let r ← createRandomBits (Vec.ofList (List.replicate ((n + 63) / 64) 0#64)) threshold bitsSeed
  let o ← Poppy.wrapBuild g1 g2 g3 r.2.toList
  let _ ← Poppy.wrapBytes o
  let qs ← drawBelow (if op = "select" then r.1 else n) seed numQueries 0
  forty (fun _ o => measurePoppy b op qs o) o

/-! ## perf_prefix_sum.cpp -/

/-- `deltas[q & 1]` of the `int8_t` array `{+1, -1}`.  perf_prefix_sum.cpp:81, 85, perf_hft.cpp:68, 72. -/
def delta (q : Nat) : Int := if q % 2 = 0 then 1 else -1

/-- The conversion of an `int8_t` to the `bool` parameter of `update`: true unless zero. -/
def toBool (d : Int) : Bool := d != 0

/-- `update` on all queries.  perf_prefix_sum.cpp:84-86. -/
def updateAll (fam : TreeFam) (b : Build) (H : Nat) (qs : List Nat) (t : Tree) : Outcome Tree :=
  fam.updates b H t (qs.map fun q => (q, toBool (delta q)))

/-- The queries.  No operation is called `sarch`, see line 90.  perf_prefix_sum.cpp:54-65. -/
def treeQueries (op : String) (n maxSum : Nat) (rng : Nat → Nat → Nat) : List Nat :=
  if op = "sarch" then (List.range numQueries).map (rng (sub64 maxSum 1))
  else (List.range numQueries).map (rng (n - 1))

/-- `measure`.  perf_prefix_sum.cpp:72-105. -/
def measureTree (fam : TreeFam) (b : Build) (H n : Nat) (op : String) (qs : List Nat) (t : Tree) :
    Outcome (Nat × Tree) :=
  if op = "sum" then do
    let total ← measure (fun _ _ q => fam.sum b H t q) qs
    ok (total, t)
  else if op = "update" then do
    let t ← forN 100 (fun _ t => updateAll fam b H qs t) t
    let total ← fam.sum b H t (n - 1)
    ok (total, t)
  else if op = "search" then do
    let total ← measure (fun _ _ q => do
      let r ← fam.search b H t q
      ok r.1) qs
    ok (total, t)
  else if op = "build" then do
    let total ← measure (fun _ _ q => ok q) qs
    ok (total, t)
  else do
    massert b false
    ok (0, t)

/-- `test<I, Tree>::run`; `vals` are the values drawn.  perf_prefix_sum.cpp:36-154. -/
def treeRound (fam : TreeFam) (b : Build) (H addr : Nat) (op : String) (vals : List Nat)
    (rng : Nat → Nat → Nat) : Outcome (List Nat × Tree) := do
  let t ← fam.build b H addr vals
  let maxSum ← (if op = "sarch" then fam.sum b H t (vals.length - 1) else ok 0 : Outcome Nat)
  forty (fun _ t => measureTree fam b H vals.length op (treeQueries op vals.length maxSum rng) t) t

/-! ## perf_hft.cpp -/

/-- The queries, one more than drawn.  perf_hft.cpp:41-52. -/
def hftQueries (op : String) (n maxSum : Nat) (rng : Nat → Nat → Nat) : List Nat :=
  (treeQueries op n maxSum rng).map (· + 1)

/-- `measure`.  perf_hft.cpp:59-93. -/
def measureHft (c : Hft.Cfg) (n : Nat) (op : String) (qs : List Nat) (o : Hft.Obj) :
    Outcome (Nat × Hft.Obj) :=
  if op = "sum" then do
    let total ← measure (fun _ _ q => o.prefix c q) qs
    ok (total, o)
  else if op = "update" then do
    let o ← forN 100 (fun _ (o : Hft.Obj) => o.adds c (qs.map fun q => (q, delta q))) o
    let total ← o.prefix c n
    ok (total, o)
  else if op = "search" then do
    let total ← measure (fun _ _ q => do
      let r ← o.find c q
      ok r.1) qs
    ok (total, o)
  else if op = "build" then do
    let total ← measure (fun _ _ q => ok q) qs
    ok (total, o)
  else do
    massert c.build false
    ok (0, o)

/-- One pass of the loop of `perf_test`; `A` are the values drawn.  perf_hft.cpp:26-140. -/
def hftRound (c : Hft.Cfg) (k : Hft.Kind) (op : String) (A : List Int) (rng : Nat → Nat → Nat) :
    Outcome (List Nat × Hft.Obj) := do
  let o ← Hft.build c ⟨A.length, fun i => Hft.u64 (A.getD i 0)⟩ A.length k
  let maxSum ← (if op = "sarch" then o.prefix c A.length else ok 0 : Outcome Nat)
  forty (fun _ o => measureHft c A.length op (hftQueries op A.length maxSum rng) o) o

/-! ## The option `-i` and the report -/

/-- `sizes` of perf_mutable_bitmap.cpp:17-21 and perf_compressed_bitmap.cpp:28-33. -/
def sizes24 : List Nat := (List.range 24).map fun i => 2 ^ (9 + i)

/-- `sizes` of perf_immutable_bitmap.cpp:32-37. -/
def sizes25 : List Nat := (List.range 25).map fun i => 2 ^ (8 + i)

/-- `sizes` of perf_prefix_sum.cpp:26-29. -/
def sizes17 : List Nat := (List.range 17).map fun i => 2 ^ (8 + i)

/-- `sizes[i]` for an `int`. -/
def sizeAt (sizes : List Nat) (i : Int) : Outcome Nat :=
  if 0 ≤ i ∧ i < sizes.length then ok (sizes.getD i.toNat 0) else ub .oob

/-- `test<I, …>::run` and those after it, `m` of them; `run n` is the text of the three times for size
`n`.  E.g. perf_mutable_bitmap.cpp:28-29, 136-149. -/
def testRuns (sizes : List Nat) (i : Int) (run : Nat → Outcome (List Char)) :
    Nat → Nat → List Char → Outcome (List Char)
  | 0, _, json => ok json
  | m + 1, I, json =>
    if i = -1 ∨ i = I then do
      let n ← sizeAt sizes I
      let tt ← run n
      testRuns sizes i run m (I + 1) (json ++ tt ++ [','])
    else testRuns sizes i run m (I + 1) json

/-- `perf_test`: the line for `std::cerr`.  `head` is the text before the times, which contains the size
if one was chosen.  perf_mutable_bitmap.cpp:151-166, perf_immutable_bitmap.cpp:401-415,
perf_compressed_bitmap.cpp:341-355, perf_prefix_sum.cpp:167-182. -/
def perfTest (sizes : List Nat) (head : Option Nat → List Char) (i : Int)
    (run : Nat → Outcome (List Char)) : Outcome (List Char) := do
  let json ← (if i ≠ -1 then do
      let n ← sizeAt sizes i
      ok (head (some n))
    else ok (head none) : Outcome (List Char))
  let json ← testRuns sizes i run sizes.length 0 json
  if json = [] then ub .oob else ok (json.dropLast ++ [']', '}'])

end MRS.Bench
