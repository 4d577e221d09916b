import Verif.Model.Block
import Verif.Model.Util

/-!
# Model of the benchmarks of words and blocks

src/perf_{popcnt,prefix_sum,rank,search,select}{64,256,512}.cpp and
src/perf_popcnt_for_avx_select{256,512}.cpp.  Each program draws queries, calls the algorithm `runs`
times for every one, adds the results up in `tmp` and prints `tmp`.  A 256-bit program and its 512-bit
counterpart differ in the number `W` of words of a bucket only and share one definition.

Times and the JSON text are left out; the forty calls of `measure` for one size do the same and are
one.  `g run i` is what the `static` arrays of the algorithm contain when query `i` of run `run` begins.
-/

set_option autoImplicit false

namespace MRS.Bench
open Outcome

/-- `a % m` on `uint64_t`. -/
def mod64 (a m : Nat) : Outcome Nat := if m = 0 then ub .divZero else ok (a % m)

/-! ## The queries -/

/-- `&bits[(hasher.next() % num_buckets) * B / 64]` for the call number `t` of `next`, with
`num_buckets = n / B` and `B = 64 * W`.  perf_rank256.cpp:41, 45, perf_rank512.cpp:40, 44,
perf_select64.cpp:42, 44 (`W = 1`; the source omits `* 64 / 64`), and alike in the others. -/
def bucket (W n : Nat) (seed : Word) (bits : Vec Word) (t : Nat) : Outcome Ptr := do
  let q ← mod64 (smNth seed t).toNat (n / (64 * W))
  let idx := mul64 q (64 * W) / 64
  if idx < bits.len then ok ⟨bits, idx⟩ else ub .oob

/-- The loop of the benchmarks of `popcount`; `i` calls of `next` were made.
perf_popcnt256.cpp:78-80, perf_popcnt512.cpp:85-87, perf_popcnt_for_avx_select256.cpp:70-72,
perf_popcnt_for_avx_select512.cpp:73-75. -/
def genPtrs (W n : Nat) (seed : Word) (bits : Vec Word) : Nat → Nat → Outcome (List Ptr)
  | 0, _ => ok []
  | m + 1, i => do
    let x ← bucket W n seed bits i
    let qs ← genPtrs W n seed bits m (i + 1)
    ok (x :: qs)

/-- The loop of the benchmarks of `rank` (`K = 64 * W`, in perf_rank64.cpp `W = 4` and `K = 64`) and of
prefix sums (`K = W`); `t` calls of `next` were made.  perf_rank64.cpp:44-47, perf_rank256.cpp:44-47,
perf_rank512.cpp:43-46, perf_prefix_sum256.cpp:85-88, perf_prefix_sum512.cpp:87-90. -/
def genFixed (W K n : Nat) (seed : Word) (bits : Vec Word) : Nat → Nat → Outcome (List (Ptr × Nat))
  | 0, _ => ok []
  | m + 1, t => do
    let x ← bucket W n seed bits t
    let k ← mod64 (smNth seed (t + 1)).toNat K
    let qs ← genFixed W K n seed bits m (t + 2)
    ok ((x, k) :: qs)

/-- `std::accumulate(x, x + W, 0ULL)`.  perf_search256.cpp:94, perf_search512.cpp:92. -/
def accumulate (W : Nat) (x : Ptr) : Outcome Nat :=
  forN W (fun j s => do
    let w ← x.at j
    ok (add64 s w.toNat)) 0

/-- The loop of the benchmarks of the search.  perf_search256.cpp:92-96, perf_search512.cpp:90-94. -/
def genSearch (W n : Nat) (seed : Word) (cnts : Vec Word) : Nat → Nat → Outcome (List (Ptr × Nat))
  | 0, _ => ok []
  | m + 1, t => do
    let x ← bucket W n seed cnts t
    let r ← accumulate W x
    let k ← mod64 (smNth seed (t + 1)).toNat r
    let qs ← genSearch W n seed cnts m (t + 2)
    ok ((x, k) :: qs)

/-- The loop of the benchmarks of `select`, with `cnt x` the number of ones of the bucket; `fuel` bounds
the number of iterations, of which those with `r == 0` add no query.
perf_select64.cpp:43-47, perf_select256.cpp:44-49, perf_select512.cpp:43-48. -/
def genSelect (W n : Nat) (cnt : Ptr → Outcome Nat) (seed : Word) (bits : Vec Word) :
    Nat → Nat → Nat → Outcome (List (Ptr × Nat))
  | _, 0, _ => ok []
  | 0, _ + 1, _ => ub .diverges
  | fuel + 1, m + 1, t => do
    let x ← bucket W n seed bits t
    let r ← cnt x
    if r ≠ 0 then do
      let k ← mod64 (smNth seed (t + 1)).toNat r
      let qs ← genSelect W n cnt seed bits fuel m (t + 2)
      ok ((x, k) :: qs)
    else genSelect W n cnt seed bits fuel (m + 1) (t + 1)

/-! ## The sums that are printed -/

/-- The inner loop of `measure` from query `i` on.  E.g. perf_rank256.cpp:56-60. -/
def runQueries {α : Type} (f : Nat → α → Outcome Nat) : List α → Nat → Nat → Outcome Nat
  | [], _, tmp => ok tmp
  | q :: qs, i, tmp => do
    let r ← f i q
    runQueries f qs (i + 1) (add64 tmp r)

/-- `measure`: the number after `# ignore:`.  `runs` is 100, perf_rank256.cpp:14.
E.g. perf_rank256.cpp:52-64. -/
def measure {α : Type} (f : Nat → Nat → α → Outcome Nat) (qs : List α) : Outcome Nat :=
  forN 100 (fun run tmp => runQueries (f run) qs 0 tmp) 0

/-! ## Algorithms defined by the benchmarks -/

/-- `_mm256_loadu_si256(x)`, `_mm512_loadu_si512(x)`: lane `j` is word `j`. -/
def loadVec (W : Nat) (x : Ptr) : Outcome Lanes :=
  forN W (fun j (c : Lanes) => do
    let w ← x.at j
    ok (fun l => if l = j then w.toNat else c l)) (fun _ => 0)

/-- `prefixsum_256<loop>`, `prefixsum_512<loop>`.  perf_prefix_sum256.cpp:33-38,
perf_prefix_sum512.cpp:32-37. -/
def prefixLoop (x : Ptr) (k : Nat) : Outcome Nat :=
  forN (k + 1) (fun i sum => do
    let w ← x.at i
    ok (add64 sum w.toNat)) 0

/-- `prefixsum_256<unrolled>`, `prefixsum_512<unrolled>`; `g` is what `sums` held before.
perf_prefix_sum256.cpp:40-48, perf_prefix_sum512.cpp:39-51. -/
def prefixUnrolled (W : Nat) (g : Nat → Nat) (x : Ptr) (k : Nat) : Outcome Nat := do
  let w ← x.at 0
  let sums ← (⟨W, g⟩ : Vec Nat).set 0 w.toNat
  let sums ← forN (W - 1) (fun j (sums : Vec Nat) => do
    let prev ← sums.get j
    let w ← x.at (j + 1)
    sums.set (j + 1) (add64 prev w.toNat)) sums
  sums.get k

/-- `prefixsum_256<parallel>`, `prefixsum_512<parallel>`.  perf_prefix_sum256.cpp:56-65,
perf_prefix_sum512.cpp:59-68. -/
def prefixParallel (W : Nat) (ps : Lanes → Lanes) (x : Ptr) (k : Nat) : Outcome Nat := do
  let v ← loadVec W x
  (⟨W, ps v⟩ : Vec Nat).get k

/-- The loop of `search_256<loop>` at word `i` with `fuel` words left; the result is `(k, cnt)`.
perf_search256.cpp:38-43, perf_search512.cpp:37-42. -/
def searchFrom (x : Ptr) : Nat → Nat → Nat → Nat → Outcome (Nat × Nat)
  | 0, _, k, cnt => ok (k, cnt)
  | fuel + 1, i, k, _ => do
    let w ← x.at i
    if k < w.toNat then ok (k, w.toNat) else searchFrom x fuel (i + 1) (sub64 k w.toNat) w.toNat

/-- `search_256<loop>`, `search_512<loop>`.  perf_search256.cpp:36-46, perf_search512.cpp:35-45. -/
def searchLoop (b : Build) (W : Nat) (x : Ptr) (k : Nat) : Outcome Nat := do
  let r ← searchFrom x W 0 k 0
  massert b (decide (r.1 < r.2))
  ok r.1

/-- `search_256<avx512>`, `search_512<avx512>`; `g` is what `sums` held before.
perf_search256.cpp:54-65, perf_search512.cpp:53-63. -/
def searchVec (W : Nat) (ps : Lanes → Lanes) (g : Nat → Nat) (x : Ptr) (k : Nat) : Outcome Nat := do
  let v ← loadVec W x
  let i ← ltCntAt (cmpleMask W (ps v) k)
  let s ← (storeSums W g (ps v)).get i
  ok (sub64 k s)

/-- `popcount_256<Mode>`, `popcount_512<Mode>` for `broadword` and `builtin` of perf_popcnt256.cpp:27-49
and perf_popcnt512.cpp:26-56. -/
def popcountWords (b : Build) (W pcm : Nat) (x : Ptr) : Outcome Nat :=
  forN W (fun j tmp => do
    let w ← x.at j
    let c ← popcountU64 b pcm w
    ok (add64 tmp c)) 0

/-- `measure` of perf_popcnt256.cpp:97-108 for `avx2` and perf_popcnt512.cpp:104-116 for `avx512`:
`tmp` is assigned, not added to, and lane 0 is printed; it has no value before the first query. -/
def measureLast (W : Nat) (qs : List Ptr) : Outcome Nat := do
  let tmp ← forN 100 (fun _ (tmp : Option Lanes) =>
    qs.foldl (fun (s : Outcome (Option Lanes)) x => do
      let _ ← s
      let v ← popcountVec W x
      ok (some v)) (ok tmp)) none
  match tmp with
  | some v => ok (v 0)
  | none => ub .uninit

/-- `measure` of perf_popcnt_for_avx_select256.cpp:77-90 and perf_popcnt_for_avx_select512.cpp:80-93:
lanes are added up, lane 0 is printed.  `pc` is `popcountArr W` (`builtin`) or `popcountVec W` (`avx2`). -/
def measureLanes (pc : Ptr → Outcome Lanes) (qs : List Ptr) : Outcome Nat := do
  let tmp ← forN 100 (fun _ (tmp : Lanes) =>
    qs.foldl (fun (s : Outcome Lanes) x => do
      let tmp ← s
      let v ← pc x
      ok (fun l => add64 (tmp l) (v l))) (ok tmp)) (fun _ => 0)
  ok (tmp 0)

/-- `mask = (k != 0) * (1ULL << k) - 1; popcount(x & mask)`.  perf_rank64.cpp:57-60. -/
def rank64Query (b : Build) (x : Ptr) (k : Nat) : Outcome Nat := do
  let w ← x.at 0
  let mask ← rankMask k
  popcountU64 b 1 (w &&& mask)

/-- `select_u64<Mode>(*x, k)`.  perf_select64.cpp:57-59. -/
def select64Query (b : Build) (mode : Nat) (x : Ptr) (k : Nat) : Outcome Nat := do
  let w ← x.at 0
  selectU64 b mode w k

/-- `popcount_u64<builtin>(*x)`.  perf_select64.cpp:45. -/
def count64 (b : Build) (x : Ptr) : Outcome Nat := do
  let w ← x.at 0
  popcountU64 b 1 w

/-- The words `cnts[i] = popcount(bits[i])`.  perf_search256.cpp:78-88, perf_search512.cpp:76-86. -/
def countWords (b : Build) (bits : Vec Word) : Outcome (Vec Word) :=
  forN bits.len (fun i (cnts : Vec Word) => do
    let w ← bits.get i
    let c ← popcountU64 b 1 w
    cnts.set i (BitVec.ofNat 64 c)) (Vec.ofList (List.replicate bits.len 0#64))

/-! ## The programs -/

/-- One size `n` of perf_rank256.cpp (`alg` is `rank_u256<Mode>`) or perf_rank512.cpp: the queries and
the printed sum.  `num_queries` is 10000.  perf_rank256.cpp:38-64, perf_rank512.cpp:37-63. -/
def rankRound (W : Nat) (alg : Scratch → Ptr → Nat → Outcome Nat) (g : Nat → Nat → Scratch)
    (seed : Word) (bits : Vec Word) (n : Nat) : Outcome Nat := do
  let qs ← genFixed W (64 * W) n seed bits 10000 0
  measure (fun run i (q : Ptr × Nat) => alg (g run i) q.1 q.2) qs

/-- One size of perf_prefix_sum256.cpp or perf_prefix_sum512.cpp; `alg` is `prefixsum_256<Mode>`.
perf_prefix_sum256.cpp:81-117, perf_prefix_sum512.cpp:83-119. -/
def prefixRound (W : Nat) (alg : (Nat → Nat) → Ptr → Nat → Outcome Nat) (g : Nat → Nat → Nat → Nat)
    (seed : Word) (bits : Vec Word) (n : Nat) : Outcome Nat := do
  let qs ← genFixed W W n seed bits 10000 0
  measure (fun run i (q : Ptr × Nat) => alg (g run i) q.1 q.2) qs

/-- One size of perf_rank64.cpp.  perf_rank64.cpp:37-65. -/
def rank64Round (b : Build) (seed : Word) (bits : Vec Word) (n : Nat) : Outcome Nat := do
  let qs ← genFixed 4 64 n seed bits 10000 0
  measure (fun _ _ (q : Ptr × Nat) => rank64Query b q.1 q.2) qs

/-- One size of perf_popcnt256.cpp or perf_popcnt512.cpp for `broadword` (`pcm = 0`) and `builtin`
(`pcm = 1`).  perf_popcnt256.cpp:74-96, perf_popcnt512.cpp:81-103. -/
def popcntRound (b : Build) (W pcm : Nat) (seed : Word) (bits : Vec Word) (n : Nat) : Outcome Nat := do
  let qs ← genPtrs W n seed bits 10000 0
  measure (fun _ _ x => popcountWords b W pcm x) qs

/-- The same for `avx2` and `avx512`.  perf_popcnt256.cpp:74-82, 97-108, perf_popcnt512.cpp:81-89,
104-116. -/
def popcntVecRound (W : Nat) (seed : Word) (bits : Vec Word) (n : Nat) : Outcome Nat := do
  let qs ← genPtrs W n seed bits 10000 0
  measureLast W qs

/-- The only size of perf_popcnt_for_avx_select256.cpp or perf_popcnt_for_avx_select512.cpp;
`num_queries` is 1000000.  perf_popcnt_for_avx_select256.cpp:64-90,
perf_popcnt_for_avx_select512.cpp:67-93. -/
def lanesRound (W : Nat) (pc : Ptr → Outcome Lanes) (seed : Word) (bits : Vec Word) (n : Nat) :
    Outcome Nat := do
  let qs ← genPtrs W n seed bits 1000000 0
  measureLanes pc qs

/-- One size of perf_search256.cpp or perf_search512.cpp, with the bitmap the counts are taken of.
perf_search256.cpp:78-125, perf_search512.cpp:76-123. -/
def searchRound (b : Build) (W : Nat) (alg : (Nat → Nat) → Ptr → Nat → Outcome Nat)
    (g : Nat → Nat → Nat → Nat) (seed : Word) (bits : Vec Word) (n : Nat) : Outcome Nat := do
  let cnts ← countWords b bits
  let qs ← genSearch W n seed cnts 10000 0
  measure (fun run i (q : Ptr × Nat) => alg (g run i) q.1 q.2) qs

/-- One size of perf_select64.cpp, perf_select256.cpp or perf_select512.cpp.
perf_select64.cpp:39-64, perf_select256.cpp:38-66, perf_select512.cpp:37-65. -/
def selectRound (W : Nat) (cnt : Ptr → Outcome Nat) (alg : Scratch → Ptr → Nat → Outcome Nat)
    (g : Nat → Nat → Scratch) (fuel : Nat) (seed : Word) (bits : Vec Word) (n : Nat) : Outcome Nat := do
  let qs ← genSelect W n cnt seed bits fuel 10000 0
  measure (fun run i (q : Ptr × Nat) => alg (g run i) q.1 q.2) qs

/-- `test<Mode>(density)` of perf_select256.cpp up to the end of the loop over `sizes`: all printed
sums.  perf_select256.cpp:27-110; alike perf_select512.cpp, perf_select64.cpp. -/
def selectProgram (W : Nat) (cnt : Ptr → Outcome Nat) (alg : Scratch → Ptr → Nat → Outcome Nat)
    (g : Nat → Nat → Nat → Scratch) (fuel nw : Nat) (sizes : List Nat) (threshold bitsSeed seed : Word) :
    Outcome (List Nat) := do
  let r ← createRandomBits (Vec.ofList (List.replicate nw 0#64)) threshold bitsSeed
  sizes.foldr (fun n rest => do
    let s ← selectRound W cnt alg (g n) fuel seed r.2 n
    let ss ← rest
    ok (s :: ss)) (ok [])

end MRS.Bench
