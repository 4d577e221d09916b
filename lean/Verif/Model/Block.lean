import Verif.Model.Word

/-!
# rank and select in blocks of 64, 256 and 512 bits

`include/rank_select_algorithms/rank.hpp`, `select.hpp`, and the block types of
`include/types.hpp`.

Modes are the integer values of the C++ enums.  Several functions use function-local `static`
scratch arrays: `Scratch` is what those arrays hold when the call starts (left there by earlier
calls).  What happens when two threads share them is modelled in `Model/Threads.lean`.
-/

set_option autoImplicit false

namespace MRS
open Outcome

/-- `uint64_t const* x`: a position in an array of words. -/
structure Ptr where
  v : Vec Word
  base : Nat

/-- `x[j]`. -/
def Ptr.at (p : Ptr) (j : Nat) : Outcome Word := p.v.get (p.base + j)

/-- Contents of the `static uint64_t counts[]`/`cnts[]` and `sums[]` arrays of the called
function before the call. -/
structure Scratch where
  counts : Nat → Nat
  sums : Nat → Nat

/-- Scratch of a program that has just started (static storage is zero-initialised). -/
def Scratch.init : Scratch := ⟨fun _ => 0, fun _ => 0⟩

/-! ## Mode values -/

namespace RankMode
/-- rank.hpp lines 12-44. -/
def broadword_loop : Nat := 0x000
/-- rank.hpp line 15. -/
def broadword_unrolled : Nat := 0x100
/-- rank.hpp line 18. -/
def builtin : Nat := 0x001
/-- rank.hpp line 19. -/
def builtin_loop : Nat := 0x001
/-- rank.hpp line 21. -/
def builtin_unrolled : Nat := 0x101
/-- rank.hpp line 25. -/
def avx2_loop : Nat := 0x002
/-- rank.hpp line 27. -/
def avx2_unrolled : Nat := 0x102
/-- rank.hpp line 31. -/
def builtin_parallel : Nat := 0x201
/-- rank.hpp line 34. -/
def avx2_parallel : Nat := 0x202
/-- rank.hpp line 37. -/
def avx512_loop : Nat := 0x003
/-- rank.hpp line 39. -/
def avx512_unrolled : Nat := 0x103
/-- rank.hpp line 41. -/
def avx512_parallel : Nat := 0x203

/-- Every enumerator of `rank_modes`. -/
def all : List Nat := [broadword_loop, broadword_unrolled, builtin, builtin_loop,
  builtin_unrolled, avx2_loop, avx2_unrolled, builtin_parallel, avx2_parallel, avx512_loop,
  avx512_unrolled, avx512_parallel]
end RankMode

namespace SelectMode
/-- select.hpp lines 156-158. -/
def broadword_loop_sdsl : Nat := 0x000000
/-- select.hpp lines 159-161. -/
def broadword_loop_succinct : Nat := 0x010000
/-- select.hpp lines 163-165. -/
def builtin_loop_sdsl : Nat := 0x020001
/-- select.hpp lines 166-168. -/
def builtin_loop_succinct : Nat := 0x030001
/-- select.hpp line 171. -/
def pdep : Nat := 0x000004
/-- select.hpp lines 172-174. -/
def builtin_loop_pdep : Nat := 0x040001
/-- select.hpp lines 177-179. -/
def builtin_avx512_pdep : Nat := 0x040101
/-- select.hpp lines 180-182. -/
def avx2_avx512_pdep : Nat := 0x040102
/-- select.hpp lines 183-185. -/
def avx512_avx512_pdep : Nat := 0x040103

/-- Every enumerator of `select_modes`. -/
def all : List Nat := [broadword_loop_sdsl, broadword_loop_succinct, builtin_loop_sdsl,
  builtin_loop_succinct, pdep, builtin_loop_pdep, builtin_avx512_pdep, avx2_avx512_pdep,
  avx512_avx512_pdep]
end SelectMode

/-- `extract_popcount_mode`, rank.hpp 46-48, select.hpp 189-191. -/
def exPopcount (m : Nat) : Nat := m % 256
/-- `extract_prefixsum_mode`, rank.hpp 49-51; `extract_search_mode`, select.hpp 192-194. -/
def exSecond (m : Nat) : Nat := m / 256 % 256
/-- `extract_select64_mode`, select.hpp 195-197. -/
def exSelect64 (m : Nat) : Nat := m / 65536 % 256

/-! ## rank -/

/-- `mask = (offset != 0) * (1ULL << offset) - 1`, e.g. rank.hpp line 90. -/
def rankMask (offset : Nat) : Outcome Word := do
  let one ← shl64 1#64 offset
  ok ((if offset ≠ 0 then 1#64 else 0#64) * one - 1#64)

/-- `rank_in_block = popcount_u64<pcm>(x[block] & mask)`, e.g. rank.hpp lines 88-91. -/
def rankInBlock (b : Build) (pcm : Nat) (x : Ptr) (i : Nat) : Outcome Nat := do
  let mask ← rankMask ((i + 1) % 64)
  let w ← x.at (i / 64)
  popcountU64 b pcm (w &&& mask)

/-- `sum = 0; for (b = 0; b < block; ++b) sum += C[b]`, e.g. rank.hpp lines 94-95, 122-123. -/
def sumLoop (block : Nat) (C : Nat → Outcome Nat) : Outcome Nat :=
  forN block (fun j s => do
    let c ← C j
    ok (add64 s c)) 0

/-- `counts[0] = 0; counts[j+1] = counts[j] + C[j]` for `j < W - 1`, with `counts` of length `W`,
e.g. rank.hpp lines 98-102, 209-217; `g` is the previous contents. -/
def unrolled (W : Nat) (g : Nat → Nat) (C : Nat → Outcome Nat) : Outcome (Vec Nat) := do
  let counts ← (⟨W, g⟩ : Vec Nat).set 0 0
  forN (W - 1) (fun j counts => do
    let prev ← counts.get j
    let c ← C j
    counts.set (j + 1) (add64 prev c)) counts

/-- The unspecialised `rank_u256` (`W = 4`, rank.hpp lines 81-108) and `rank_u512` (`W = 8`,
lines 192-223). -/
def rankGeneric (b : Build) (W mode : Nat) (g : Scratch) (x : Ptr) (i : Nat) : Outcome Nat := do
  massert b (decide (i < 64 * W))
  let pcm := exPopcount mode
  let block := i / 64
  let r ← rankInBlock b pcm x i
  let C := fun j => do
    let w ← x.at j
    popcountU64 b pcm w
  match exSecond mode with
  | 0 => do
    let s ← sumLoop block C
    ok (add64 s r)
  | 1 => do
    let counts ← unrolled W g.counts C
    let c ← counts.get block
    ok (add64 c r)
  | _ => do
    massert b false
    ok 0

/-- `popcount_m256i(_mm256_loadu_si256(x))` / `popcount_m512i(...)`: `W` words are read. -/
def popcountVec (W : Nat) (x : Ptr) : Outcome Lanes := do
  let c ← forN W (fun j (c : Lanes) => do
    let w ← x.at j
    ok (fun l => if l = j then popcountLane w else c l)) (fun _ => 0)
  ok c

/-- `popcount_u64<builtin>(x[0..W-1])` written to an array, e.g. rank.hpp lines 229-237. -/
def popcountArr (W : Nat) (x : Ptr) : Outcome Lanes := do
  let c ← forN W (fun j (c : Lanes) => do
    let w ← x.at j
    ok (fun l => if l = j then popcnt w else c l)) (fun _ => 0)
  ok c

/-- `rank_u256<avx2_loop>` (rank.hpp 110-125), `rank_u512<avx512_loop>` (250-265). -/
def rankVecLoop (b : Build) (W : Nat) (x : Ptr) (i : Nat) : Outcome Nat := do
  massert b (decide (i < 64 * W))
  let r ← rankInBlock b 1 x i
  let C ← popcountVec W x
  let s ← sumLoop (i / 64) (fun j => (⟨W, C⟩ : Vec Nat).get j)
  ok (add64 s r)

/-- `rank_u256<avx2_unrolled>` (rank.hpp 126-143), `rank_u512<avx512_unrolled>` (266-287). -/
def rankVecUnrolled (b : Build) (W : Nat) (g : Scratch) (x : Ptr) (i : Nat) : Outcome Nat := do
  massert b (decide (i < 64 * W))
  let r ← rankInBlock b 1 x i
  let C ← popcountVec W x
  let counts ← unrolled W g.counts (fun j => (⟨W, C⟩ : Vec Nat).get j)
  let c ← counts.get (i / 64)
  ok (add64 c r)

/-- `sums + 1` receives `W` lanes, `sums[0]` keeps its value,
e.g. rank.hpp lines 183-184, 246-247. -/
def storeSums (W : Nat) (g : Nat → Nat) (l : Lanes) : Vec Nat :=
  ⟨W + 1, fun j => if j = 0 then g 0 else if j ≤ W then l (j - 1) else g j⟩

/-- `rank_u256<builtin_parallel>`, rank.hpp lines 147-168. -/
def rank256BuiltinParallel (b : Build) (g : Scratch) (x : Ptr) (i : Nat) : Outcome Nat := do
  massert b (decide (i < 256))
  let c ← (⟨4, g.counts⟩ : Vec Nat).set 0 0
  let w0 ← x.at 0
  let c ← c.set 1 (popcnt w0)
  let w1 ← x.at 1
  let c ← c.set 2 (popcnt w1)
  let w2 ← x.at 2
  let c ← c.set 3 (popcnt w2)
  let r ← rankInBlock b 1 x i
  let cnts : Vec Nat := ⟨4, prefixsum256 c.f⟩
  let s ← cnts.get (i / 64)
  ok (add64 s r)

/-- `rank_u256<avx2_parallel>` (rank.hpp 169-186, `ps = prefixsum256`, `W = 4`) and
`rank_u512<avx512_parallel>` (288-302, `ps = prefixsum512`, `W = 8`). -/
def rankVecParallel (b : Build) (W : Nat) (ps : Lanes → Lanes) (g : Scratch) (x : Ptr) (i : Nat) :
    Outcome Nat := do
  massert b (decide (i < 64 * W))
  let r ← rankInBlock b 1 x i
  let C ← popcountVec W x
  let sums := storeSums W g.sums (ps C)
  let s ← sums.get (i / 64)
  ok (add64 s r)

/-- `rank_u512<builtin_parallel>`, rank.hpp lines 225-249. -/
def rank512BuiltinParallel (b : Build) (g : Scratch) (x : Ptr) (i : Nat) : Outcome Nat := do
  massert b (decide (i < 512))
  let C ← popcountArr 8 x
  let r ← rankInBlock b 1 x i
  let sums := storeSums 8 g.sums (prefixsum512 C)
  let s ← sums.get (i / 64)
  ok (add64 s r)

/-- `rank_u256<Mode>`: explicit specialisations first, then the template, rank.hpp 81-187. -/
def rankU256 (b : Build) (mode : Nat) (g : Scratch) (x : Ptr) (i : Nat) : Outcome Nat :=
  if mode = RankMode.avx2_loop then rankVecLoop b 4 x i
  else if mode = RankMode.avx2_unrolled then rankVecUnrolled b 4 g x i
  else if mode = RankMode.builtin_parallel then rank256BuiltinParallel b g x i
  else if mode = RankMode.avx2_parallel then rankVecParallel b 4 prefixsum256 g x i
  else rankGeneric b 4 mode g x i

/-- `rank_u512<Mode>`, rank.hpp 192-303. -/
def rankU512 (b : Build) (mode : Nat) (g : Scratch) (x : Ptr) (i : Nat) : Outcome Nat :=
  if mode = RankMode.builtin_parallel then rank512BuiltinParallel b g x i
  else if mode = RankMode.avx512_loop then rankVecLoop b 8 x i
  else if mode = RankMode.avx512_unrolled then rankVecUnrolled b 8 g x i
  else if mode = RankMode.avx512_parallel then rankVecParallel b 8 prefixsum512 g x i
  else rankGeneric b 8 mode g x i

/-! ## select -/

/-- `while (i < W) { cnt = popcount(x[i]); if (k < cnt) break; k -= cnt; i++; }`,
select.hpp lines 233-239; the result is `(i, k, cnt)`. -/
def selLoop (b : Build) (pcm : Nat) (x : Ptr) : Nat → Nat → Nat → Nat → Outcome (Nat × Nat × Nat)
  | 0, i, k, cnt => ok (i, k, cnt)
  | fuel + 1, i, k, _ => do
    let w ← x.at i
    let cnt ← popcountU64 b pcm w
    if k < cnt then ok (i, k, cnt) else selLoop b pcm x fuel (i + 1) (sub64 k cnt) cnt

/-- The unspecialised `select_u256` (`W = 4`, select.hpp 224-246) and `select_u512` (`W = 8`,
292-314). -/
def selectGeneric (b : Build) (W mode : Nat) (x : Ptr) (k : Nat) : Outcome Nat :=
  match exSecond mode with
  | 0 => do
    let r ← selLoop b (exPopcount mode) x W 0 k 0
    massert b (decide (r.2.1 < r.2.2))
    let w ← x.at r.1
    let s ← selectU64 b (exSelect64 mode) w r.2.1
    ok (add64 (mul64 r.1 64) s)
  | _ => do
    massert b false
    ok 0

/-- `_mm256_cmple_epi64_mask(sums, set1(k))` (signed). -/
def cmpleMask (W : Nat) (l : Lanes) (k : Nat) : Nat := maskReg W fun j => decide (toS 8 (l j) ≤ toS 8 k)

/-- The end of the four vector selects: `i = lt_cnt[mask]`, `sums`, select in word `i`,
e.g. select.hpp lines 262-269; `W` is 4 or 8. -/
def selectTail (b : Build) (W : Nat) (g : Scratch) (x : Ptr) (msums : Lanes) (k : Nat) :
    Outcome Nat := do
  let i ← ltCntAt (cmpleMask W msums k)
  let sums := storeSums W g.sums msums
  let w ← x.at i
  let s ← sums.get i
  let r ← selectU64 b 4 w (sub64 k s)
  ok (add64 (i * 64) r)

/-- `select_u256<builtin_avx512_pdep>` (select.hpp 248-270) and
`select_u512<builtin_avx512_pdep>` (316-342). -/
def selectBuiltinVec (b : Build) (W : Nat) (ps : Lanes → Lanes) (g : Scratch) (x : Ptr) (k : Nat) :
    Outcome Nat := do
  let C ← popcountArr W x
  selectTail b W g x (ps C) k

/-- `select_u256<avx2_avx512_pdep>` (select.hpp 271-286) and
`select_u512<avx512_avx512_pdep>` (343-358). -/
def selectVec (b : Build) (W : Nat) (ps : Lanes → Lanes) (g : Scratch) (x : Ptr) (k : Nat) :
    Outcome Nat := do
  let C ← popcountVec W x
  selectTail b W g x (ps C) k

/-- `select_u256<Mode>`, select.hpp 224-287. -/
def selectU256 (b : Build) (mode : Nat) (g : Scratch) (x : Ptr) (k : Nat) : Outcome Nat :=
  if mode = SelectMode.builtin_avx512_pdep then selectBuiltinVec b 4 prefixsum256 g x k
  else if mode = SelectMode.avx2_avx512_pdep then selectVec b 4 prefixsum256 g x k
  else selectGeneric b 4 mode x k

/-- `select_u512<Mode>`, select.hpp 292-359. -/
def selectU512 (b : Build) (mode : Nat) (g : Scratch) (x : Ptr) (k : Nat) : Outcome Nat :=
  if mode = SelectMode.builtin_avx512_pdep then selectBuiltinVec b 8 prefixsum512 g x k
  else if mode = SelectMode.avx512_avx512_pdep then selectVec b 8 prefixsum512 g x k
  else selectGeneric b 8 mode x k

/-! ## Block types -/

/-- `block64_type::rank`, types.hpp lines 22-26:
`mask = i == 64 ? -1 : (i != 0) * (1ULL << i) - 1` after `i += 1`. -/
def rankBlock64 (b : Build) (x : Ptr) (i : Nat) : Outcome Nat := do
  let i := add64 i 1
  let mask ← if i = 64 then ok (-1#64) else rankMask i
  let w ← x.at 0
  popcountU64 b 1 (w &&& mask)

/-- `block64_type::select`, types.hpp lines 27-29. -/
def selectBlock64 (b : Build) (x : Ptr) (k : Nat) : Outcome Nat := do
  let w ← x.at 0
  selectU64 b 4 w k

/-- The three block widths. -/
inductive Width
  | w64 | w256 | w512
  deriving DecidableEq, Repr

/-- `block_size`, types.hpp lines 18, 34, 48. -/
def Width.bits : Width → Nat
  | .w64 => 64 | .w256 => 256 | .w512 => 512

/-- `words_in_block`, mutable_bitmap.hpp line 15. -/
def Width.words : Width → Nat
  | .w64 => 1 | .w256 => 4 | .w512 => 8

/-- A block type: width, rank mode, select mode (types.hpp lines 16-59). -/
structure BlockType where
  width : Width
  rankMode : Nat
  selectMode : Nat
  deriving DecidableEq

/-- `BlockType::rank`, types.hpp lines 22, 38, 52. -/
def BlockType.rank (b : Build) (t : BlockType) (g : Scratch) (x : Ptr) (i : Nat) : Outcome Nat :=
  match t.width with
  | .w64 => rankBlock64 b x i
  | .w256 => rankU256 b t.rankMode g x i
  | .w512 => rankU512 b t.rankMode g x i

/-- `BlockType::select`, types.hpp lines 27, 41, 55. -/
def BlockType.select (b : Build) (t : BlockType) (g : Scratch) (x : Ptr) (k : Nat) : Outcome Nat :=
  match t.width with
  | .w64 => selectBlock64 b x k
  | .w256 => selectU256 b t.selectMode g x k
  | .w512 => selectU512 b t.selectMode g x k

/-- `block64_type_default`, types.hpp lines 61-62. -/
def block64Default : BlockType := ⟨.w64, RankMode.builtin, SelectMode.pdep⟩
/-- `block256_type_a`, types.hpp lines 64-66. -/
def block256A : BlockType := ⟨.w256, RankMode.builtin_unrolled, SelectMode.builtin_loop_pdep⟩
/-- `block256_type_b`, types.hpp lines 68-69. -/
def block256B : BlockType := ⟨.w256, RankMode.builtin_loop, SelectMode.builtin_loop_pdep⟩
/-- `block512_type_a`, types.hpp lines 71-73. -/
def block512A : BlockType := ⟨.w512, RankMode.builtin_unrolled, SelectMode.builtin_loop_pdep⟩
/-- `block512_type_b`, types.hpp lines 75-76. -/
def block512B : BlockType := ⟨.w512, RankMode.builtin_loop, SelectMode.builtin_loop_pdep⟩
/-- `block256_type_c`, types.hpp lines 78-82. -/
def block256C : BlockType := ⟨.w256, RankMode.builtin_unrolled, SelectMode.avx2_avx512_pdep⟩

/-- Every block type exported by types.hpp. -/
def exportedBlocks : List BlockType :=
  [block64Default, block256A, block256B, block512A, block512B, block256C]

/-! ## Supported combinations -/

/-- Rank modes for which `rank_u256` is implemented
(rank.hpp lines 81-186). -/
def rank256Modes : List Nat := [RankMode.broadword_loop, RankMode.broadword_unrolled,
  RankMode.builtin_loop, RankMode.builtin_unrolled, RankMode.avx2_loop, RankMode.avx2_unrolled,
  RankMode.builtin_parallel, RankMode.avx2_parallel]

/-- Rank modes for which `rank_u512` is implemented
(rank.hpp lines 192-302). -/
def rank512Modes : List Nat := [RankMode.broadword_loop, RankMode.broadword_unrolled,
  RankMode.builtin_loop, RankMode.builtin_unrolled, RankMode.builtin_parallel,
  RankMode.avx512_loop, RankMode.avx512_unrolled, RankMode.avx512_parallel]

/-- Select modes for which `select_u256` is implemented
(select.hpp lines 224-287). -/
def select256Modes : List Nat := [SelectMode.broadword_loop_sdsl, SelectMode.broadword_loop_succinct,
  SelectMode.builtin_loop_sdsl, SelectMode.builtin_loop_succinct, SelectMode.builtin_loop_pdep,
  SelectMode.builtin_avx512_pdep, SelectMode.avx2_avx512_pdep]

/-- Select modes for which `select_u512` is implemented
(select.hpp lines 292-358). -/
def select512Modes : List Nat := [SelectMode.broadword_loop_sdsl, SelectMode.broadword_loop_succinct,
  SelectMode.builtin_loop_sdsl, SelectMode.builtin_loop_succinct, SelectMode.builtin_loop_pdep,
  SelectMode.builtin_avx512_pdep, SelectMode.avx512_avx512_pdep]

/-- A block type whose rank and select modes are implemented for its width; `block64_type`
ignores the modes (types.hpp lines 22-29). -/
def BlockType.Supported (t : BlockType) : Prop :=
  match t.width with
  | .w64 => True
  | .w256 => t.rankMode ∈ rank256Modes ∧ t.selectMode ∈ select256Modes
  | .w512 => t.rankMode ∈ rank512Modes ∧ t.selectMode ∈ select512Modes

instance (t : BlockType) : Decidable t.Supported := by
  unfold BlockType.Supported
  cases t.width <;> infer_instance

end MRS
