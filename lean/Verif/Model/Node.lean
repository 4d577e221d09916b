import Verif.Model.Machine
import Verif.Model.Tables

/-!
# Node types of the two segment trees

`include/segment_tree/avx2/{node128,node64,node32}.hpp`,
`include/segment_tree/avx512/{node512,node256,node128}.hpp`,
`include/segment_tree/avx2/search_common.hpp`, `include/util.hpp` lines 10-30.

The six node classes are textual copies of each other; the places where they differ are
the fields of `NodeCfg`.  A node is a range of bytes of `m_data` starting at offset `off`:
`numSegs` summaries of `sumB` bytes, then `fanout` keys of `keyB` bytes.
-/

set_option autoImplicit false

namespace MRS
open Outcome

/-- How `search` begins. -/
inductive Guard
  | assertLt   -- `assert(x < sum(fanout - 1))` (avx2/node128.hpp 75, avx512/node512.hpp 74)
  | nothing    -- no check (avx2/node64.hpp 74-77, avx2/node32.hpp 74-76)
  | early      -- `if (x >= sum(fanout-1)) return {fanout, sum(fanout-1)}` (avx512/node256.hpp 74, node128.hpp 73)
  deriving DecidableEq, Repr

/-- The points in which the six node classes differ. -/
structure NodeCfg where
  keyB : Nat          -- sizeof(key_type)
  sumB : Nat          -- sizeof(summary_type)
  fanout : Nat
  seg : Nat           -- segment_size
  num : Nat           -- num_segments
  bytes : Nat
  avx512 : Bool       -- namespace mrs::avx512 (64-byte vectors, mask compares)
  sumTab : List (List Int)   -- table used to update the summary
  sumRow : Nat        -- constant added to `j` in the row index
  sumSign : Nat       -- rows skipped when `sign` is set
  keyTab : List (List Int)   -- table used to update the keys
  keySign : Nat       -- rows skipped when `sign` is set
  sumAligned : Bool   -- summary read with `_mm256_load_si256` instead of `loadu`
  guard : Guard
  tailAssert : Bool   -- `assert(i < fanout)` before the return

/-- avx2/node128.hpp lines 12-106. -/
def avx2Node128 : NodeCfg where
  keyB := 2; sumB := 4; fanout := 128; seg := 16; num := 8
  bytes := 128 * 2 + 8 * 4
  avx512 := false
  sumTab := Tables.update_8_32; sumRow := 1; sumSign := 8 + 1
  keyTab := Tables.update_16_16; keySign := 16
  sumAligned := true; guard := .assertLt; tailAssert := true

/-- avx2/node64.hpp lines 12-106. -/
def avx2Node64 : NodeCfg where
  keyB := 4; sumB := 4; fanout := 64; seg := 8; num := 8
  bytes := 64 * 4 + 8 * 4
  avx512 := false
  sumTab := Tables.update_8_32; sumRow := 1; sumSign := 8 + 1
  keyTab := Tables.update_8_32; keySign := 8 + 1
  sumAligned := false; guard := .nothing; tailAssert := false

/-- avx2/node32.hpp lines 12-105. -/
def avx2Node32 : NodeCfg where
  keyB := 4; sumB := 8; fanout := 32; seg := 8; num := 4
  bytes := 32 * 4 + 4 * 8
  avx512 := false
  sumTab := Tables.update_4_64; sumRow := 0; sumSign := 4
  keyTab := Tables.update_8_32; keySign := 8 + 1
  sumAligned := false; guard := .nothing; tailAssert := false

/-- avx512/node512.hpp lines 11-106. -/
def avx512Node512 : NodeCfg where
  keyB := 2; sumB := 4; fanout := 512; seg := 32; num := 16
  bytes := 512 * 2 + 16 * 4
  avx512 := true
  sumTab := Tables.update_16_32; sumRow := 1; sumSign := 16 + 1
  keyTab := Tables.update_32_16; keySign := 32
  sumAligned := false; guard := .assertLt; tailAssert := true

/-- avx512/node256.hpp lines 11-105. -/
def avx512Node256 : NodeCfg where
  keyB := 4; sumB := 4; fanout := 256; seg := 16; num := 16
  bytes := 256 * 4 + 16 * 4
  avx512 := true
  sumTab := Tables.update_16_32; sumRow := 1; sumSign := 16 + 1
  keyTab := Tables.update_16_32; keySign := 16 + 1
  sumAligned := false; guard := .early; tailAssert := false

/-- avx512/node128.hpp lines 11-105. -/
def avx512Node128 : NodeCfg where
  keyB := 4; sumB := 8; fanout := 128; seg := 16; num := 8
  bytes := 128 * 4 + 8 * 8
  avx512 := true
  sumTab := Tables.update_8_64; sumRow := 0; sumSign := 8
  keyTab := Tables.update_16_32; keySign := 16 + 1
  sumAligned := false; guard := .early; tailAssert := false

namespace NodeCfg
variable (c : NodeCfg)

/-- Bytes of a SIMD register: `__m256i` or `__m512i`. -/
def vecB : Nat := if c.avx512 then 64 else 32

/-- Which of the two bodies is compiled: avx2 nodes test `#ifdef DISABLE_AVX`, avx512 nodes
test `#ifdef AVX512`. -/
def simd (b : Build) : Bool := if c.avx512 then b.simd512 else b.simd2

/-- Offset of `summary[s]`; `at()`, e.g. avx2/node128.hpp 36-40. -/
def sumOff (off s : Nat) : Nat := off + s * c.sumB

/-- Offset of `keys[j]`; `at()`, e.g. avx2/node128.hpp 36-40. -/
def keyOff (off j : Nat) : Nat := off + c.num * c.sumB + j * c.keyB

end NodeCfg

/-! ## SIMD lanes -/

/-- Signed value of a `w`-byte lane. -/
def toS (w x : Nat) : Int :=
  let y := x % 256 ^ w
  if 2 * y < 256 ^ w then (y : Int) else (y : Int) - (256 ^ w : Nat)

/-- `_mm256_loadu_si256` / `_mm512_loadu_si512` (alignment 1) and `_mm256_load_si256`
(alignment 32): `vb` bytes, seen as lanes of `w` bytes. -/
def loadVec (b : Build) (m : Mem) (off vb al w : Nat) : Outcome (Nat → Nat) := do
  chk b m off vb al
  pure fun z => rd m (off + z * w) w

/-- Bytes `off .. off + vb` replaced by the lanes `f` of `w` bytes each. -/
def wrLanes (m : Mem) (off vb w : Nat) (f : Nat → Nat) : Mem :=
  { m with byte := fun a =>
      if off ≤ a ∧ a < off + vb then f ((a - off) / w) / 256 ^ ((a - off) % w) % 256
      else m.byte a }

/-- `_mm256_storeu_si256` / `_mm512_storeu_si512`. -/
def storeVec (b : Build) (m : Mem) (off vb w : Nat) (f : Nat → Nat) : Outcome Mem := do
  chk b m off vb 1
  pure (wrLanes m off vb w f)

/-- `_mm*_add_epi{16,32,64}`: lanewise wrapping addition. -/
def addLanes (w : Nat) (f g : Nat → Nat) : Nat → Nat := fun z => (f z + g z) % 256 ^ w

/-- Lanes of an `int16/32/64_t` table entry. -/
def laneOfInt (w : Nat) (d : Int) : Nat := (d % (256 ^ w : Nat)).toNat

/-- Aligned vector load of row `r` of a constant table with lanes of `w` bytes; the tables
are declared with the alignment of the vector type. -/
def loadRow (tab : List (List Int)) (r w : Nat) : Outcome (Nat → Nat) :=
  match tab[r]? with
  | some row => ok fun z => laneOfInt w (row.getD z 0)
  | none => ub .oob

/-- `_mm256_cmpgt_epi{16,32,64}(v, set1(x))` and the `_mask` forms: lane `z` is set when
`v z > x` as signed lanes; `set1` truncates `x` to the lane. -/
def cmpgt (w : Nat) (v : Nat → Nat) (x : Nat) : Nat → Bool :=
  fun z => decide (toS w x < toS w (v z))

/-- Number of trailing zeros of a nonzero `x`, scanning at most `fuel` bits. -/
def ctzFuel : Nat → Nat → Nat
  | 0, _ => 0
  | fuel + 1, x => if x % 2 = 1 then 0 else ctzFuel fuel (x / 2) + 1

/-- `ctzll`, avx2/search_common.hpp lines 5-10. -/
def ctzll (x : Nat) : Nat := if x = 0 then 64 else ctzFuel 64 x

/-- 64-bit word `t` of a vector whose lanes of `w` bytes are all-ones or zero. -/
def maskWord (w : Nat) (mask : Nat → Bool) (t : Nat) : Nat :=
  (List.range (8 / w)).foldl
    (fun acc l => acc + (if mask (t * (8 / w) + l) then (256 ^ w - 1) * 256 ^ (l * w) else 0)) 0

/-- `index_fs<8*w>(__m256i)`, avx2/search_common.hpp lines 21-27. -/
def indexFs (w : Nat) (mask : Nat → Bool) : Nat :=
  (ctzll (maskWord w mask 0) + ctzll (maskWord w mask 1) + ctzll (maskWord w mask 2)
    + ctzll (maskWord w mask 3)) / (8 * w)

/-- `__mmask{8,16,32}` value of the lanes `0 .. n-1`. -/
def maskReg (n : Nat) (mask : Nat → Bool) : Nat :=
  (List.range n).foldl (fun acc l => acc + (if mask l then 2 ^ l else 0)) 0

/-- `__builtin_ctz` / `__builtin_ctzll`: undefined on zero. -/
def builtinCtz (x : Nat) : Outcome Nat := if x = 0 then ub .ctzZero else ok (ctzFuel 64 x)

/-! ## Node functions -/

/-- `x += delta` on a `w`-byte unsigned integer with `delta = sign ? -1 : +1`
(e.g. avx2/node128.hpp 48-51). -/
def bump (w : Nat) (sign : Bool) (x : Nat) : Nat :=
  (x + (if sign then 256 ^ w - 1 else 1)) % 256 ^ w

/-- `for (z = a; z != a + n; ++z) arr[z] += delta` on an array of `w`-byte integers at
offset `base`. -/
def bumpLoop (b : Build) (base w a n : Nat) (sign : Bool) (m : Mem) : Outcome Mem :=
  forFrom a n (fun z m => do
    let x ← load b m (base + z * w) w
    store b m (base + z * w) w (bump w sign x)) m

/-- `update`, e.g. avx2/node128.hpp lines 42-65, avx512/node512.hpp lines 41-64.
In a release build an index beyond `fanout` would run past the arrays: reported as `oob`. -/
def nodeUpdate (b : Build) (c : NodeCfg) (m : Mem) (off i : Nat) (sign : Bool) : Outcome Mem :=
  if i = c.fanout then ok m else do
  massert b (decide (i < c.fanout))
  let j := i / c.seg
  let k := i % c.seg
  if c.simd b then
    let s1 ← loadRow c.sumTab (j + c.sumRow + (if sign then c.sumSign else 0)) c.sumB
    let v1 ← loadVec b m off c.vecB (if c.sumAligned then c.vecB else 1) c.sumB
    let m1 ← storeVec b m off c.vecB c.sumB (addLanes c.sumB v1 s1)
    let s2 ← loadRow c.keyTab (k + (if sign then c.keySign else 0)) c.keyB
    let v2 ← loadVec b m1 (c.keyOff off (j * c.seg)) c.vecB 1 c.keyB
    storeVec b m1 (c.keyOff off (j * c.seg)) c.vecB c.keyB (addLanes c.keyB v2 s2)
  else if j < c.num then
    let m1 ← bumpLoop b off c.sumB (j + 1) (c.num - (j + 1)) sign m
    bumpLoop b (c.keyOff off (j * c.seg)) c.keyB k (c.seg - k) sign m1
  else ub .oob

/-- `sum`, e.g. avx2/node128.hpp lines 67-70.  The addition happens in `summary_type`
(`uint32_t + uint16_t`, `uint32_t + uint32_t`, `uint64_t + uint32_t`). -/
def nodeSum (b : Build) (c : NodeCfg) (m : Mem) (off i : Nat) : Outcome Nat := do
  massert b (decide (i < c.fanout))
  let s ← load b m (c.sumOff off (i / c.seg)) c.sumB
  let k ← load b m (c.keyOff off i) c.keyB
  pure ((s + k) % 256 ^ c.sumB)

/-- `for (z = z0; z != z0 + fuel; ++z, ++i) if (summary[z] > x) break;`
(e.g. avx2/node128.hpp 78-80). -/
def segLoop (b : Build) (c : NodeCfg) (m : Mem) (off x : Nat) : Nat → Nat → Nat → Outcome Nat
  | 0, _, i => ok i
  | fuel + 1, z, i => do
    let s ← load b m (c.sumOff off z) c.sumB
    if s > x then ok i else segLoop b c m off x fuel (z + 1) (i + 1)

/-- `for (z = 0; z != segment_size; ++z, ++i) if (keys[i] > x) break;`
(e.g. avx2/node128.hpp 84-86). -/
def keyLoop (b : Build) (c : NodeCfg) (m : Mem) (off x : Nat) : Nat → Nat → Outcome Nat
  | 0, i => ok i
  | fuel + 1, i => do
    let s ← load b m (c.keyOff off i) c.keyB
    if s > x then ok i else keyLoop b c m off x fuel (i + 1)

/-- First half of `search`: the segment index `i`
(SIMD: avx2/node128.hpp 88-90, avx512/node512.hpp 77-79; scalar: avx2/node128.hpp 78-80). -/
def searchSeg (b : Build) (c : NodeCfg) (m : Mem) (off x : Nat) : Outcome Nat :=
  if c.simd b then do
    let v ← loadVec b m off c.vecB 1 c.sumB
    let cmp := cmpgt c.sumB v x
    if c.avx512 then
      let r := maskReg c.num cmp
      if r ≠ 0 then do
        let t ← builtinCtz r
        ok (sub64 t 1)
      else ok (c.num - 1)
    else ok (sub64 (indexFs c.sumB cmp) 1)
  else segLoop b c m off x (c.num - 1) 1 0

/-- Second half of `search`: from the first key `i` of the segment to the position
(SIMD: avx2/node128.hpp 94-97, avx512/node512.hpp 83-87; scalar: avx2/node128.hpp 84-86). -/
def searchKey (b : Build) (c : NodeCfg) (m : Mem) (off x i : Nat) : Outcome Nat :=
  if c.simd b then do
    let v ← loadVec b m (c.keyOff off i) c.vecB 1 c.keyB
    let cmp := cmpgt c.keyB v x
    if c.avx512 then
      let r := maskReg c.seg cmp
      massert b (decide (r > 0))
      let t ← builtinCtz r
      ok (add64 i t)
    else ok (add64 i (indexFs c.keyB cmp))
  else keyLoop b c m off x c.seg i

/-- The part of `search` after the guard (e.g. avx2/node128.hpp 76-100). -/
def searchBody (b : Build) (c : NodeCfg) (m : Mem) (off x : Nat) : Outcome (Nat × Nat) := do
  let i ← searchSeg b c m off x
  massert b (decide (i < c.num))
  let s ← load b m (c.sumOff off i) c.sumB
  let x' := sub64 x s
  let p ← searchKey b c m off x' (mul64 i c.seg)
  if c.tailAssert then massert b (decide (p < c.fanout))
  if p = 0 then pure (p, 0) else do
    let s ← nodeSum b c m off (p - 1)
    pure (p, s)

/-- `search`, e.g. avx2/node128.hpp lines 72-101; result is `search_result {position, sum}`
(util.hpp 5-8).  The operand of `assert` is evaluated only when assertions are on. -/
def nodeSearch (b : Build) (c : NodeCfg) (m : Mem) (off x : Nat) : Outcome (Nat × Nat) :=
  match c.guard with
  | .nothing => searchBody b c m off x
  | .assertLt => do
    if b.ndebug then pure () else do
      let s ← nodeSum b c m off (c.fanout - 1)
      massert b (decide (x < s))
    searchBody b c m off x
  | .early => do
    let s ← nodeSum b c m off (c.fanout - 1)
    if x ≥ s then
      let s' ← nodeSum b c m off (c.fanout - 1)
      pure (c.fanout, s')
    else searchBody b c m off x

/-- `std::fill(out, out + bytes, 0)`, util.hpp line 14. -/
def fillZero (b : Build) (m : Mem) (off len : Nat) : Outcome Mem := do
  chk b m off len 1
  pure { m with byte := fun a => if off ≤ a ∧ a < off + len then 0 else m.byte a }

/-- The body of the outer loop of `build_node_prefix_sums` for segment `i`,
util.hpp lines 20-28; `input` is the array of values of the node. -/
def buildSeg (b : Build) (c : NodeCfg) (input : Vec Nat) (off i : Nat) (m : Mem) :
    Outcome Mem := do
  let x0 ← input.get (i * c.seg)
  let m ← store b m (c.keyOff off (i * c.seg)) c.keyB x0
  let m ← forFrom 1 (c.seg - 1) (fun j m => do
    let prev ← load b m (c.keyOff off (i * c.seg + j - 1)) c.keyB
    let x ← input.get (i * c.seg + j)
    store b m (c.keyOff off (i * c.seg + j)) c.keyB ((prev + x) % 256 ^ c.keyB)) m
  if i + 1 < c.num then do
    let s ← load b m (c.sumOff off i) c.sumB
    let k ← load b m (c.keyOff off (i * c.seg + c.seg - 1)) c.keyB
    store b m (c.sumOff off (i + 1)) c.sumB ((s + k) % 256 ^ c.sumB)
  else ok m

/-- `Node::build` = `build_node_prefix_sums<summary_type, key_type>(input, out, segment_size,
num_segments, bytes)`, util.hpp lines 10-30. -/
def nodeBuild (b : Build) (c : NodeCfg) (input : Vec Nat) (off : Nat) (m : Mem) :
    Outcome Mem := do
  let m ← fillZero b m off c.bytes
  let m ← store b m (c.sumOff off 0) c.sumB 0
  forN c.num (buildSeg b c input off) m

end MRS
