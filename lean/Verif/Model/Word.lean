import Verif.Model.Node

/-!
# Word-level algorithms

`include/rank_select_algorithms/common.hpp`, `rank.hpp`, `select.hpp`.

`uint64_t` bitmap words are `BitVec 64`; counters and positions are `Nat` below `2^64`.
All instruction-set macros (`__SSE4_2__`, `__BMI2__`, `__AVX2__`, `__AVX512VL__`) are taken as
defined: when one is missing, the modes that need it do not exist and a program using them does
not compile.  `_mm_prefetch` has no observable effect and is left out.
-/

set_option autoImplicit false

namespace MRS
open Outcome

/-- A 64-bit word. -/
abbrev Word := BitVec 64

/-- `table[i]` for a constant table stored with `per` entries per row. -/
def look {α : Type} (t : List (List α)) (per i : Nat) : Outcome α :=
  match t[i / per]? with
  | some row => match row[i % per]? with
    | some a => ok a
    | none => ub .oob
  | none => ub .oob

/-- `x << i` on `uint64_t`: undefined for `i >= 64`. -/
def shl64 (x : Word) (i : Nat) : Outcome Word := if i < 64 then ok (x <<< i) else ub .shift

/-- `x >> i` on `uint64_t`: undefined for `i >= 64`. -/
def shr64 (x : Word) (i : Nat) : Outcome Word := if i < 64 then ok (x >>> i) else ub .shift

/-! ## popcount -/

/-- `__builtin_popcountll` (`popcnt` instruction). -/
def popcnt (x : Word) : Nat := ((List.range 64).filter fun j => x.getLsbD j).length

/-- The first three lines shared by `popcount_u64<broadword>` (common.hpp 266-268) and the two
sdsl selects (select.hpp 31-33, 98-100): the number of ones of every byte. -/
def sidewaysCounts (x : Word) : Word :=
  let x := x - ((x >>> 1) &&& 0x5555555555555555#64)
  let x := (x &&& 0x3333333333333333#64) + ((x >>> 2) &&& 0x3333333333333333#64)
  (x + (x >>> 4)) &&& 0x0F0F0F0F0F0F0F0F#64

/-- `popcount_u64<popcount_modes::broadword>`, common.hpp lines 264-271. -/
def popcountBroadword (x : Word) : Nat :=
  ((0x0101010101010101#64 * sidewaysCounts x) >>> 56).toNat

/-- `ones_step_4`, common.hpp line 236. -/
def onesStep4 : Word := 0x1111111111111111#64
/-- `ones_step_8`, common.hpp line 237. -/
def onesStep8 : Word := 0x0101010101010101#64
/-- `msbs_step_8`, common.hpp line 238. -/
def msbsStep8 : Word := 0x80#64 * onesStep8

/-- `byte_counts`, common.hpp lines 241-246 (`*` binds tighter than `&`). -/
def byteCounts (x : Word) : Word :=
  let x := x - ((x &&& (0xa#64 * onesStep4)) >>> 1)
  let x := (x &&& (3#64 * onesStep4)) + ((x >>> 2) &&& (3#64 * onesStep4))
  (x + (x >>> 4)) &&& (0x0f#64 * onesStep8)

/-- `popcount_u64<mode>`, common.hpp lines 259-276: `0` is broadword, `1` is builtin, every other
mode falls into the unspecialised template (lines 259-263), which asserts and returns 0. -/
def popcountU64 (b : Build) (mode : Nat) (x : Word) : Outcome Nat :=
  match mode with
  | 0 => ok (popcountBroadword x)
  | 1 => ok (popcnt x)
  | _ => do
    massert b false
    ok 0

/-- Byte `j` of a 64-bit lane. -/
def byteAt (x : Word) (j : Nat) : BitVec 8 := x.extractLsb' (8 * j) 8
/-- 16-bit lane `j` of a 64-bit lane. -/
def halfAt (x : Word) (j : Nat) : BitVec 16 := x.extractLsb' (16 * j) 16
/-- The 64-bit lane with the given bytes. -/
def ofBytes (f : Nat → BitVec 8) : Word :=
  f 7 ++ f 6 ++ f 5 ++ f 4 ++ f 3 ++ f 2 ++ f 1 ++ f 0
/-- The 64-bit lane with the given 16-bit lanes. -/
def ofHalves (f : Nat → BitVec 16) : Word := f 3 ++ f 2 ++ f 1 ++ f 0

/-- `_mm256_sub_epi8` on one 64-bit lane. -/
def sub8 (x y : Word) : Word := ofBytes fun j => byteAt x j - byteAt y j
/-- `_mm256_add_epi8` on one 64-bit lane. -/
def add8 (x y : Word) : Word := ofBytes fun j => byteAt x j + byteAt y j
/-- `_mm256_srli_epi16` on one 64-bit lane. -/
def srl16 (x : Word) (k : Nat) : Word := ofHalves fun j => halfAt x j >>> k
/-- `_mm256_sad_epu8(x, 0)` on one 64-bit lane: the sum of its bytes. -/
def sad (x : Word) : Nat :=
  (byteAt x 0).toNat + (byteAt x 1).toNat + (byteAt x 2).toNat + (byteAt x 3).toNat
    + (byteAt x 4).toNat + (byteAt x 5).toNat + (byteAt x 6).toNat + (byteAt x 7).toNat

/-- One 64-bit lane of `popcount_m256i` (common.hpp 280-289) and of `popcount_m512i`
(common.hpp 293-302).  Every intrinsic used works inside 64-bit lanes and the two functions are
the same text with `256` / `512`. -/
def popcountLane (v : Word) : Nat :=
  let m1 : Word := ofBytes fun _ => 0x55#8
  let m2 : Word := ofBytes fun _ => 0x33#8
  let m4 : Word := ofBytes fun _ => 0x0F#8
  let t1 := sub8 v (srl16 v 1 &&& m1)
  let t2 := add8 (t1 &&& m2) (srl16 t1 2 &&& m2)
  let t3 := add8 t2 (srl16 t2 4) &&& m4
  sad t3

/-! ## Prefix sums of vector lanes -/

/-- Four or eight 64-bit lanes. -/
abbrev Lanes := Nat → Nat

/-- `_mm256_add_epi64` / `_mm512_add_epi64`. -/
def addL (x y : Lanes) : Lanes := fun j => add64 (x j) (y j)

/-- `_MM_SHUFFLE(z, y, x, w)`. -/
def mmShuffle (z y x w : Nat) : Nat := z * 64 + y * 16 + x * 4 + w

/-- `_mm256_maskz_permutex_epi64(k, a, imm)`: lane `j` is `a[(imm >> 2j) & 3]` or 0. -/
def permutex (k : Nat) (a : Lanes) (imm : Nat) : Lanes :=
  fun j => if k.testBit j then a (imm / 4 ^ j % 4) else 0

/-- `_mm512_maskz_permutexvar_epi64(k, idx, a)`: lane `j` is `a[idx[j] & 7]` or 0; `idx` is
listed from the highest lane down as in `_mm512_set_epi64`. -/
def permutexvar (k : Nat) (idx : List Nat) (a : Lanes) : Lanes :=
  fun j => if k.testBit j then a (idx.getD (7 - j) 0 % 8) else 0

/-- `prefixsum_m256i`, common.hpp lines 318-324. -/
def prefixsum256 (x : Lanes) : Lanes :=
  let x := addL x (permutex 0b11111110 x (mmShuffle 2 1 0 3))
  addL x (permutex 0b11111100 x (mmShuffle 1 0 3 2))

/-- `prefixsum_m512i`, common.hpp lines 326-334. -/
def prefixsum512 (x : Lanes) : Lanes :=
  let i1 := [6, 5, 4, 3, 2, 1, 0, 7]
  let i2 := [5, 4, 3, 2, 1, 0, 7, 6]
  let i3 := [3, 2, 1, 0, 7, 6, 5, 4]
  let x := addL x (permutexvar 0b11111110 i1 x)
  let x := addL x (permutexvar 0b11111100 i2 x)
  addL x (permutexvar 0b11110000 i3 x)

/-! ## select in a word -/

/-- `_pdep_u64(src, mask)` by its definition: scan `mask` from bit `m`, deposit bit `k` of `src`
at each set bit. -/
def pdepFrom (src mask : Word) : Nat → Nat → Nat → Word → Word
  | 0, _, _, d => d
  | fuel + 1, m, k, d =>
    if mask.getLsbD m then
      pdepFrom src mask fuel (m + 1) (k + 1) (if src.getLsbD k then d ||| (1#64 <<< m) else d)
    else pdepFrom src mask fuel (m + 1) k d

/-- `_pdep_u64`. -/
def pdep (src mask : Word) : Word := pdepFrom src mask 64 0 0 0#64

/-- `_tzcnt_u64`: 64 on zero. -/
def tzcntFrom (x : Word) : Nat → Nat → Nat
  | 0, m => m
  | fuel + 1, m => if x.getLsbD m then m else tzcntFrom x fuel (m + 1)

/-- `_tzcnt_u64`. -/
def tzcnt (x : Word) : Nat := tzcntFrom x 64 0

/-- `lt_sel[i]`, common.hpp 53-148. -/
def ltSelAt (i : Nat) : Outcome Nat := look Tables.ltSel 32 i
/-- `select_in_byte[i]`, common.hpp 151-233. -/
def selectInByteAt (i : Nat) : Outcome Nat := look Tables.selectInByte 32 i
/-- `ps_overflow[i]`, common.hpp 28-50. -/
def psOverflowAt (i : Nat) : Outcome Nat := look Tables.psOverflow 1 i
/-- `lt_cnt[i]`, common.hpp 14-25. -/
def ltCntAt (i : Nat) : Outcome Nat := look Tables.ltCnt 32 i

/-- `base + lt_sel[i]`. -/
def plusLtSel (base i : Nat) : Outcome Nat := do
  let v ← ltSelAt i
  ok (base + v)

/-- `select_u64<broadword_sdsl>`, select.hpp lines 25-74. -/
def selectBroadwordSdsl (x : Word) (k : Nat) : Outcome Nat := do
  let i : Word := BitVec.ofNat 64 k + 1#64
  let s := 0x0101010101010101#64 * sidewaysCounts x
  let o ← psOverflowAt i.toNat
  let b := s + BitVec.ofNat 64 o
  let i := (i - 1#64) <<< 8
  if b &&& 0x0000000080000000#64 ≠ 0#64 then
    if b &&& 0x0000000000008000#64 ≠ 0#64 then
      if b &&& 0x0000000000000080#64 ≠ 0#64 then
        plusLtSel 0 ((x &&& 0xFF#64) + i).toNat
      else
        plusLtSel 8 ((((x >>> 8) &&& 0xFF#64) + i - ((s &&& 0xFF#64) <<< 8)) &&& 0x7FF#64).toNat
    else
      if b &&& 0x0000000000800000#64 ≠ 0#64 then
        plusLtSel 16 ((((x >>> 16) &&& 0xFF#64) + i - (s &&& 0xFF00#64)) &&& 0x7FF#64).toNat
      else
        plusLtSel 24 ((((x >>> 24) &&& 0xFF#64) + i - ((s >>> 8) &&& 0xFF00#64)) &&& 0x7FF#64).toNat
  else
    if b &&& 0x0000800000000000#64 ≠ 0#64 then
      if b &&& 0x0000008000000000#64 ≠ 0#64 then
        plusLtSel 32 ((((x >>> 32) &&& 0xFF#64) + i - ((s >>> 16) &&& 0xFF00#64)) &&& 0x7FF#64).toNat
      else
        plusLtSel 40 ((((x >>> 40) &&& 0xFF#64) + i - ((s >>> 24) &&& 0xFF00#64)) &&& 0x7FF#64).toNat
    else
      if b &&& 0x0080000000000000#64 ≠ 0#64 then
        plusLtSel 48 ((((x >>> 48) &&& 0xFF#64) + i - ((s >>> 32) &&& 0xFF00#64)) &&& 0x7FF#64).toNat
      else
        plusLtSel 56 ((((x >>> 56) &&& 0xFF#64) + i - ((s >>> 40) &&& 0xFF00#64)) &&& 0x7FF#64).toNat

/-- The common part of the two succinct selects, select.hpp lines 81-84 and 122-125. -/
def geqStep8 (x : Word) (k : Nat) : Word :=
  let byteSums := byteCounts x * onesStep8
  let kStep8 := BitVec.ofNat 64 k * onesStep8
  ((kStep8 ||| msbsStep8) - byteSums) &&& msbsStep8

/-- The end of the two succinct selects, select.hpp lines 87-89 and 128-130. -/
def succinctTail (x : Word) (k place : Nat) : Outcome Nat := do
  let byteSums := byteCounts x * onesStep8
  let sh ← shr64 (byteSums <<< 8) place
  let byteRank := BitVec.ofNat 64 k - (sh &&& 0xFF#64)
  let xs ← shr64 x place
  let v ← selectInByteAt ((xs &&& 0xFF#64) ||| (byteRank <<< 8)).toNat
  ok (place + v)

/-- `select_u64<broadword_succinct>`, select.hpp lines 76-90. -/
def selectBroadwordSuccinct (b : Build) (x : Word) (k : Nat) : Outcome Nat := do
  massert b (decide (k < popcountBroadword x))
  let place := (((geqStep8 x k >>> 7) * onesStep8) >>> 53) &&& ~~~0x7#64
  succinctTail x k place.toNat

/-- `select_u64<sse4_sdsl>`, select.hpp lines 93-115. -/
def selectSse4Sdsl (x : Word) (k : Nat) : Outcome Nat := do
  let i : Word := BitVec.ofNat 64 k + 1#64
  let s := 0x0101010101010101#64 * sidewaysCounts x
  let o ← psOverflowAt i.toNat
  let b := (s + BitVec.ofNat 64 o) &&& 0x8080808080808080#64
  let byteNr := tzcnt b / 8
  let s := s <<< 8
  let sh ← shr64 s (byteNr * 8)
  let i := i - (sh &&& 0xFF#64)
  let xs ← shr64 x (byteNr * 8)
  let v ← ltSelAt (((i - 1#64) <<< 8) + (xs &&& 0xFF#64)).toNat
  ok (byteNr * 8 + v)

/-- `select_u64<sse4_succinct>`, select.hpp lines 117-131. -/
def selectSse4Succinct (b : Build) (x : Word) (k : Nat) : Outcome Nat := do
  massert b (decide (k < popcountBroadword x))
  let place := popcnt (geqStep8 x k) * 8
  succinctTail x k place

/-- `select_u64<pdep>`, select.hpp lines 134-137. -/
def selectPdep (x : Word) (k : Nat) : Outcome Nat := do
  let one ← shl64 1#64 k
  ok (tzcnt (pdep one x))

/-- `select_u64<mode>`, select.hpp lines 12-23 and the specialisations. -/
def selectU64 (b : Build) (mode : Nat) (x : Word) (k : Nat) : Outcome Nat :=
  match mode with
  | 0 => selectBroadwordSdsl x k
  | 1 => selectBroadwordSuccinct b x k
  | 2 => selectSse4Sdsl x k
  | 3 => selectSse4Succinct b x k
  | 4 => selectPdep x k
  | _ => do
    massert b false
    ok 0

end MRS
