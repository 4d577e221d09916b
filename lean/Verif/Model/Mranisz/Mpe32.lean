import Verif.Model.Mranisz.Mpe
import Verif.Model.Mranisz.Rank32

/-!
# The 32-bit compressed rank that leaves out pairs: `RankMPE32` of include/mranisz/shared/rank.hpp

`RankMPE32<RANK_MPE1>` (`build_v1`, `getRank_v1`), `RankMPE32<RANK_MPE2>` and `RankMPE32<RANK_MPE3>`
(`build_v2`, `getRank_v2`).  What has the same text as in `RankMPE64` is taken from `Mpe.lean`: the steps
over a block that do not depend on the width of the counters.

* Lengths, positions and ranks are `unsigned int`: `textLen` is below `2^32`; the padded length, the rank,
  the length of the stored bytes and the size of their array are reduced modulo `2^32`.  The other counters
  (blocks, bytes, pairs) stay below `2^32` for every such text and are `Nat` without reduction.
* `blockToCompress` has one item for each block; in `RankMPE64` it has one more.
* `blockToCompress[i] << 28` is a shift of an `int`.  For the values that `build` writes it does not
  overflow; for other values (read behind the end of the array) it is reduced modulo `2^32`.
* A chain of `unsigned int` additions to the rank of a query is reduced once, at its end.
* Memory from `new[]`, loops and flags as in `Mpe.lean`.
-/

set_option autoImplicit false

namespace MRS.Mran
open Outcome

/-- `extendedTextLen / BLOCK_LEN`, rank.hpp lines 1828-1830 (and 2038-2040). -/
def nblkM32 (t : Vec Byte) : Nat :=
  (if t.len % 128 > 0 then add32 t.len (128 - t.len % 128) else t.len) / 128

/-- `emptyBlock`, rank.hpp lines 1832-1853 (and 2042-2063). -/
def emptyBlocksM32 (t : Vec Byte) : Outcome (Vec (Option Bool)) :=
  forN (nblkM32 t) (emptyStepM t) (fresh (nblkM32 t))

/-- `notEmptyBlocks`, rank.hpp lines 1855-1857 (and 2065-2067). -/
def notEmptyM32 (t : Vec Byte) (e : Vec (Option Bool)) : Outcome Nat :=
  forN (nblkM32 t) (fun i n => do
    let b ← uget e i
    ok (if b then n else n + 1)) 0

/-! ## The pass over the text -/

/-- Body of the loop over the bytes of a block, rank.hpp lines 1876-1883 (and 2086-2093). -/
def passByteM32 (t : Vec Byte) (i j : Nat) (s : PassM) : Outcome PassM := do
  if i + j < t.len then do
    let c ← t.get (i + j)
    let b ← s.bits.set s.bc (some c)
    ok { s with bits := b, bc := s.bc + 1, rank := add32 s.rank (popcnt (c.setWidth 64)) }
  else do
    let b ← s.bits.set s.bc (some 0#8)
    ok { s with bits := b, bc := s.bc + 1 }

/-- Body of the loop over the blocks, rank.hpp lines 1869-1884 (and 2079-2094). -/
def passBlockM32 (t : Vec Byte) (e : Vec (Option Bool)) (q : Nat) (s : PassM) : Outcome PassM := do
  let r ← s.ranks.set s.rc (some s.rank)
  let r ← r.set (s.rc + 1) (some s.bc)
  let s := { s with ranks := r, rc := s.rc + 2 }
  if ← uget e q then do
    let c ← t.get (128 * q)
    ok (if c.toNat = 255 then { s with rank := add32 s.rank 1024 } else s)
  else forN 128 (passByteM32 t (128 * q)) s

/-- `ranksTempLen`, rank.hpp lines 1862-1865 (and 2072-2075). -/
def tmpLenM32 (t : Vec Byte) : Nat :=
  let n := 2 * nblkM32 t + 2
  if n % (2 * 16) > 0 then n + (2 * 16 - n % (2 * 16)) else n

/-- `bitsTemp` and `ranksTemp`, rank.hpp lines 1859-1890 (and 2069-2100); `n` is `notEmptyBlocks`. -/
def passM32 (t : Vec Byte) (e : Vec (Option Bool)) (n : Nat) : Outcome PassM := do
  let s ← forN (nblkM32 t) (passBlockM32 t e) ⟨fresh (tmpLenM32 t), fresh (n * 128), 0, 0, 0⟩
  let r ← s.ranks.set s.rc (some s.rank)
  let r ← r.set (s.rc + 1) (some 0)
  let rc := s.rc + 2
  let r ← forFrom rc (tmpLenM32 t - rc) (fun i r => r.set i (some 0)) r
  ok { s with ranks := r, rc := rc }

/-! ## Which blocks to compress, and writing them -/

/-- The loop that fills `blockToCompress`, rank.hpp lines 1892-1914 (and 2102-2165). -/
def planM32 (ty : MpeType) (g : Option (Nat → Byte)) (t : Vec Byte) (e : Vec (Option Bool))
    (tmp : Vec (Option Byte)) : Outcome Plan :=
  forN (nblkM32 t) (planBlock ty e tmp) ⟨memory g (nblkM32 t), 0, 0, 0, 0, 0⟩

/-- `bitsLen`, rank.hpp lines 1916-1918 (and 2167-2171); `n` is `notEmptyBlocks`. -/
def bitsLenM32 (n : Nat) (s : Plan) : Nat :=
  (s.c3 * ((128 / 2 * 2) / 8) + s.c1 * ((128 / 2) / 8) + s.c2 * ((128 / 2) / 8) + sub32 (n * 128) (2 * s.pairs) + 8) % W32

/-- Items of an array of `n + 128` bytes at address `addr` from the next multiple of 128 on, rank.hpp lines
1920-1922 (and 2173-2175). -/
def bytesM32 (addr n : Nat) : Nat := add32 n 128 - (128 - addr % 128) % 128

/-- Offsets and blocks, then the offsets of the padding: rank.hpp lines 1924-1991 (and 2177-2300). -/
def encodeM32 (t : Vec Byte) (e : Vec (Option Bool)) (flags tmp out : Vec (Option Byte)) (ranks : Vec (Option Nat)) :
    Outcome Enc := do
  let s ← forN (nblkM32 t) (encBlock e flags tmp) ⟨ranks, out, 0, 1, 0⟩
  let r ← forN ((tmpLenM32 t - s.rc + 1) / 2) (fun k r => do
    let o ← uget r (sub32 s.rc 2)
    r.set (s.rc + 2 * k) (some o)) s.ranks
  ok { s with ranks := r }

/-! ## Superblocks -/

/-- What is added for the first block: `1 << 30` if it is compressed, rank.hpp lines 2022-2023, or
`blockToCompress[i] << 28`, line 2331. -/
def markFirst32 (ty : MpeType) (b : Byte) : Nat :=
  if ty = .mpe1 then (if b ≠ 0#8 then 2 ^ 30 else 0) else shl32 b.toNat 28

/-- `bucket` for the superblock that starts at block `i`, rank.hpp lines 2009-2023 (and 2318-2331); the
array is all zero when the body starts. -/
def bucketM32 (ty : MpeType) (g : Option (Nat → Byte)) (tmp : Vec (Option Nat)) (fl : Vec (Option Byte)) (i : Nat) :
    Outcome (Vec Nat) := do
  let b : Vec Nat := ⟨18, fun _ => 0⟩
  let r ← uget tmp (2 * i)
  let b ← b.set 0 r
  let b ← forN 15 (fun j b => do
    let r ← uget tmp (2 * (i + j + 1))
    let b0 ← b.get 0
    let x ← b.get (j / 2 + 1)
    b.set (j / 2 + 1) (add32 x (shl32 (sub32 r b0) (16 * (j % 2))))) b
  let o ← uget tmp (2 * i + 1)
  let b ← b.set 9 o
  let b ← forN 15 (fun j b => do
    let o ← uget tmp (2 * (i + j + 1) + 1)
    let b9 ← b.get 9
    let f ← flagAt g fl (i + j + 1)
    let x ← b.get (9 + 1 + j / 2)
    b.set (9 + 1 + j / 2) (add32 x (shl32 (add32 (sub32 o b9) (markOf ty f)) (16 * (j % 2))))) b
  let f ← flagAt g fl i
  let x ← b.get (9 + 1)
  b.set (9 + 1) (add32 x (markFirst32 ty f))

/-- Body of the loop over superblocks, rank.hpp lines 2008-2028 (and 2317-2336), superblock number `k`. -/
def superStepM32 (ty : MpeType) (g : Option (Nat → Byte)) (tmp : Vec (Option Nat)) (fl : Vec (Option Byte)) (k : Nat)
    (ranks : Vec (Option Nat)) : Outcome (Vec (Option Nat)) := do
  let b ← bucketM32 ty g tmp fl (16 * k)
  forN 18 (fun j r => do
    let x ← b.get j
    r.set (18 * k + j) (some x)) ranks

/-! ## `RankMPE32` -/

/-- `build`, rank.hpp lines 3245-3254 with `build_v1`, lines 1825-2033, and `build_v2`, lines 2035-2341;
`aB`, `aR` are the addresses of `bits` and `ranks`.  The members (lines 3136-3144) are those of
`RankMPE64`. -/
def buildMpe32 (ty : MpeType) (g : Junk) (aB aR : Nat) (t : Vec Byte) : Outcome Mpe := do
  let e ← emptyBlocksM32 t
  let n ← notEmptyM32 t e
  let s ← passM32 t e n
  let pl ← planM32 ty g.flags t e s.bits
  let bitsLen := bitsLenM32 n pl
  let en ← encodeM32 t e pl.flags s.bits (memory g.bits (bytesM32 aB bitsLen)) s.ranks
  let ranksLen := tmpLenM32 t / (2 * 16) * 18
  let ranks ← forN (tmpLenM32 t / 2 / 16) (superStepM32 ty g.flags en.ranks pl.flags)
    (memory g.ranks (ranksLen + room32 aR))
  ok ⟨ranks, ranksLen, en.out, bitsLen, t.len⟩

/-! ## Queries -/

/-- Offset and kind of block `n > 0` from a number of the superblock: `getRank_v1`, rank.hpp lines
2372-2382. -/
def entry1_32 (w n : Nat) : Nat × Nat :=
  if n % 2 = 1 then (w &&& 0x3FFF, (w >>> 15) &&& 1) else ((w >>> 16) &&& 0x3FFF, w >>> 31)

/-- The same in `getRank_v2`, rank.hpp lines 2755-2765. -/
def entry2_32 (w n : Nat) : Nat × Nat :=
  if n % 2 = 1 then (w &&& 0x0FFF, (w >>> 14) &&& 3) else ((w >>> 16) &&& 0x0FFF, w >>> 30)

/-- Where block `n` of the superblock at `p` is stored, and how: `getRank_v1`, rank.hpp lines 2369-2388. -/
def place1_32 (ranks : Vec (Option Nat)) (p n : Nat) : Outcome (Nat × Nat) := do
  let o ← uget ranks (p + 9)
  let (d, f) ← (if n > 0 then do
      let w ← uget ranks (p + (9 + (n + 1) / 2))
      ok (entry1_32 w n)
    else do
      let w ← uget ranks (p + (9 + 1))
      ok (0, (w >>> 30) &&& 1))
  ok (o + d, if f ≠ 0 then 3 else 0)

/-- The same in `getRank_v2`, rank.hpp lines 2752-2771. -/
def place2_32 (ranks : Vec (Option Nat)) (p n : Nat) : Outcome (Nat × Nat) := do
  let o ← uget ranks (p + 9)
  let (d, f) ← (if n > 0 then do
      let w ← uget ranks (p + (9 + (n + 1) / 2))
      ok (entry2_32 w n)
    else do
      let w ← uget ranks (p + (9 + 1))
      ok (0, (w >>> 28) &&& 3))
  ok (o + d, f)

/-- A position of a block becomes a position of the bytes that are stored of it: `pointer`, `rank`, `i`
after rank.hpp lines 2389-2402 (version 1) and 2772-2811. -/
def unpack32 (strict : Bool) (bits : Vec (Option Byte)) (kind off rank i : Nat) : Outcome (Nat × Nat × Nat) :=
  match kind with
  | 1 => do
    let w ← load8 strict bits off
    let m2 ← mask2At (i / 16)
    let m3 ← mask3At (i / 16)
    let j := if w &&& m2 ≠ 0#64 then sub32 i (i % 16) else i
    ok (off + 8, rank, sub32 j (16 * popcnt (w &&& m3)))
  | 2 => do
    let w ← load8 strict bits off
    let m2 ← mask2At (i / 16)
    let m3 ← mask3At (i / 16)
    let (rank, j) := if w &&& m2 ≠ 0#64 then (rank + i % 16, sub32 i (i % 16)) else (rank, i)
    let d := 16 * popcnt (w &&& m3)
    ok (off + 8, rank + d, sub32 j d)
  | 3 => do
    let w1 ← load8 strict bits off
    let w2 ← load8 strict bits (off + 8)
    let m2 ← mask2At (i / 16)
    let m3 ← mask3At (i / 16)
    let (rank, j) := if w1 &&& m2 ≠ 0#64 then
        ((if w2 &&& m2 ≠ 0#64 then rank + i % 16 else rank), sub32 i (i % 16))
      else (rank, i)
    ok (off + 16, rank + 16 * popcnt (w2 &&& m3), sub32 j (16 * popcnt (w1 &&& m3)))
  | _ => ok (off, rank, i)

/-- `rank`, rank.hpp lines 3256-3265 with `getRank_v1`, lines 2343-2724, and `getRank_v2`, lines
2726-3133; the chains of popcounts (lines 2403-2723 and 2812-3132) and the tables are those of
`RankMPE64`. -/
def rankMpe32 (ty : MpeType) (strict : Bool) (x : Mpe) (i : Nat) : Outcome Nat := do
  let start := i / 1024
  let p := 18 * (start / 16)
  let b0 ← uget x.ranks p
  let n := start % 16
  let rank ← (if n > 0 then do ok (add32 b0 (← slot1_32 x.ranks p n)) else ok b0)
  let i := i % 1024
  let rank2 ← (if n = 15 then uget x.ranks (p + 18) else do ok (add32 b0 (← slot2_32 x.ranks p n)))
  let diff := sub32 rank2 rank
  if diff &&& 1023 = 0 then ok (add32 rank (i * (diff >>> 10)))
  else do
    let (off, kind) ← (if ty = .mpe1 then place1_32 x.ranks p n else place2_32 x.ranks p n)
    let (off, rank, i) ← unpack32 strict x.bits kind off rank i
    let r ← inBytes strict x.bits off rank i
    ok (r % W32)

/-- `getSize`, rank.hpp lines 3334-3344; `bitsLen + 128` is an `unsigned int`. -/
def Mpe.bytes32 (x : Mpe) : Nat :=
  4 + 4 + 4 + 8 + 8 + (if x.ranksLen > 0 then (x.ranksLen + 32) * 4 else 0) +
    (if x.bitsLen > 0 then add32 x.bitsLen 128 * 1 else 0)

/-- What an object takes: members of 64 bytes with padding and three tables (rank.hpp lines 3136-3235), and
the two arrays that `build` allocates. -/
def Mpe.taken32 (x : Mpe) : Nat := 64 + 3 * (64 * 8) + 4 * (x.ranksLen + 32) + add32 x.bitsLen 128

end MRS.Mran
