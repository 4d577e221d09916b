import Verif.Model.Mranisz.Rank

/-!
# The 32-bit rank classes of include/mranisz/shared/rank.hpp

`RankBasic32<RANK_BASIC_STANDARD>`, `RankBasic32<RANK_BASIC_COMPRESSED_HEADERS>` and `RankCF32`.

* Lengths, positions and ranks are `unsigned int`: `textLen` is below `2^32`, the padded length and the
  rank are reduced modulo `2^32`.  The other counters (blocks, words, entries) stay below `2^32` for
  every such text and are `Nat` without reduction.
* A chain of `unsigned int` additions is reduced once, at its end.
* Memory from `new[]`, and what is left out, as in `Rank.lean`.
* `RankCF32` keeps ranks and 32-bit halves in one array of `unsigned int` and reads it through
  `unsigned long long*`: on a little-endian machine the value has the first half in its low bits.  The
  load is misaligned when the index is odd (the array starts at a multiple of 128); with `strict` that
  is undefined.  That the two types differ (strict aliasing) is not modelled as undefined.
-/

set_option autoImplicit false

namespace MRS.Mran
open Outcome

/-- `2^32`. -/
abbrev W32 : Nat := 4294967296

/-- `unsigned int` addition. -/
def add32 (a b : Nat) : Nat := (a + b) % W32
/-- `unsigned int` subtraction. -/
def sub32 (a b : Nat) : Nat := (a + (W32 - b % W32)) % W32
/-- `unsigned int` multiplication. -/
def mul32 (a b : Nat) : Nat := (a * b) % W32
/-- `x << s` on `unsigned int`, `s < 32`. -/
def shl32 (x s : Nat) : Nat := x * 2 ^ s % W32

/-- Items that remain after an array of `unsigned int` once `while (aligned % 128) ++aligned` has run on
memory with 32 extra items at address `addr`, rank.hpp lines 44-47. -/
def room32 (addr : Nat) : Nat := 32 - (128 - addr % 128) % 128 / 4

/-- `extendedTextLen / BLOCK_LEN`, rank.hpp lines 370-372 (and 1121-1123). -/
def nblk32 (t : Vec Byte) : Nat :=
  (if t.len % 64 > 0 then add32 t.len (64 - t.len % 64) else t.len) / 64

/-- `emptyBlock`, rank.hpp lines 374-395 (and 1125-1146). -/
def emptyBlocks32 (t : Vec Byte) : Outcome (Vec (Option Bool)) :=
  forN (nblk32 t) (emptyStep t) (fresh (nblk32 t))

/-- `notEmptyBlocks`, rank.hpp lines 397-399 (and 1148-1150). -/
def notEmpty32 (t : Vec Byte) (e : Vec (Option Bool)) : Outcome Nat :=
  forN (nblk32 t) (fun i n => do
    let b ← uget e i
    ok (if b then n else n + 1)) 0

/-! ## `RankBasic32`: the pass over the text -/

/-- Body of the loop over the bytes of a block, rank.hpp lines 58-67 (and 95-105). -/
def passByte32 (t : Vec Byte) (i j : Nat) (s : Pass) : Outcome Pass := do
  let bits ← (if j % 8 = 0 then s.bits.set s.bc (some 0#64) else ok s.bits)
  let bits ← (if i + j < t.len then do
      let c ← t.get (i + j)
      let w ← uget bits s.bc
      bits.set s.bc (some (w + (c.setWidth 64 <<< (8 * (8 - j % 8 - 1)))))
    else ok bits)
  if j % 8 = 7 then do
    let w ← uget bits s.bc
    ok { s with bits := bits, rank := add32 s.rank (popcnt w), bc := s.bc + 1 }
  else ok { s with bits := bits }

/-- Body of the loop over the blocks, rank.hpp lines 51-68 (and 88-106). -/
def passBlock32 (t : Vec Byte) (e : Vec (Option Bool)) (q : Nat) (s : Pass) : Outcome Pass := do
  let r ← s.ranks.set s.rc (some s.rank)
  let r ← r.set (s.rc + 1) (some s.bc)
  let s := { s with ranks := r, rc := s.rc + 2 }
  if ← uget e q then do
    let c ← t.get (64 * q)
    ok (if c.toNat = 255 then { s with rank := add32 s.rank 512 } else s)
  else forN 64 (passByte32 t (64 * q)) s

/-- The pass, rank.hpp lines 49-70 (and 86-108). -/
def pass32 (t : Vec Byte) (e : Vec (Option Bool)) (ranks : Vec (Option Nat))
    (bits : Vec (Option Word)) : Outcome Pass := do
  let s ← forN (nblk32 t) (passBlock32 t e) ⟨ranks, bits, 0, 0, 0⟩
  let r ← s.ranks.set s.rc (some s.rank)
  ok { s with ranks := r, rc := s.rc + 1 }

/-! ## `RankBasic32` -/

/-- `RankBasic32::build` with `T = RANK_BASIC_STANDARD`, rank.hpp lines 367-413 and `build_std`, lines
35-71; the fields after it are those of `Basic`. -/
def buildStd32 (aB aR : Nat) (t : Vec Byte) : Outcome Basic := do
  let e ← emptyBlocks32 t
  let n ← notEmpty32 t e
  let bitsLen := n * (64 / 8)
  let ranksLen := 2 * nblk32 t + 1
  let s ← pass32 t e (fresh (ranksLen + room32 aR)) (fresh (bitsLen + room aB))
  ok ⟨s.ranks, ranksLen, s.bits, bitsLen, t.len⟩

/-- `RankBasic32::getRank_std`, rank.hpp lines 148-208. -/
def rankStd32 (x : Basic) (i : Nat) : Outcome Nat := do
  let start := i / 512
  let rank ← uget x.ranks (2 * start)
  let i := i % 512
  let r2 ← uget x.ranks (2 * start + 2)
  let diff := sub32 r2 rank
  if diff &&& 511 = 0 then ok (add32 rank (i * (diff >>> 9)))
  else do
    let off ← uget x.ranks (2 * start + 1)
    ok ((← inBlock x.bits off rank i) % W32)

/-- `bucket` for the superblock that starts at block `i`, rank.hpp lines 129-139; the array is all zero
when the body starts (lines 126 and 142). -/
def bucket32 (beyond : Option (Nat → Bool)) (tmp : Vec (Option Nat)) (e : Vec (Option Bool)) (i : Nat) :
    Outcome (Vec Nat) := do
  let b : Vec Nat := ⟨19, fun _ => 0⟩
  let r ← uget tmp (2 * i)
  let b ← b.set 0 r
  let b ← forN 31 (fun j b => do
    let r ← uget tmp (2 * (i + j + 1))
    let b0 ← b.get 0
    let x ← b.get (j / 2 + 1)
    b.set (j / 2 + 1) (add32 x (shl32 (sub32 r b0) (16 * (j % 2))))) b
  let o ← uget tmp (2 * i + 1)
  let b ← b.set 17 o
  forN 31 (fun j b => do
    if !(← emptyAt beyond e (i + j)) then do
      let x ← b.get (17 + 1)
      b.set (17 + 1) (add32 x (shl32 1 (31 - j)))
    else ok b) b

/-- Body of the loop over superblocks, rank.hpp lines 129-143, superblock number `k`;
`rankCounter = 19 * k`. -/
def superStep32 (beyond : Option (Nat → Bool)) (tmp : Vec (Option Nat)) (e : Vec (Option Bool)) (k : Nat)
    (ranks : Vec (Option Nat)) : Outcome (Vec (Option Nat)) := do
  let b ← bucket32 beyond tmp e (32 * k)
  forN 19 (fun j r => do
    let x ← b.get j
    r.set (19 * k + j) (some x)) ranks

/-- `ranksTempLen`, rank.hpp lines 80-83. -/
def tmpLen32 (t : Vec Byte) : Nat :=
  let n := 2 * nblk32 t + 2
  if n % (2 * 32) > 0 then n + (2 * 32 - n % (2 * 32)) else n

/-- `RankBasic32::build` with `T = RANK_BASIC_COMPRESSED_HEADERS`, rank.hpp lines 367-413 and
`build_bch`, lines 73-146. -/
def buildBch32 (beyond : Option (Nat → Bool)) (aB aR : Nat) (t : Vec Byte) : Outcome Basic := do
  let e ← emptyBlocks32 t
  let n ← notEmpty32 t e
  let bitsLen := n * 8
  let s ← pass32 t e (fresh (tmpLen32 t)) (fresh (bitsLen + room aB))
  let r ← s.ranks.set s.rc (some 0)
  let tmp ← forFrom (s.rc + 1) (tmpLen32 t - (s.rc + 1)) (fun i r => r.set i (some 0)) r
  let ranksLen := tmpLen32 t / 2 / 32 * 19
  let ranks ← forN (tmpLen32 t / 2 / 32) (superStep32 beyond tmp e) (fresh (ranksLen + room32 aR))
  ok ⟨ranks, ranksLen, s.bits, bitsLen, t.len⟩

/-- The rank of block number `n > 0` of a superblock relative to its start, rank.hpp lines 217-220. -/
def slot1_32 (ranks : Vec (Option Nat)) (p n : Nat) : Outcome Nat := do
  let w ← uget ranks (p + (n + 1) / 2)
  ok (if n % 2 = 1 then w &&& 0xFFFF else w >>> 16)

/-- The same for the next block, rank.hpp lines 227-231. -/
def slot2_32 (ranks : Vec (Option Nat)) (p n : Nat) : Outcome Nat := do
  let w ← uget ranks (p + (n + 2) / 2)
  ok (if n % 2 = 0 then w &&& 0xFFFF else w >>> 16)

/-- `masks2[k]` of `RankBasic32`, rank.hpp lines 351-357. -/
def mask32At (k : Nat) : Outcome Word :=
  if k < 32 then ok (BitVec.ofNat 64 (masks32Table.getD k 0)) else ub .oob

/-- `RankBasic32::getRank_bch`, rank.hpp lines 210-297; `__builtin_popcount` of an `unsigned int` is the
popcount of the same value with 64 bits. -/
def rankBch32 (x : Basic) (i : Nat) : Outcome Nat := do
  let start := i / 512
  let p := 19 * (start / 32)
  let b0 ← uget x.ranks p
  let n := start % 32
  let rank ← (if n > 0 then do ok (add32 b0 (← slot1_32 x.ranks p n)) else ok b0)
  let i := i % 512
  let rank2 ← (if n = 31 then uget x.ranks (p + 19) else do ok (add32 b0 (← slot2_32 x.ranks p n)))
  let diff := sub32 rank2 rank
  if diff &&& 511 = 0 then ok (add32 rank (i * (diff >>> 9)))
  else do
    let off ← (if n > 0 then do
        let o ← uget x.ranks (p + 17)
        let f ← uget x.ranks (p + (17 + 1))
        let m ← mask32At n
        ok (o + 8 * popcnt (BitVec.ofNat 64 f &&& m))
      else uget x.ranks (p + 17))
    ok ((← inBlock x.bits off rank i) % W32)

/-- `RankBasic32::getSize`, rank.hpp lines 494-503. -/
def Basic.bytes32 (x : Basic) : Nat :=
  4 + 4 + 8 + 8 + (if x.ranksLen > 0 then (x.ranksLen + 32) * 4 else 0) +
    (if x.bitsLen > 0 then (x.bitsLen + 16) * 8 else 0)

/-- What an object takes: six pointers, three `unsigned int` (padded to 16 bytes), the tables `masks` and
`masks2`, which are members too (rank.hpp lines 300-357), and the two arrays that `build` allocates
(lines 39, 44, 76, 119). -/
def Basic.taken32 (x : Basic) : Nat :=
  48 + 16 + 64 * 8 + 32 * 4 + 4 * (x.ranksLen + 32) + 8 * (x.bitsLen + 16)

/-! ## `RankCF32` -/

/-- `unsigned int` as bits. -/
abbrev Half := BitVec 32

/-- Variables of the pass of `RankCF32::build`. -/
structure HPass where
  ranks : Vec (Option Nat)
  bits : Vec (Option Half)
  rank : Nat
  rc : Nat
  bc : Nat

/-- Body of the loop over the bytes of a block, rank.hpp lines 1167-1174. -/
def hpassByte (t : Vec Byte) (i j : Nat) (s : HPass) : Outcome HPass := do
  let bits ← (if j % 4 = 0 then s.bits.set s.bc (some 0#32) else ok s.bits)
  let bits ← (if i + j < t.len then do
      let c ← t.get (i + j)
      let w ← uget bits s.bc
      bits.set s.bc (some (w + (c.setWidth 32 <<< (8 * (4 - j % 4 - 1)))))
    else ok bits)
  if j % 4 = 3 then do
    let w ← uget bits s.bc
    ok { s with bits := bits, rank := add32 s.rank (popcnt (w.setWidth 64)), bc := s.bc + 1 }
  else ok { s with bits := bits }

/-- Body of the loop over the blocks, rank.hpp lines 1160-1175. -/
def hpassBlock (t : Vec Byte) (e : Vec (Option Bool)) (q : Nat) (s : HPass) : Outcome HPass := do
  let r ← s.ranks.set s.rc (some s.rank)
  let r ← r.set (s.rc + 1) (some s.bc)
  let s := { s with ranks := r, rc := s.rc + 2 }
  if ← uget e q then do
    let c ← t.get (64 * q)
    ok (if c.toNat = 255 then { s with rank := add32 s.rank 512 } else s)
  else forN 64 (hpassByte t (64 * q)) s

/-- The pass, rank.hpp lines 1158-1177. -/
def hpass (t : Vec Byte) (e : Vec (Option Bool)) (ranks : Vec (Option Nat))
    (bits : Vec (Option Half)) : Outcome HPass := do
  let s ← forN (nblk32 t) (hpassBlock t e) ⟨ranks, bits, 0, 0, 0⟩
  let r ← s.ranks.set s.rc (some s.rank)
  ok { s with ranks := r, rc := s.rc + 1 }

/-- The fields of `RankCF32` after `build`, rank.hpp lines 1071-1077. -/
structure CF32 where
  bits : Vec (Option Half)
  bitsLen : Nat
  textLen : Nat
  border : Nat
  blockBorder : Nat

/-- Variables of the last two loops of `build`. -/
structure CFSt32 where
  out : Vec (Option Half)
  ranks : Vec (Option Nat)
  lc : Nat
  rr : Nat
  oc : Nat

/-- `for (j = 0; j < INT_BLOCK_LEN; ++j) alignedBits[LCounter++] = bitsTemp[offset + j]`, rank.hpp
lines 1217-1219 and 1223-1226. -/
def copyInts (tmp : Vec (Option Half)) (off : Nat) (s : CFSt32) : Outcome CFSt32 :=
  forN 16 (fun j s => do
    let w ← uget tmp (off + j)
    let o ← s.out.set s.lc (some w)
    ok { s with out := o, lc := s.lc + 1 }) s

/-- Body of the loop over the blocks left of the border, rank.hpp lines 1208-1228;
`rankCounter = 2 * q`. -/
def cfStep32 (e : Vec (Option Bool)) (tmp : Vec (Option Half)) (q : Nat) (s : CFSt32) : Outcome CFSt32 := do
  let r ← uget s.ranks (2 * q)
  let o ← s.out.set s.lc (some (BitVec.ofNat 32 r))
  let s := { s with out := o, lc := s.lc + 1 }
  if ← uget e q then do
    let (rr, oc) ← findRight e (e.len + 1) s.rr s.oc
    let off ← uget s.ranks oc
    let ranks ← s.ranks.set oc (some s.lc)
    let s ← copyInts tmp off { s with ranks := ranks }
    ok { s with rr := rr + 1, oc := oc + 2 }
  else do
    let off ← uget s.ranks (2 * q + 1)
    copyInts tmp off s

/-- `RankCF32::build`, rank.hpp lines 1118-1236; `aB` is the address of `bits`; `findBorder` and
`findRight` are those of `RankCF64` (lines 1179-1192 and 1210-1214). -/
def buildCF32 (aB : Nat) (t : Vec Byte) : Outcome CF32 := do
  let e ← emptyBlocks32 t
  let n ← notEmpty32 t e
  let ranksLen := 2 * nblk32 t + 1
  let s ← hpass t e (fresh ranksLen) (fresh (n * 16))
  let border ← findBorder e (nblk32 t) 0 0 n
  let bitsLen := add32 (add32 (mul32 (sub32 border 1) 17) (mul32 (sub32 (nblk32 t) (sub32 border 1)) 2)) 16
  let c ← forN border (cfStep32 e s.bits) ⟨fresh (bitsLen + room32 aB), s.ranks, 0, border, 2 * border + 1⟩
  let c ← forFrom (2 * border) (ranksLen - 2 * border) (fun i c => do
    let r ← uget c.ranks i
    let o ← c.out.set c.lc (some (BitVec.ofNat 32 r))
    ok { c with out := o, lc := c.lc + 1 }) c
  ok ⟨c.out, bitsLen, t.len, border, border * 17⟩

/-- `*((unsigned long long*)(alignedBits + p))`, rank.hpp lines 1261-1354. -/
def loadPair (strict : Bool) (bits : Vec (Option Half)) (p : Nat) : Outcome Word := do
  if strict && decide (p % 2 = 1) then ub .misaligned
  else do
    let lo ← uget bits p
    let hi ← uget bits (p + 1)
    ok (hi ++ lo)

/-- `masks[k]` of `RankCF32`, rank.hpp lines 1086-1108. -/
def maskCF32At (k : Nat) : Outcome Word :=
  if k < 64 then ok (BitVec.ofNat 64 (masksCF32Table.getD k 0)) else ub .oob

/-- `switch (i / 64)` on the words of a block, rank.hpp lines 1259-1355, `i < 512`. -/
def inBlock32 (strict : Bool) (bits : Vec (Option Half)) (off rank i : Nat) : Outcome Nat := do
  let r ← forN (i / 64) (fun k r => do
    let w ← loadPair strict bits (off + 2 * k)
    ok (r + popcnt w)) rank
  let w ← loadPair strict bits (off + 2 * (i / 64))
  let m ← maskCF32At (i - 64 * (i / 64))
  ok (r + popcnt (w &&& m))

/-- `RankCF32::rank`, rank.hpp lines 1241-1356. -/
def rankCF32 (strict : Bool) (x : CF32) (i : Nat) : Outcome Nat := do
  let start := i / 512
  if start < x.border then do
    let p := start * 16 + start
    let rank := (← uget x.bits p).toNat
    let i := i % 512
    let diff := sub32 (← uget x.bits (p + 17)).toNat rank
    if diff &&& 511 = 0 then ok (add32 rank (i * (diff >>> 9)))
    else ok ((← inBlock32 strict x.bits (p + 1) rank i) % W32)
  else do
    let p := x.blockBorder + 2 * (start - x.border)
    let rank := (← uget x.bits p).toNat
    let i := i % 512
    let diff := sub32 (← uget x.bits (p + 2)).toNat rank
    if diff &&& 511 = 0 then ok (add32 rank (i * (diff >>> 9)))
    else do
      let off := (← uget x.bits (p + 1)).toNat
      ok ((← inBlock32 strict x.bits off rank i) % W32)

/-- `RankCF32::getSize`, rank.hpp lines 1417-1424: the sum is an `unsigned int`. -/
def CF32.bytes (x : CF32) : Nat :=
  (4 + 4 + 4 + 4 + 8 + (if x.bitsLen > 0 then (x.bitsLen + 32) * 4 else 0)) % W32

/-- What an object takes: three pointers, four `unsigned int`, the table `masks` (rank.hpp lines
1071-1108), and the array that `build` allocates (lines 1197-1199). -/
def CF32.taken (x : CF32) : Nat := 24 + 16 + 64 * 8 + 4 * (x.bitsLen + 32)

end MRS.Mran
