import Verif.Model.Word
import Verif.Model.Mranisz.Tables

/-!
# Compressed rank of include/mranisz/shared/rank.hpp

The classes `RankBasic64<RANK_BASIC_STANDARD>`, `RankBasic64<RANK_BASIC_COMPRESSED_HEADERS>` and
`RankCF64`, and the wrapper of `src/perf_compressed_bitmap.cpp`.

* Memory from `new[]` holds no value until it is written: cells are `Option`, and reading a cell
  that was never written is `ub .uninit`.
* The arrays that are kept get 16 more words than needed and start at the next multiple of 128
  after the address `addr` that `new[]` returns; the words left after the array are part of the
  model (`room addr` of them).
* Counters of bytes, blocks and bits of the text are `Nat` without reduction: the theorems are about
  texts shorter than `2^60` bytes, for which they cannot wrap.  Differences and packed words are
  reduced modulo `2^64` explicitly.
* Loops `for (i = 0; i < extendedTextLen; i += BLOCK_LEN)` run over the block number `i / 64`.
* `free()` and the destructor are left out (`save`/`load`: `File.lean`; `Life.lean`), and so is `pointer`/`pointer2` as
  object state: each query sets them before use (`Threads.lean`, `C100_alone`).
-/

set_option autoImplicit false

namespace MRS.Mran
open Outcome

/-- `unsigned char`. -/
abbrev Byte := BitVec 8

/-- Read a cell of memory from `new[]`. -/
def uget {α : Type} (v : Vec (Option α)) (i : Nat) : Outcome α := do
  match ← v.get i with
  | some a => ok a
  | none => ub .uninit

/-- `new T[n]`: no values. -/
def fresh {α : Type} (n : Nat) : Vec (Option α) := ⟨n, fun _ => none⟩

/-- Words that remain after the array once `while (aligned % 128) ++aligned` has run on memory with
16 extra words at address `addr`, rank.hpp lines 550-552. -/
def room (addr : Nat) : Nat := 16 - (128 - addr % 128) % 128 / 8

/-- `masks[k]`, rank.hpp lines 862-884 and 1481-1503. -/
def maskAt (k : Nat) : Outcome Word :=
  if k < 64 then ok (BitVec.ofNat 64 (masksTable.getD k 0)) else ub .oob

/-- `extendedTextLen / BLOCK_LEN`, rank.hpp lines 897-900. -/
def nblk (t : Vec Byte) : Nat :=
  (if t.len % 64 > 0 then t.len + (64 - t.len % 64) else t.len) / 64

/-- One homogeneity loop `for (j …; j < BLOCK_LEN; ++j) if (i + j >= textLen || stop(text[i + j]))`,
rank.hpp lines 905-910 and 913-919; `n` iterations are left. -/
def scan (t : Vec Byte) (stop : Byte → Bool) (i : Nat) : Nat → Nat → Outcome Bool
  | 0, _ => ok true
  | n + 1, j =>
    if i + j ≥ t.len then ok false
    else do
      let c ← t.get (i + j)
      if stop c then ok false else scan t stop i n (j + 1)

/-- Body of the loop that fills `emptyBlock`, rank.hpp lines 904-921 (and 1523-1540). -/
def emptyStep (t : Vec Byte) (q : Nat) (e : Vec (Option Bool)) : Outcome (Vec (Option Bool)) := do
  let h ← scan t (fun c => decide (c.toNat > 0)) (64 * q) 64 0
  let h ← (if !h then scan t (fun c => decide (c.toNat < 255)) (64 * q) 64 0 else ok h)
  e.set q (some h)

/-- `emptyBlock`, rank.hpp lines 901-922 (and 1520-1541). -/
def emptyBlocks (t : Vec Byte) : Outcome (Vec (Option Bool)) :=
  forN (nblk t) (emptyStep t) (fresh (nblk t))

/-- `notEmptyBlocks`, rank.hpp lines 924-926 (and 1543-1545). -/
def notEmpty (t : Vec Byte) (e : Vec (Option Bool)) : Outcome Nat :=
  forN (nblk t) (fun i n => do
    let b ← uget e i
    ok (if b then n else n + 1)) 0

/-! ## The pass over the text -/

/-- Variables of the pass: the array of ranks and offsets, the array of words, `rank`, `rankCounter`,
`bitsCounter`. -/
structure Pass where
  ranks : Vec (Option Nat)
  bits : Vec (Option Word)
  rank : Nat
  rc : Nat
  bc : Nat

/-- Body of the loop over the bytes of a block, rank.hpp lines 569-578 (and 606-616, 1562-1571). -/
def passByte (t : Vec Byte) (i j : Nat) (s : Pass) : Outcome Pass := do
  let bits ← (if j % 8 = 0 then s.bits.set s.bc (some 0#64) else ok s.bits)
  let bits ← (if i + j < t.len then do
      let c ← t.get (i + j)
      let w ← uget bits s.bc
      bits.set s.bc (some (w + (c.setWidth 64 <<< (8 * (8 - j % 8 - 1)))))
    else ok bits)
  if j % 8 = 7 then do
    let w ← uget bits s.bc
    ok { s with bits := bits, rank := s.rank + popcnt w, bc := s.bc + 1 }
  else ok { s with bits := bits }

/-- Body of the loop over the blocks, rank.hpp lines 562-579 (and 599-617, 1555-1572). -/
def passBlock (t : Vec Byte) (e : Vec (Option Bool)) (q : Nat) (s : Pass) : Outcome Pass := do
  let r ← s.ranks.set s.rc (some s.rank)
  let r ← r.set (s.rc + 1) (some s.bc)
  let s := { s with ranks := r, rc := s.rc + 2 }
  if ← uget e q then do
    let c ← t.get (64 * q)
    ok (if c.toNat = 255 then { s with rank := s.rank + 512 } else s)
  else forN 64 (passByte t (64 * q)) s

/-- The pass, rank.hpp lines 560-581 (and 597-619, 1553-1574). -/
def pass (t : Vec Byte) (e : Vec (Option Bool)) (ranks : Vec (Option Nat))
    (bits : Vec (Option Word)) : Outcome Pass := do
  let s ← forN (nblk t) (passBlock t e) ⟨ranks, bits, 0, 0, 0⟩
  let r ← s.ranks.set s.rc (some s.rank)
  ok { s with ranks := r, rc := s.rc + 1 }

/-! ## The last step of every query -/

/-- `switch (i / 64)` on the words of a block, rank.hpp lines 666-718 (and 779-831, 1656-1708),
`i < 512`; the cases are the same chain of popcounts of different lengths. -/
def inBlock (bits : Vec (Option Word)) (off rank i : Nat) : Outcome Nat := do
  let r ← forN (i / 64) (fun k r => do
    let w ← uget bits (off + k)
    ok (r + popcnt w)) rank
  let w ← uget bits (off + i / 64)
  let m ← maskAt (i - 64 * (i / 64))
  ok (r + popcnt (w &&& m))

/-! ## `RankBasic64` -/

/-- The fields of `RankBasic64` after `build`, rank.hpp lines 835-841. -/
structure Basic where
  ranks : Vec (Option Nat)
  ranksLen : Nat
  bits : Vec (Option Word)
  bitsLen : Nat
  textLen : Nat

/-- `build` with `T = RANK_BASIC_STANDARD`, rank.hpp lines 894-940 and `build_std`, lines 546-582;
`aB`, `aR` are the addresses of `bits` and `ranks`. -/
def buildStd (aB aR : Nat) (t : Vec Byte) : Outcome Basic := do
  let e ← emptyBlocks t
  let n ← notEmpty t e
  let bitsLen := n * (64 / 8)
  let ranksLen := 2 * nblk t + 1
  let s ← pass t e (fresh (ranksLen + room aR)) (fresh (bitsLen + room aB))
  ok ⟨s.ranks, ranksLen, s.bits, bitsLen, t.len⟩

/-- `getRank_std`, rank.hpp lines 659-719. -/
def rankStd (x : Basic) (i : Nat) : Outcome Nat := do
  let start := i / 512
  let rank ← uget x.ranks (2 * start)
  let i := i % 512
  let r2 ← uget x.ranks (2 * start + 2)
  let diff := sub64 r2 rank
  if diff &&& 511 = 0 then ok (rank + i * (diff >>> 9))
  else do
    let off ← uget x.ranks (2 * start + 1)
    inBlock x.bits off rank i

/-- `x << s` on `unsigned long long`, `s < 64`. -/
def shl64 (x s : Nat) : Nat := x * 2 ^ s % W64

/-- `emptyBlock[i]` where the index can be too large.  `beyond = none`: that is undefined behaviour.
`beyond = some g`: the bytes after the array are readable and hold `g`. -/
def emptyAt (beyond : Option (Nat → Bool)) (e : Vec (Option Bool)) (i : Nat) : Outcome Bool :=
  if i < e.len then uget e i
  else match beyond with
    | none => ub .oob
    | some g => ok (g i)

/-- `bucket` for the superblock that starts at block `i`, rank.hpp lines 641-650; the array is all
zero when the body starts (lines 637-638 and 653). -/
def bucket (beyond : Option (Nat → Bool)) (tmp : Vec (Option Nat)) (e : Vec (Option Bool)) (i : Nat) :
    Outcome (Vec Nat) := do
  let b : Vec Nat := ⟨19, fun _ => 0⟩
  let r ← uget tmp (2 * i)
  let b ← b.set 0 r
  let b ← forN 63 (fun j b => do
    let r ← uget tmp (2 * (i + j + 1))
    let b0 ← b.get 0
    let x ← b.get (j / 4 + 1)
    b.set (j / 4 + 1) (add64 x (shl64 (sub64 r b0) (16 * (j % 4))))) b
  let o ← uget tmp (2 * i + 1)
  let b ← b.set 17 o
  forN 63 (fun j b => do
    if !(← emptyAt beyond e (i + j)) then do
      let x ← b.get (17 + 1)
      b.set (17 + 1) (add64 x (shl64 1 (63 - j)))
    else ok b) b

/-- Body of the loop over superblocks, rank.hpp lines 640-655, superblock number `k`;
`rankCounter = 19 * k`. -/
def superStep (beyond : Option (Nat → Bool)) (tmp : Vec (Option Nat)) (e : Vec (Option Bool)) (k : Nat)
    (ranks : Vec (Option Nat)) : Outcome (Vec (Option Nat)) := do
  let b ← bucket beyond tmp e (64 * k)
  forN 19 (fun j r => do
    let x ← b.get j
    r.set (19 * k + j) (some x)) ranks

/-- `ranksTempLen`, rank.hpp lines 591-594. -/
def tmpLen (t : Vec Byte) : Nat :=
  let n := 2 * nblk t + 2
  if n % (2 * 64) > 0 then n + (2 * 64 - n % (2 * 64)) else n

/-- `build` with `T = RANK_BASIC_COMPRESSED_HEADERS`, rank.hpp lines 894-940 and `build_bch`, lines
584-657. -/
def buildBch (beyond : Option (Nat → Bool)) (aB aR : Nat) (t : Vec Byte) : Outcome Basic := do
  let e ← emptyBlocks t
  let n ← notEmpty t e
  let bitsLen := n * 8
  let s ← pass t e (fresh (tmpLen t)) (fresh (bitsLen + room aB))
  let r ← s.ranks.set s.rc (some 0)
  let tmp ← forFrom (s.rc + 1) (tmpLen t - (s.rc + 1)) (fun i r => r.set i (some 0)) r
  let ranksLen := tmpLen t / 2 / 64 * 19
  let ranks ← forN (tmpLen t / 2 / 64) (superStep beyond tmp e) (fresh (ranksLen + room aR))
  ok ⟨ranks, ranksLen, s.bits, bitsLen, t.len⟩

/-- The rank of block number `n > 0` of a superblock relative to its start, from the packed words at
`p`, rank.hpp lines 728-743. -/
def slot1 (ranks : Vec (Option Nat)) (p n : Nat) : Outcome Nat := do
  let w ← uget ranks (p + (n + 3) / 4)
  ok (match n % 4 with
    | 3 => (w >>> 32) &&& 0xFFFF
    | 2 => (w >>> 16) &&& 0xFFFF
    | 1 => w &&& 0xFFFF
    | _ => w >>> 48)

/-- The same for the next block, rank.hpp lines 751-766. -/
def slot2 (ranks : Vec (Option Nat)) (p n : Nat) : Outcome Nat := do
  match n % 4 with
    | 3 => ok ((← uget ranks (p + (n + 3) / 4)) >>> 48)
    | 2 => ok (((← uget ranks (p + (n + 3) / 4)) >>> 32) &&& 0xFFFF)
    | 1 => ok (((← uget ranks (p + (n + 3) / 4)) >>> 16) &&& 0xFFFF)
    | _ => ok ((← uget ranks (p + (n + 4) / 4)) &&& 0xFFFF)

/-- `getRank_bch`, rank.hpp lines 721-832. -/
def rankBch (x : Basic) (i : Nat) : Outcome Nat := do
  let start := i / 512
  let p := 19 * (start / 64)
  let b0 ← uget x.ranks p
  let n := start % 64
  let rank ← (if n > 0 then do ok (b0 + (← slot1 x.ranks p n)) else ok b0)
  let i := i % 512
  let rank2 ← (if n = 63 then uget x.ranks (p + 19) else do ok (b0 + (← slot2 x.ranks p n)))
  let diff := sub64 rank2 rank
  if diff &&& 511 = 0 then ok (rank + i * (diff >>> 9))
  else do
    let off ← (if n > 0 then do
        let o ← uget x.ranks (p + 17)
        let f ← uget x.ranks (p + (17 + 1))
        let m ← maskAt n
        ok (o + 8 * popcnt (BitVec.ofNat 64 f &&& m))
      else uget x.ranks (p + 17))
    inBlock x.bits off rank i

/-- `RankBasic64::getSize`, rank.hpp lines 1022-1031. -/
def Basic.bytes (x : Basic) : Nat :=
  8 + 8 + 8 + 8 + (if x.ranksLen > 0 then (x.ranksLen + 16) * 8 else 0) +
    (if x.bitsLen > 0 then (x.bitsLen + 16) * 8 else 0)

/-- What an object takes: nine members of 8 bytes and the table `masks`, which is a member too (rank.hpp
lines 835-884), and the two arrays that `build` allocates (lines 550, 555, 588, 631). -/
def Basic.taken (x : Basic) : Nat := 72 + 64 * 8 + 8 * (x.ranksLen + 16) + 8 * (x.bitsLen + 16)

/-! ## `RankCF64` -/

/-- The fields of `RankCF64` after `build`, rank.hpp lines 1464-1469; ranks and words of the text
share the array. -/
structure CF where
  bits : Vec (Option Word)
  bitsLen : Nat
  textLen : Nat
  border : Nat
  blockBorder : Nat

/-- The loop that finds `border`, rank.hpp lines 1576-1589, from block `q` with `n` blocks left, given
`curEmptyBlocksL` and `curNotEmptyBlocksR`; 0 when the loop ends without `break`. -/
def findBorder (e : Vec (Option Bool)) : Nat → Nat → Nat → Nat → Outcome Nat
  | 0, _, _, _ => ok 0
  | n + 1, q, l, r => do
    let b ← uget e q
    let l := if b then l + 1 else l
    let r := if b then r else r - 1
    if l ≥ r then ok (q + 1) else findBorder e n (q + 1) l r

/-- `while (true) { if (!emptyBlock[RCounter]) break; ++RCounter; offsetCounter += 2; }`, rank.hpp
lines 1607-1611.  A read beyond the array ends it with `ub .oob`, so `fuel = e.len + 1` iterations
are enough. -/
def findRight (e : Vec (Option Bool)) : Nat → Nat → Nat → Outcome (Nat × Nat)
  | 0, _, _ => ub .diverges
  | fuel + 1, rc, oc => do
    if !(← uget e rc) then ok (rc, oc) else findRight e fuel (rc + 1) (oc + 2)

/-- Variables of the last two loops of `build`. -/
structure CFSt where
  out : Vec (Option Word)
  ranks : Vec (Option Nat)
  lc : Nat
  rr : Nat
  oc : Nat

/-- `for (j = 0; j < LONG_BLOCK_LEN; ++j) alignedBits[LCounter++] = bitsTemp[offset + j]`, rank.hpp
lines 1614-1616 and 1620-1623. -/
def copyWords (tmp : Vec (Option Word)) (off : Nat) (s : CFSt) : Outcome CFSt :=
  forN 8 (fun j s => do
    let w ← uget tmp (off + j)
    let o ← s.out.set s.lc (some w)
    ok { s with out := o, lc := s.lc + 1 }) s

/-- Body of the loop over the blocks left of the border, rank.hpp lines 1603-1626;
`rankCounter = 2 * q`. -/
def cfStep (e : Vec (Option Bool)) (tmp : Vec (Option Word)) (q : Nat) (s : CFSt) : Outcome CFSt := do
  let r ← uget s.ranks (2 * q)
  let o ← s.out.set s.lc (some (BitVec.ofNat 64 r))
  let s := { s with out := o, lc := s.lc + 1 }
  if ← uget e q then do
    let (rr, oc) ← findRight e (e.len + 1) s.rr s.oc
    let off ← uget s.ranks oc
    let ranks ← s.ranks.set oc (some s.lc)
    let s ← copyWords tmp off { s with ranks := ranks }
    ok { s with rr := rr + 1, oc := oc + 2 }
  else do
    let off ← uget s.ranks (2 * q + 1)
    copyWords tmp off s

/-- `RankCF64::build`, rank.hpp lines 1513-1633; `aB` is the address of `bits`. -/
def buildCF (aB : Nat) (t : Vec Byte) : Outcome CF := do
  let e ← emptyBlocks t
  let n ← notEmpty t e
  let ranksLen := 2 * nblk t + 1
  let s ← pass t e (fresh ranksLen) (fresh (n * 8))
  let border ← findBorder e (nblk t) 0 0 n
  let bitsLen := add64 (add64 (mul64 (sub64 border 1) 9) (mul64 (sub64 (nblk t) (sub64 border 1)) 2)) 8
  let c ← forN border (cfStep e s.bits) ⟨fresh (bitsLen + room aB), s.ranks, 0, border, 2 * border + 1⟩
  let c ← forFrom (2 * border) (ranksLen - 2 * border) (fun i c => do
    let r ← uget c.ranks i
    let o ← c.out.set c.lc (some (BitVec.ofNat 64 r))
    ok { c with out := o, lc := c.lc + 1 }) c
  ok ⟨c.out, bitsLen, t.len, border, border * 9⟩

/-- `RankCF64::rank`, rank.hpp lines 1635-1709. -/
def rankCF (x : CF) (i : Nat) : Outcome Nat := do
  let start := i / 512
  if start < x.border then do
    let p := start * 8 + start
    let rank := (← uget x.bits p).toNat
    let i := i % 512
    let diff := sub64 (← uget x.bits (p + 9)).toNat rank
    if diff &&& 511 = 0 then ok (rank + i * (diff >>> 9))
    else inBlock x.bits (p + 1) rank i
  else do
    let p := x.blockBorder + 2 * (start - x.border)
    let rank := (← uget x.bits p).toNat
    let i := i % 512
    let diff := sub64 (← uget x.bits (p + 2)).toNat rank
    if diff &&& 511 = 0 then ok (rank + i * (diff >>> 9))
    else do
      let off := (← uget x.bits (p + 1)).toNat
      inBlock x.bits off rank i

/-- `RankCF64::getSize`, rank.hpp lines 1772-1780. -/
def CF.bytes (x : CF) : Nat :=
  8 + 8 + 8 + 8 + 8 + (if x.bitsLen > 0 then (x.bitsLen + 16) * 8 else 0)

/-- What an object takes: seven members of 8 bytes and the table `masks` (rank.hpp lines 1464-1503), and
the array that `build` allocates (lines 1592-1594). -/
def CF.taken (x : CF) : Nat := 56 + 64 * 8 + 8 * (x.bitsLen + 16)

/-! ## The wrapper -/

/-- `reinterpret_cast<uint8_t*>(bits.data())` on a little-endian machine with
`text_len = bits.size() * 8`, perf_compressed_bitmap.cpp lines 163-169. -/
def wordBytes (ws : Vec Word) : Vec Byte :=
  ⟨ws.len * 8, fun k => (ws.f (k / 8)).extractLsb' (8 * (k % 8)) 8⟩

/-- `size()` of the wrapper, perf_compressed_bitmap.cpp lines 180-182, with `getTextSize`,
rank.hpp lines 1033-1035. -/
def wrapperSize (textLen : Nat) : Nat := textLen * 1 * 8

end MRS.Mran
