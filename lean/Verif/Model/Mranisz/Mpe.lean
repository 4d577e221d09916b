import Verif.Model.Mranisz.Select

/-!
# Compressed rank of include/mranisz/shared/rank.hpp: `RankMPE64`

`RankMPE64<RANK_MPE1>` (`build_v1`, `getRank_v1`), `RankMPE64<RANK_MPE2>` and `RankMPE64<RANK_MPE3>`
(`build_v2`, `getRank_v2`, which differ in the thresholds only).  Blocks have 128 bytes; in a block that
has many pairs of bytes 00 or FF these pairs are left out and marked in one or two words in front of it.

* Where the two versions have the same text they share a definition, which cites both.
* `blockToCompress` is an array of `bool` in version 1 and of `unsigned char` in version 2.  Here it holds
  bytes: 0 for `false`, 3 for `true`.
* Memory from `new[]` is `fresh` (reading it before it is written is undefined) or holds arbitrary values:
  `memory g n`.  `build` reads `blockToCompress` where it was not written, and beyond its end.
* Loops over blocks run over the block number, loops `j += 2` over pairs over `j / 2`.
* Counters as in `Model/Mranisz/Rank`; `ranksTemp[rankCounter - 2]` is read once for the bytes in front of
  a block.
-/

set_option autoImplicit false

namespace MRS.Mran
open Outcome

/-- `RankMPEType`, rank.hpp line 1803. -/
inductive MpeType
  | mpe1
  | mpe2
  | mpe3
deriving DecidableEq

/-- `new T[n]`: with `g = none` the cells have no values; with `g = some f` they hold what `f` says. -/
def memory {α : Type} (g : Option (Nat → α)) (n : Nat) : Vec (Option α) := ⟨n, fun k => g.map fun f => f k⟩

/-- What memory holds where nothing was written. -/
structure Junk where
  flags : Option (Nat → Byte)
  bits : Option (Nat → Byte)
  ranks : Option (Nat → Nat)

/-- `extendedTextLen / BLOCK_LEN`, rank.hpp lines 3390-3392 (and 3603-3605). -/
def nblkM (t : Vec Byte) : Nat :=
  (if t.len % 128 > 0 then t.len + (128 - t.len % 128) else t.len) / 128

/-- Body of the loop that fills `emptyBlock`, rank.hpp lines 3397-3414 (and 3610-3627). -/
def emptyStepM (t : Vec Byte) (q : Nat) (e : Vec (Option Bool)) : Outcome (Vec (Option Bool)) := do
  let h ← scan t (fun c => decide (c.toNat > 0)) (128 * q) 128 0
  let h ← (if !h then scan t (fun c => decide (c.toNat < 255)) (128 * q) 128 0 else ok h)
  e.set q (some h)

/-- `emptyBlock`, rank.hpp lines 3394-3415 (and 3607-3628). -/
def emptyBlocksM (t : Vec Byte) : Outcome (Vec (Option Bool)) :=
  forN (nblkM t) (emptyStepM t) (fresh (nblkM t))

/-- `notEmptyBlocks`, rank.hpp lines 3417-3419 (and 3630-3632). -/
def notEmptyM (t : Vec Byte) (e : Vec (Option Bool)) : Outcome Nat :=
  forN (nblkM t) (fun i n => do
    let b ← uget e i
    ok (if b then n else n + 1)) 0

/-! ## The pass over the text -/

/-- Variables of the pass. -/
structure PassM where
  ranks : Vec (Option Nat)
  bits : Vec (Option Byte)
  rank : Nat
  rc : Nat
  bc : Nat

/-- Body of the loop over the bytes of a block, rank.hpp lines 3438-3443 (and 3651-3656). -/
def passByteM (t : Vec Byte) (i j : Nat) (s : PassM) : Outcome PassM := do
  if i + j < t.len then do
    let c ← t.get (i + j)
    let b ← s.bits.set s.bc (some c)
    ok { s with bits := b, bc := s.bc + 1, rank := s.rank + popcnt (c.setWidth 64) }
  else do
    let b ← s.bits.set s.bc (some 0#8)
    ok { s with bits := b, bc := s.bc + 1 }

/-- Body of the loop over the blocks, rank.hpp lines 3431-3445 (and 3644-3658). -/
def passBlockM (t : Vec Byte) (e : Vec (Option Bool)) (q : Nat) (s : PassM) : Outcome PassM := do
  let r ← s.ranks.set s.rc (some s.rank)
  let r ← r.set (s.rc + 1) (some s.bc)
  let s := { s with ranks := r, rc := s.rc + 2 }
  if ← uget e q then do
    let c ← t.get (128 * q)
    ok (if c.toNat = 255 then { s with rank := s.rank + 1024 } else s)
  else forN 128 (passByteM t (128 * q)) s

/-- `ranksTempLen`, rank.hpp lines 3424-3427 (and 3637-3640). -/
def tmpLenM (t : Vec Byte) : Nat :=
  let n := 2 * nblkM t + 2
  if n % (2 * 16) > 0 then n + (2 * 16 - n % (2 * 16)) else n

/-- `bitsTemp` and `ranksTemp`, rank.hpp lines 3421-3452 (and 3634-3665); `n` is `notEmptyBlocks`. -/
def passM (t : Vec Byte) (e : Vec (Option Bool)) (n : Nat) : Outcome PassM := do
  let s ← forN (nblkM t) (passBlockM t e) ⟨fresh (tmpLenM t), fresh (n * 128), 0, 0, 0⟩
  let r ← s.ranks.set s.rc (some s.rank)
  let r ← r.set (s.rc + 1) (some 0)
  let rc := s.rc + 2
  let r ← forFrom rc (tmpLenM t - rc) (fun i r => r.set i (some 0)) r
  ok { s with ranks := r, rc := rc }

/-! ## Which blocks to compress -/

/-- Variables of the loop: `blockToCompress`, `offset`, `pairsToRemove`, `compressedBlocks`,
`compressed0Blocks`, `compressed255Blocks`. -/
structure Plan where
  flags : Vec (Option Byte)
  off : Nat
  pairs : Nat
  c3 : Nat
  c1 : Nat
  c2 : Nat

/-- The pairs 00 and the pairs FF of a block, rank.hpp lines 3675-3682; `pairsToRemoveInBlock` of version 1
(lines 3464-3470) counts both. -/
def countPairs (tmp : Vec (Option Byte)) (off : Nat) : Outcome (Nat × Nat × Nat) :=
  forN 64 (fun p c => do
    let a ← uget tmp (off + 2 * p)
    let b ← uget tmp (off + 2 * p + 1)
    let z := a = 0#8 ∧ b = 0#8
    let f := a = 255#8 ∧ b = 255#8
    ok (c.1 + (if z then 1 else 0), c.2.1 + (if f then 1 else 0), c.2.2 + (if z ∨ f then 1 else 0))) (0, 0, 0)

/-- How a block is stored, from its pairs 00, pairs FF, and both: rank.hpp lines 3471-3475 for version 1,
3684-3706 and 3708-3730 for version 2. -/
def kindOf : MpeType → Nat → Nat → Nat → Nat
  | .mpe1, _, _, n => if n > 8 then 3 else 0
  | .mpe2, z, f, _ => if z > 4 ∧ f > 4 then 3 else if z > 4 ∧ f ≤ 4 then 1 else if z ≤ 4 ∧ f > 4 then 2 else 0
  | .mpe3, z, f, _ =>
    if z > 9 ∧ f > 9 then 3 else if z ≥ 9 * 2 ∧ f ≤ 9 then 1 else if z ≤ 9 ∧ f ≥ 9 * 2 then 2 else 0

/-- Body of the loop, rank.hpp lines 3460-3477 (and 3670-3732). -/
def planBlock (ty : MpeType) (e : Vec (Option Bool)) (tmp : Vec (Option Byte)) (q : Nat) (s : Plan) :
    Outcome Plan := do
  let fl ← s.flags.set q (some 0#8)
  let s := { s with flags := fl }
  if ← uget e q then ok s
  else do
    let (z, f, n) ← countPairs tmp s.off
    let s ← (match kindOf ty z f n with
      | 3 => do
        let fl ← s.flags.set q (some 3#8)
        ok { s with flags := fl, c3 := s.c3 + 1, pairs := s.pairs + if ty = .mpe1 then n else z + f }
      | 1 => do
        let fl ← s.flags.set q (some 1#8)
        ok { s with flags := fl, c1 := s.c1 + 1, pairs := s.pairs + z }
      | 2 => do
        let fl ← s.flags.set q (some 2#8)
        ok { s with flags := fl, c2 := s.c2 + 1, pairs := s.pairs + f }
      | _ => ok s)
    ok { s with off := s.off + 128 }

/-- The loop, rank.hpp lines 3454-3478 (and 3667-3733). -/
def plan (ty : MpeType) (g : Option (Nat → Byte)) (t : Vec Byte) (e : Vec (Option Bool))
    (tmp : Vec (Option Byte)) : Outcome Plan :=
  forN (nblkM t) (planBlock ty e tmp) ⟨memory g (nblkM t + 1), 0, 0, 0, 0, 0⟩

/-- `bitsLen`, rank.hpp lines 3480-3482 (and 3735-3739); `n` is `notEmptyBlocks`. -/
def bitsLenM (n : Nat) (s : Plan) : Nat :=
  s.c3 * ((128 / 2 * 2) / 8) + s.c1 * ((128 / 2) / 8) + s.c2 * ((128 / 2) / 8) + sub64 (n * 128) (2 * s.pairs) + 8

/-! ## Writing the blocks -/

/-- Variables of the loop over the blocks: `ranksTemp`, `alignedBits`, `bitsCounter`, `rankCounter`,
`offset`. -/
structure Enc where
  ranks : Vec (Option Nat)
  out : Vec (Option Byte)
  bc : Nat
  rc : Nat
  off : Nat

/-- `alignedBits[bitsCounter++] = x`. -/
def Enc.put (s : Enc) (x : Byte) : Outcome Enc := do
  let o ← s.out.set s.bc (some x)
  ok { s with out := o, bc := s.bc + 1 }

/-- The pairs that a block of this kind leaves out: rank.hpp lines 3509-3512 and 3762-3765, 3806-3807,
3835-3836. -/
def dropped (kind : Nat) (a b : Byte) : Bool :=
  let z := a == 0#8 && b == 0#8
  let f := a == 255#8 && b == 255#8
  if kind = 3 then z || f else if kind = 1 then z else f

/-- Body of the loop over pairs, with `bits1` (`bits`) and `bits2`: rank.hpp lines 3504-3519 (and 3757-3772,
3805-3814, 3834-3843). -/
def encPair (kind : Nat) (tmp : Vec (Option Byte)) (off : Nat) (p : Nat) (s : Enc × Word × Word) :
    Outcome (Enc × Word × Word) := do
  let a ← uget tmp (off + 2 * p)
  let b ← uget tmp (off + 2 * p + 1)
  let bits2 := if a == 255#8 && b == 255#8 then s.2.2 + 1#64 <<< (63 - p) else s.2.2
  if dropped kind a b then ok (s.1, s.2.1 + 1#64 <<< (63 - p), bits2)
  else do
    let e ← s.1.put a
    let e ← e.put b
    ok (e, s.2.1, bits2)

/-- The eight bytes of a word: rank.hpp lines 3520-3533, 3534-3548 (and 3773-3801, 3815-3830, 3844-3859). -/
def storeWord (out : Vec (Option Byte)) (p : Nat) (w : Word) : Outcome (Vec (Option Byte)) :=
  forN 8 (fun k o => o.set (p + k) (some ((w >>> (8 * k)).setWidth 8))) out

/-- Body of the loop, rank.hpp lines 3496-3554 (and 3749-3865). -/
def encBlock (e : Vec (Option Bool)) (flags : Vec (Option Byte)) (tmp : Vec (Option Byte)) (q : Nat)
    (s : Enc) : Outcome Enc := do
  let r ← s.ranks.set s.rc (some s.bc)
  let s := { s with ranks := r, rc := s.rc + 2 }
  if ← uget e q then ok s
  else do
    let k := (← uget flags q).toNat
    let s ← (if k = 3 then do
        let (s, b1, b2) ← forN 64 (encPair 3 tmp s.off) ({ s with bc := s.bc + 16 }, 0#64, 0#64)
        let p ← uget s.ranks (s.rc - 2)
        let o ← storeWord s.out p b1
        let o ← storeWord o (p + 8) b2
        ok { s with out := o }
      else if k = 1 ∨ k = 2 then do
        let (s, b1, _) ← forN 64 (encPair k tmp s.off) ({ s with bc := s.bc + 8 }, 0#64, 0#64)
        let p ← uget s.ranks (s.rc - 2)
        let o ← storeWord s.out p b1
        ok { s with out := o }
      else forN 128 (fun j s => do
        let a ← uget tmp (s.off + j)
        s.put a) s)
    ok { s with off := s.off + 128 }

/-- Offsets and blocks, then the offsets of the padding: rank.hpp lines 3488-3556 (and 3745-3867). -/
def encode (t : Vec Byte) (e : Vec (Option Bool)) (flags tmp out : Vec (Option Byte)) (ranks : Vec (Option Nat)) :
    Outcome Enc := do
  let s ← forN (nblkM t) (encBlock e flags tmp) ⟨ranks, out, 0, 1, 0⟩
  let r ← forN ((tmpLenM t - s.rc + 1) / 2) (fun k r => do
    let o ← uget r (sub64 s.rc 2)
    r.set (s.rc + 2 * k) (some o)) s.ranks
  ok { s with ranks := r }

/-! ## Superblocks -/

/-- `blockToCompress[i]` where the index can be too large. -/
def flagAt (g : Option (Nat → Byte)) (fl : Vec (Option Byte)) (i : Nat) : Outcome Byte :=
  if i < fl.len then uget fl i
  else match g with
    | none => ub .oob
    | some f => ok (f i)

/-- What is added to an offset: `if (blockToCompress[..]) offsetDiff += (1 << 15)`, rank.hpp line 3587, or
`offsetDiff += (blockToCompress[..] << 14)`, line 3898. -/
def markOf (ty : MpeType) (b : Byte) : Nat :=
  if ty = .mpe1 then (if b ≠ 0#8 then 2 ^ 15 else 0) else b.toNat * 2 ^ 14

/-- What is added for the first block: `1ULL << 62` if it is compressed, rank.hpp lines 3591-3592, or
`blockToCompress[i] << 60`, lines 3902-3903. -/
def markFirst (ty : MpeType) (b : Byte) : Nat :=
  if ty = .mpe1 then (if b ≠ 0#8 then 2 ^ 62 else 0) else shl64 b.toNat 60

/-- `bucket` for the superblock that starts at block `i`, rank.hpp lines 3576-3592 (and 3887-3903); the
array is all zero when the body starts. -/
def bucketM (ty : MpeType) (g : Option (Nat → Byte)) (tmp : Vec (Option Nat)) (fl : Vec (Option Byte)) (i : Nat) :
    Outcome (Vec Nat) := do
  let b : Vec Nat := ⟨10, fun _ => 0⟩
  let r ← uget tmp (2 * i)
  let b ← b.set 0 r
  let b ← forN 15 (fun j b => do
    let r ← uget tmp (2 * (i + j + 1))
    let b0 ← b.get 0
    let x ← b.get (j / 4 + 1)
    b.set (j / 4 + 1) (add64 x (shl64 (sub64 r b0) (16 * (j % 4))))) b
  let o ← uget tmp (2 * i + 1)
  let b ← b.set 5 o
  let b ← forN 15 (fun j b => do
    let o ← uget tmp (2 * (i + j + 1) + 1)
    let b5 ← b.get 5
    let f ← flagAt g fl (i + j + 1)
    let x ← b.get (5 + 1 + j / 4)
    b.set (5 + 1 + j / 4) (add64 x (shl64 (add64 (sub64 o b5) (markOf ty f)) (16 * (j % 4))))) b
  let f ← flagAt g fl i
  let x ← b.get (5 + 1)
  b.set (5 + 1) (add64 x (markFirst ty f))

/-- Body of the loop over superblocks, rank.hpp lines 3575-3597 (and 3886-3908), superblock number `k`. -/
def superStepM (ty : MpeType) (g : Option (Nat → Byte)) (tmp : Vec (Option Nat)) (fl : Vec (Option Byte)) (k : Nat)
    (ranks : Vec (Option Nat)) : Outcome (Vec (Option Nat)) := do
  let b ← bucketM ty g tmp fl (16 * k)
  forN 10 (fun j r => do
    let x ← b.get j
    r.set (10 * k + j) (some x)) ranks

/-! ## `RankMPE64` -/

/-- The fields of `RankMPE64` after `build`, rank.hpp lines 4784-4790. -/
structure Mpe where
  ranks : Vec (Option Nat)
  ranksLen : Nat
  bits : Vec (Option Byte)
  bitsLen : Nat
  textLen : Nat

/-- `build`, rank.hpp lines 4893-4902 with `build_v1`, lines 3387-3598, and `build_v2`, lines 3600-3911;
`aB`, `aR` are the addresses of `bits` and `ranks`. -/
def buildMpe (ty : MpeType) (g : Junk) (aB aR : Nat) (t : Vec Byte) : Outcome Mpe := do
  let e ← emptyBlocksM t
  let n ← notEmptyM t e
  let s ← passM t e n
  let pl ← plan ty g.flags t e s.bits
  let bitsLen := bitsLenM n pl
  let en ← encode t e pl.flags s.bits (memory g.bits (bitsLen + roomBytes aB)) s.ranks
  let ranksLen := tmpLenM t / (2 * 16) * 10
  let ranks ← forN (tmpLenM t / 2 / 16) (superStepM ty g.flags en.ranks pl.flags)
    (memory g.ranks (ranksLen + room aR))
  ok ⟨ranks, ranksLen, en.out, bitsLen, t.len⟩

/-! ## Queries -/

/-- `masks[k]`, rank.hpp lines 4813-4835. -/
def maskLeAt (k : Nat) : Outcome Word :=
  if k < 64 then ok (BitVec.ofNat 64 (masksLeTable.getD k 0)) else ub .oob

/-- `masks2[k]`, rank.hpp lines 4837-4859. -/
def mask2At (k : Nat) : Outcome Word :=
  if k < 64 then ok (BitVec.ofNat 64 (masks2Table.getD k 0)) else ub .oob

/-- `masks3[k]`, rank.hpp lines 4861-4883. -/
def mask3At (k : Nat) : Outcome Word :=
  if k < 64 then ok (BitVec.ofNat 64 (masks3Table.getD k 0)) else ub .oob

/-- Offset and kind of block `n > 0` from a word of the superblock: `getRank_v1`, rank.hpp lines 3964-3991. -/
def entry1 (w n : Nat) : Nat × Nat :=
  match n % 4 with
  | 3 => ((w >>> 32) &&& 0x3FFF, (w >>> 47) &&& 1)
  | 2 => ((w >>> 16) &&& 0x3FFF, (w >>> 31) &&& 1)
  | 1 => (w &&& 0x3FFF, (w >>> 15) &&& 1)
  | _ => ((w >>> 48) &&& 0x3FFF, w >>> 63)

/-- The same in `getRank_v2`, rank.hpp lines 4386-4413. -/
def entry2 (w n : Nat) : Nat × Nat :=
  match n % 4 with
  | 3 => ((w >>> 32) &&& 0x0FFF, (w >>> 46) &&& 3)
  | 2 => ((w >>> 16) &&& 0x0FFF, (w >>> 30) &&& 3)
  | 1 => (w &&& 0x0FFF, (w >>> 14) &&& 3)
  | _ => ((w >>> 48) &&& 0x0FFF, w >>> 62)

/-- Where block `n` of the superblock at `p` is stored, and how: `getRank_v1`, rank.hpp lines 3962-3997. -/
def place1 (ranks : Vec (Option Nat)) (p n : Nat) : Outcome (Nat × Nat) := do
  let o ← uget ranks (p + 5)
  let (d, f) ← (if n > 0 then do
      let w ← uget ranks (p + (5 + (n + 3) / 4))
      ok (entry1 w n)
    else do
      let w ← uget ranks (p + (5 + 1))
      ok (0, (w >>> 62) &&& 1))
  ok (o + d, if f ≠ 0 then 3 else 0)

/-- The same in `getRank_v2`, rank.hpp lines 4384-4419. -/
def place2 (ranks : Vec (Option Nat)) (p n : Nat) : Outcome (Nat × Nat) := do
  let o ← uget ranks (p + 5)
  let (d, f) ← (if n > 0 then do
      let w ← uget ranks (p + (5 + (n + 3) / 4))
      ok (entry2 w n)
    else do
      let w ← uget ranks (p + (5 + 1))
      ok (0, (w >>> 60) &&& 3))
  ok (o + d, f)

/-- A position of a block becomes a position of the bytes that are stored of it: `pointer`, `rank`, `i`
after rank.hpp lines 3998-4011 (version 1) and 4420-4459. -/
def unpack (strict : Bool) (bits : Vec (Option Byte)) (kind off rank i : Nat) : Outcome (Nat × Nat × Nat) :=
  match kind with
  | 1 => do
    let w ← load8 strict bits off
    let m2 ← mask2At (i / 16)
    let m3 ← mask3At (i / 16)
    let j := if w &&& m2 ≠ 0#64 then sub64 i (i % 16) else i
    ok (off + 8, rank, sub64 j (16 * popcnt (w &&& m3)))
  | 2 => do
    let w ← load8 strict bits off
    let m2 ← mask2At (i / 16)
    let m3 ← mask3At (i / 16)
    let (rank, j) := if w &&& m2 ≠ 0#64 then (rank + i % 16, sub64 i (i % 16)) else (rank, i)
    let d := 16 * popcnt (w &&& m3)
    ok (off + 8, rank + d, sub64 j d)
  | 3 => do
    let w1 ← load8 strict bits off
    let w2 ← load8 strict bits (off + 8)
    let m2 ← mask2At (i / 16)
    let m3 ← mask3At (i / 16)
    let (rank, j) := if w1 &&& m2 ≠ 0#64 then
        ((if w2 &&& m2 ≠ 0#64 then rank + i % 16 else rank), sub64 i (i % 16))
      else (rank, i)
    ok (off + 16, rank + 16 * popcnt (w2 &&& m3), sub64 j (16 * popcnt (w1 &&& m3)))
  | _ => ok (off, rank, i)

/-- `switch (i / 64)`, rank.hpp lines 4012-4332 (and 4460-4780); the cases are the same chain of popcounts of
different lengths, and from 1024 on the first one. -/
def inBytes (strict : Bool) (bits : Vec (Option Byte)) (off rank i : Nat) : Outcome Nat := do
  let n := if i / 64 < 16 then i / 64 else 0
  let r ← forN n (fun k r => do
    let w ← load8 strict bits (off + 8 * k)
    ok (r + popcnt w)) rank
  let w ← load8 strict bits (off + 8 * n)
  let m ← maskLeAt (i - 64 * n)
  ok (r + popcnt (w &&& m))

/-- `rank`, rank.hpp lines 4904-4913 with `getRank_v1`, lines 3913-4333, and `getRank_v2`, lines
4335-4781. -/
def rankMpe (ty : MpeType) (strict : Bool) (x : Mpe) (i : Nat) : Outcome Nat := do
  let start := i / 1024
  let p := 10 * (start / 16)
  let b0 ← uget x.ranks p
  let n := start % 16
  let rank ← (if n > 0 then do ok (b0 + (← slot1 x.ranks p n)) else ok b0)
  let i := i % 1024
  let rank2 ← (if n = 15 then uget x.ranks (p + 10) else do ok (b0 + (← slot2 x.ranks p n)))
  let diff := sub64 rank2 rank
  if diff &&& 1023 = 0 then ok (rank + i * (diff >>> 10))
  else do
    let (off, kind) ← (if ty = .mpe1 then place1 x.ranks p n else place2 x.ranks p n)
    let (off, rank, i) ← unpack strict x.bits kind off rank i
    inBytes strict x.bits off rank i

/-- `getSize`, rank.hpp lines 4983-4993. -/
def Mpe.bytes (x : Mpe) : Nat :=
  8 + 8 + 8 + 8 + 8 + (if x.ranksLen > 0 then (x.ranksLen + 16) * 8 else 0) +
    (if x.bitsLen > 0 then (x.bitsLen + 128) * 1 else 0)

/-- What an object takes: nine members of 8 bytes and three tables (rank.hpp lines 4784-4883), and the two
arrays that `build` allocates. -/
def Mpe.taken (x : Mpe) : Nat := 72 + 3 * (64 * 8) + 8 * (x.ranksLen + 16) + (x.bitsLen + 128)

end MRS.Mran
