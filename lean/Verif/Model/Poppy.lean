import Verif.Model.Word

/-!
# The vendored Poppy bitmap

`include/poppy/popcount.h` and `include/poppy/bitmap.h`, and the wrapper that
`src/perf_immutable_bitmap.cpp` puts around it.

`uint64`/`uint32` values are `Nat` with explicit reductions, `int` values that can be negative are
`Int`.  Memory that `posix_memalign` and `new[]` hand out is a `Vec` with arbitrary contents, given
as parameters `g1`, `g2`, `g3`.  `posix_memalign` never returns a negative number, so the two
`exit(1)` of the constructor are unreachable; allocation is assumed to succeed.  Prefetches have
no observable effect.  The destructor and the virtual dispatch through `Bitmap` are left out.
-/

set_option autoImplicit false

namespace MRS.Poppy
open Outcome

/-- `L8`, popcount.h line 10. -/
def L8 : Word := 0x0101010101010101#64
/-- `G2`, popcount.h line 11. -/
def G2 : Word := 0xAAAAAAAAAAAAAAAA#64
/-- `G4`, popcount.h lines 12-13. -/
def G4 : Word := 0x3333333333333333#64
/-- `G8`, popcount.h line 14. -/
def G8 : Word := 0x0F0F0F0F0F0F0F0F#64
/-- `ONES_STEP_4`, popcount.h line 21. -/
def ONES4 : Word := 0x1111111111111111#64
/-- `ONES_STEP_8`, popcount.h line 22. -/
def ONES8 : Word := 0x0101010101010101#64
/-- `MSBS_STEP_8`, popcount.h line 28. -/
def MSBS8 : Word := 0x80#64 * ONES8
/-- `INCR_STEP_8`, popcount.h lines 31-33. -/
def INCR8 : Word :=
  (0x80#64 <<< 56) ||| (0x40#64 <<< 48) ||| (0x20#64 <<< 40) ||| (0x10#64 <<< 32) |||
    (0x8#64 <<< 24) ||| (0x4#64 <<< 16) ||| (0x2#64 <<< 8) ||| 0x1#64

/-- `LEQ_STEP_8(x, y)`, popcount.h lines 42-45. -/
def leqStep8 (x y : Word) : Word :=
  (((((y ||| MSBS8) - (x &&& ~~~MSBS8)) ^^^ x) ^^^ y) &&& MSBS8) >>> 7

/-- `ZCOMPARE_STEP_8(x)`, popcount.h lines 65-66. -/
def zcompareStep8 (x : Word) : Word :=
  ((x ||| ((x ||| MSBS8) - ONES8)) &&& MSBS8) >>> 7

/-- `suxpopcount`, popcount.h lines 73-83. -/
def suxpopcount (x : Word) : Nat :=
  let x := x - ((x &&& G2) >>> 1)
  let x := (x &&& G4) + ((x >>> 2) &&& G4)
  let x := (x + (x >>> 4)) &&& G8
  ((x * L8) >>> 56).toNat

/-- `popcountLinear(bits, x, nbits)`, popcount.h lines 95-113; `popcount` is
`__builtin_popcountll` (line 88). -/
def popcountLinear (bits : Vec Word) (x nbits : Nat) : Outcome Nat :=
  if nbits = 0 then ok 0
  else do
    let last := (nbits - 1) / 64
    let p ← forN last (fun i p => do
      let w ← bits.get (x + i)
      ok (add64 p (popcnt w))) 0
    let w ← bits.get (x + last)
    ok (add64 p (popcnt (w >>> (63 - (nbits - 1) % 64))))

/-- The loop of `select64_naive`, popcount.h lines 118-124: `i + 1` more bits to look at, from bit
`i` down; `count` has not been incremented for bit `i` yet. -/
def naiveLoop (x : Word) : Nat → Int → Int → Int
  | 0, _, _ => -1
  | i + 1, count, k =>
    let count := count + 1
    if x.getLsbD i then
      let k := k - 1
      if k = 0 then count else naiveLoop x i count k
    else naiveLoop x i count k

/-- `select64_naive`, popcount.h lines 116-126. -/
def select64Naive (x : Word) (k : Int) : Int := naiveLoop x 64 (-1) k

/-- `select64_pdep_tzcnt`, popcount.h lines 131-141.  In AT&T order the first operand of `pdep` is
the mask, so the inline assembly deposits `i` into the ones of `val`.  `1ULL << rank` is undefined
for a negative or large `rank`. -/
def select64PdepTzcnt (val : Word) (rank : Int) : Outcome Nat :=
  if rank < 0 then ub .shift
  else do
    let i ← shl64 1#64 rank.toNat
    ok (tzcnt (pdep i val))

/-- One round of `select64_popcount_search`, popcount.h lines 148-156. -/
def searchStep (s : Word × Int × Int) (t : Nat) : Word × Int × Int :=
  let (x, k, loc) := s
  let lcount : Int := popcnt (x >>> t)
  if k > lcount then (x &&& ((1#64 <<< t) - 1#64), k - lcount, loc + t) else (x >>> t, k, loc)

/-- `select64_popcount_search`, popcount.h lines 143-158. -/
def select64PopcountSearch (x : Word) (k : Int) : Int :=
  let s := [32, 16, 8, 4, 2, 1].foldl searchStep (x, k, -1)
  s.2.2 + s.2.1

/-- `int` converted to `uint64`. -/
def intToU64 (k : Int) : Word := BitVec.ofInt 64 k

/-- `select64_broadword`, popcount.h lines 160-188.  The two shift counts are at most 64 only when
`place` is; a count of 64 is undefined. -/
def select64Broadword (word : Word) (k : Int) : Outcome Int := do
  let s := word - ((word &&& (0xa#64 * ONES4)) >>> 1)
  let s := (s &&& (3#64 * ONES4)) + ((s >>> 2) &&& (3#64 * ONES4))
  let s := (s + (s >>> 4)) &&& (0x0f#64 * ONES8)
  let byteSums := s * ONES8
  let residualStep := intToU64 k * ONES8
  let place := (((leqStep8 byteSums residualStep * ONES8) >>> 53) &&& ~~~0x7#64).toNat
  let sh ← shr64 (byteSums <<< 8) place
  let byteRank : Int := k - ((sh &&& 0xFF#64).toNat : Int)
  let ws ← shr64 word place
  let spread := ((ws &&& 0xFF#64) * ONES8) &&& INCR8
  let bitSums := zcompareStep8 spread * ONES8
  let rankStep := intToU64 byteRank * ONES8
  ok ((place : Int) + (((leqStep8 bitSums rankStep * ONES8) >>> 56).toNat : Int))

/-- `select64`, popcount.h lines 190-193. -/
def select64 (x : Word) (k : Int) : Outcome Nat := select64PdepTzcnt x k

/-- `bits[x]` with an `int` subscript. -/
def getI (bits : Vec Word) (x : Int) : Outcome Word :=
  if x < 0 then ub .oob else bits.get x.toNat

/-- The loop of `select512`, popcount.h lines 201-205; `7 - i` rounds are left. -/
def loop512 (bits : Vec Word) (x : Int) : Nat → Nat → Int → Int → Outcome (Nat × Int × Int)
  | 0, i, k, pop => ok (i, k, pop)
  | f + 1, i, k, pop =>
    if k > pop then do
      let w ← getI bits (x + (i + 1 : Nat))
      loop512 bits x f (i + 1) (k - pop) (popcnt w)
    else ok (i, k, pop)

/-- `select512`, popcount.h lines 197-209. -/
def select512 (bits : Vec Word) (x k : Int) : Outcome Int := do
  let w ← getI bits x
  let (i, k, _) ← loop512 bits x 7 0 k (popcnt w)
  let w ← getI bits (x + (i : Nat))
  if i = 7 ∧ (popcnt w : Int) < k then ok (-1)
  else do
    let r ← select64 w k
    ok ((i * 64 + r : Nat) : Int)

/-- Number of L1 entries, bitmap.h line 69. -/
def l1Count (nbits : Nat) : Nat := max (nbits / 2 ^ 32) 1
/-- Number of L2 entries, bitmap.h line 70. -/
def l2Count (nbits : Nat) : Nat := nbits / 2 ^ 11
/-- Number of basic blocks, bitmap.h line 71. -/
def blockCount (nbits : Nat) : Nat := nbits / 512

/-- State of the first pass of the constructor inside one L1 entry, bitmap.h lines 86-113:
`l2Entries_`, `l2Id`, `basicBlockId`, `cum`. -/
structure P1 where
  l2 : Vec Nat
  l2Id : Nat
  bb : Nat
  cum : Nat

/-- One round of the loop over `offset = 10 * j`, bitmap.h lines 99-106. -/
def l2Part (bits : Vec Word) (j : Nat) (s : P1) : Outcome P1 := do
  let c ← popcountLinear bits (mul64 s.bb 8) 512
  let e ← s.l2.get s.l2Id
  let l2 ← s.l2.set s.l2Id (e ||| (c <<< (32 + 10 * j)) % W64)
  ok { s with l2 := l2, cum := (s.cum + c) % 2 ^ 32, bb := s.bb + 1 }

/-- One round of the loop over `k`, bitmap.h lines 97-112 without the `break`. -/
def l2Entry (bits : Vec Word) (s : P1) : Outcome P1 := do
  let l2 ← s.l2.set s.l2Id s.cum
  let s ← forN 3 (l2Part bits) { s with l2 := l2 }
  let c ← popcountLinear bits (mul64 s.bb 8) 512
  ok { s with cum := (s.cum + c) % 2 ^ 32, bb := s.bb + 1, l2Id := s.l2Id + 1 }

/-- The loop over `k`, bitmap.h lines 96-113, with at most the given number of rounds. -/
def l2Fill (bits : Vec Word) (n2 : Nat) : Nat → P1 → Outcome P1
  | 0, s => ok s
  | f + 1, s => do
    let s ← l2Entry bits s
    if s.l2Id ≥ n2 then ok s else l2Fill bits n2 f s

/-- State of the first pass: `l1Entries_`, `l2Entries_`, `l2Id`, `basicBlockId`, `locCount_`,
`pCount_`. -/
structure S1 where
  l1 : Vec Nat
  l2 : Vec Nat
  l2Id : Nat
  bb : Nat
  lc : Vec Nat
  pCount : Nat

/-- One round of the first loop over the L1 entries, bitmap.h lines 92-117. -/
def pass1 (bits : Vec Word) (n2 i : Nat) (s : S1) : Outcome S1 := do
  let l1 ← s.l1.set i s.pCount
  let p ← l2Fill bits n2 (2 ^ 21) { l2 := s.l2, l2Id := s.l2Id, bb := s.bb, cum := 0 }
  let lc ← s.lc.set i ((p.cum + 8191) % 2 ^ 32 / 8192)
  ok { l1 := l1, l2 := p.l2, l2Id := p.l2Id, bb := p.bb, lc := lc,
       pCount := add64 s.pCount p.cum }

/-- State of the second pass inside one L1 entry, bitmap.h lines 122-138: `loc_[i]`,
`locCount_[i]`, `oneCount`. -/
structure P2 where
  arr : Vec Nat
  n : Nat
  cnt : Nat

/-- The body of the three inner loops, bitmap.h lines 131-138. -/
def locBit (bits : Vec Word) (woff k widx bit : Nat) (s : P2) : Outcome P2 := do
  let w ← bits.get (woff + widx)
  if w.getLsbD (63 - bit) then
    let cnt := (s.cnt + 1) % 2 ^ 32
    if cnt % 8192 = 1 then do
      let arr ← s.arr.set s.n ((k * 512 + widx * 64 + bit) % 2 ^ 32)
      ok { arr := arr, n := (s.n + 1) % 2 ^ 32, cnt := cnt }
    else ok { s with cnt := cnt }
  else ok s

/-- The bits of one basic block, bitmap.h lines 128-138. -/
def locBlock (bits : Vec Word) (bb k : Nat) (s : P2) : Outcome P2 :=
  forN 8 (fun widx s => forN 64 (fun bit s => locBit bits (mul64 bb 8) k widx bit s) s) s

/-- The loop over `k`, bitmap.h lines 127-142, with at most the given number of rounds. -/
def locFill (bits : Vec Word) (nb : Nat) : Nat → Nat → Nat → P2 → Outcome (P2 × Nat)
  | 0, _, bb, s => ok (s, bb)
  | f + 1, k, bb, s => do
    let s ← locBlock bits bb k s
    if bb + 1 ≥ nb then ok (s, bb + 1) else locFill bits nb f (k + 1) (bb + 1) s

/-- State of the second pass: `loc_`, `locCount_`, `basicBlockId`. -/
structure S2 where
  loc : Vec (Vec Nat)
  lc : Vec Nat
  bb : Nat

/-- One round of the second loop over the L1 entries, bitmap.h lines 121-143. -/
def pass2 (g3 : Nat → Nat → Nat) (bits : Vec Word) (nb i : Nat) (s : S2) : Outcome S2 := do
  let c ← s.lc.get i
  let (p, bb) ← locFill bits nb (2 ^ 23) 0 s.bb { arr := ⟨c, g3 i⟩, n := 0, cnt := 0 }
  let loc ← s.loc.set i p.arr
  let lc ← s.lc.set i p.n
  ok { loc := loc, lc := lc, bb := bb }

/-- A `BitmapPoppy`, bitmap.h lines 236-247.  `l1EntryCount_` and `l2EntryCount_` are the lengths
of the two arrays; `basicBlockCount_` is not used after the constructor. -/
structure Obj where
  bits : Vec Word
  nbits : Nat
  l1 : Vec Nat
  l2 : Vec Nat
  loc : Vec (Vec Nat)
  lc : Vec Nat
  pCount : Nat

/-- The constructor, bitmap.h lines 65-144. -/
def new (g1 g2 : Nat → Nat) (g3 : Nat → Nat → Nat) (bits : Vec Word) (nbits : Nat) :
    Outcome Obj := do
  let n1 := l1Count nbits
  let n2 := l2Count nbits
  let s ← forN n1 (pass1 bits n2)
    { l1 := ⟨n1, g1⟩, l2 := ⟨n2, g2⟩, l2Id := 0, bb := 0, lc := ⟨2 ^ 16, fun _ => 0⟩, pCount := 0 }
  let t ← forN n1 (pass2 g3 bits (blockCount nbits))
    { loc := ⟨2 ^ 16, fun _ => ⟨0, fun _ => 0⟩⟩, lc := s.lc, bb := 0 }
  ok { bits := bits, nbits := nbits, l1 := s.l1, l2 := s.l2, loc := t.loc, lc := t.lc,
       pCount := s.pCount }

/-- `rank(pos)`, bitmap.h lines 152-172. -/
def Obj.rank (b : Build) (o : Obj) (pos : Nat) : Outcome Nat := do
  massert b (decide (pos ≤ o.nbits))
  let l1Id := pos / 2 ^ 32
  let l2Id := pos / 2 ^ 11
  let x ← o.l2.get l2Id
  let e ← o.l1.get l1Id
  let groupId := pos % 2048 / 512
  let (res, _) ← forN groupId (fun _ (s : Nat × Nat) => ok (add64 s.1 (s.2 % 1024), s.2 / 1024))
    (add64 e (x % 2 ^ 32), x / 2 ^ 32)
  let c ← popcountLinear o.bits ((l2Id * 4 + groupId) * 8) (pos % 512)
  ok (add64 res c)

/-- The search for the L1 entry, bitmap.h lines 178-183: after entry 0 `l1Id` wraps around and the
next access is outside the array. -/
def l1Find (l1 : Vec Nat) (rank : Nat) : Nat → Outcome (Nat × Nat)
  | 0 => do
    let e ← l1.get 0
    if e < rank then ok (0, rank - e) else ub .oob
  | i + 1 => do
    let e ← l1.get (i + 1)
    if e < rank then ok (i + 1, rank - e) else l1Find l1 rank i

/-- The scan of the L2 entries, bitmap.h lines 192-194. -/
def l2Walk (l2 : Vec Nat) (maxL2 rank : Nat) : Nat → Nat → Outcome Nat
  | 0, i => ok i
  | f + 1, i =>
    if i + 1 < maxL2 then do
      let e ← l2.get (i + 1)
      if e % 2 ^ 32 < rank then l2Walk l2 maxL2 rank f (i + 1) else ok i
    else ok i

/-- The loop over `groupId`, bitmap.h lines 200-207: rounds left, `groupId`, `rank`, `x`. -/
def groupWalk : Nat → Nat → Nat → Nat → Nat × Nat
  | 0, g, rank, _ => (g, rank)
  | f + 1, g, rank, x =>
    if rank > x % 1024 then groupWalk f (g + 1) (rank - x % 1024) (x / 1024) else (g, rank)

/-- `uint64` or `uint32` converted to `int`. -/
def toInt32 (x : Nat) : Int :=
  if x % 2 ^ 32 < 2 ^ 31 then ((x % 2 ^ 32 : Nat) : Int) else ((x % 2 ^ 32 : Nat) : Int) - 2 ^ 32

/-- `int` converted to `uint64`, as a number. -/
def ofInt64 (x : Int) : Nat := (x % 2 ^ 64).toNat

/-- `select(rank)`, bitmap.h lines 173-214. -/
def Obj.select (b : Build) (o : Obj) (rank : Nat) : Outcome Nat := do
  massert b (decide (rank ≤ o.pCount))
  let (l1Id, rank) ← l1Find o.l1 rank (o.l1.len - 1)
  let offset := l1Id * 2 ^ 21 % 2 ^ 32
  let maxL2 := if l1Id = o.l1.len - 1 then sub64 o.l2.len offset % 2 ^ 32 else 2 ^ 21
  let ls ← o.loc.get l1Id
  let pos ← ls.get ((rank - 1) / 8192)
  let l2Id ← l2Walk o.l2 maxL2 rank maxL2 (pos / 2 ^ 11)
  let e ← o.l2.get l2Id
  let rank := sub64 rank (e % 2 ^ 32)
  let (groupId, rank) := groupWalk 3 0 rank (e / 2 ^ 32)
  let r ← select512 o.bits (toInt32 (((offset + l2Id) * 4 + groupId) * 8)) (toInt32 rank)
  ok (add64 (add64 (add64 (l1Id * 2 ^ 32 % W64) (l2Id * 2 ^ 11 % 2 ^ 32)) (groupId * 2 ^ 9))
    (ofInt64 r))

/-- `size()`, bitmap.h lines 216-218. -/
def Obj.size (o : Obj) : Nat := o.nbits

/-- `bytes()`, bitmap.h lines 220-234. -/
def Obj.bytes (o : Obj) : Outcome Nat := do
  let r := 8 + 8 * o.l2.len + 8 + 8 * o.l1.len + 8 + 8
  let r ← forN o.l1.len (fun i r => do
    let c ← o.lc.get i
    ok (r + 4 * c + 4)) r
  ok (r + 8)

/-! ## `poppy_wrapper`, src/perf_immutable_bitmap.cpp -/

/-- `build`, perf_immutable_bitmap.cpp lines 253-257. -/
def wrapBuild (g1 g2 : Nat → Nat) (g3 : Nat → Nat → Nat) (ws : List Word) : Outcome Obj :=
  new g1 g2 g3 (Vec.ofList ws) (ws.length * 64)

/-- `rank`, perf_immutable_bitmap.cpp lines 263-265. -/
def wrapRank (b : Build) (o : Obj) (i : Nat) : Outcome Nat := o.rank b (add64 i 1)

/-- `select`, perf_immutable_bitmap.cpp lines 267-269. -/
def wrapSelect (b : Build) (o : Obj) (i : Nat) : Outcome Nat := o.select b (add64 i 1)

/-- `bytes`, perf_immutable_bitmap.cpp lines 275-277. -/
def wrapBytes (o : Obj) : Outcome Nat := do
  let r ← o.bytes
  ok (o.bits.len * 8 + r)

end MRS.Poppy
