import Verif.Model.Mranisz.SelMpe
import Verif.Model.Mranisz.Select32
import Verif.Model.Mranisz.Mpe32

/-!
# The 32-bit compressed select of include/mranisz/shared/select.hpp: `SelectMPE32`

`SelectMPE32<SELECT_MPE1, L, THRESHOLD>` (`build_v1`, `getSelect_v1`), `SelectMPE32<SELECT_MPE2, ..>` and
`SelectMPE32<SELECT_MPE3, ..>` (`build_v2`, `getSelect_v2`).  Names are those of `Model/Mranisz/SelMpe`, in their
own namespace; what has the same text up to the types is used from there: `Con`, `Walk.flush`, `Acts`, `PlanS`,
`countPairsS`, `kindS`, `EncS.put`, `EncS.copy`, `tableZero`, `tableMark`, `encPairS`, `tableStore`, `Take`,
`takeLoop`, `tailS`.  The first loop has the text of `SelectBasic32` and is `S32.sel1`.

* Lengths, positions, counts are `unsigned int`.  Positions `8 * i + j`, the counts of ones, of entries and of
  bytes, differences of positions, and the sizes of the two arrays are reduced modulo `2^32`.  The counters that
  index an array (`selectCounter`, `bitsCounter`) are not reduced: an access beyond the array, which has fewer
  than `2^32` items, comes before they wrap.  `addedBitTablesInBytes` and `pairsToRemove` are reduced where
  they are used.
* `bitsContainer` is `unsigned int[]` and `bitsToWrite` an `unsigned char`: the values are bytes.
* `int bitsToTake = selectDiff` is the same number, as `THRESHOLD` is below `2^31` here (the constructor wants
  `THRESHOLD - 1 <= 8 * 2184`).
* `select` and `offset` are reduced at the end only; so is the result.
* Otherwise as in `Model/Mranisz/SelMpe`.
-/

set_option autoImplicit false

namespace MRS.Mran.S32
open Outcome

/-! ## The second and the third loop -/

/-- The next block, select.hpp lines 1529-1540, 1673-1685 (and 1928-1939, 2121-2133). -/
def advance (L TH : Nat) (sel : Vec (Option Nat)) (w : Walk) : Outcome Walk := do
  let up ← uget sel (w.cnt + 2)
  let a ← uget sel w.cnt
  let len := sub32 up a
  ok { w with upTo := up, len := len, sparse := decide (len > TH), mono := decide (¬ len > TH ∧ len = L),
              con := { w.con with btw := 0#8, bpos := 7, bytes := 0 } }

/-- The loops over the text from position `p` with `n` positions left, select.hpp lines 1489-1557 and 1585-1712
(and 1845-1956, 1985-2160); `stop` is `selectLenTempNotExtended - 2`. -/
def walkS {σ : Type} (A : Acts σ) (L TH : Nat) (t : Vec Byte) (stop : Nat) : Nat → Nat → Walk → σ → Outcome (Walk × σ)
  | 0, _, w, s => ok (w, s)
  | n + 1, p, w, s => do
    let bit ← bitAt t p
    if p % W32 = w.upTo then
      let w := { w with cnt := w.cnt + 2 }
      if w.cnt = stop then do
        let s ← A.last bit (p % W32) w s
        ok (w, s)
      else do
        let w ← w.flush
        let s ← A.next w s
        let w ← advance L TH (A.sel s) w
        walkS A L TH t stop n (p + 1) w s
    else if w.mono then walkS A L TH t stop n (p + 1) w s
    else if w.sparse then do
      let s ← (if bit then A.pos (p % W32) s else ok s)
      walkS A L TH t stop n (p + 1) w s
    else do
      let c ← w.con.bit bit
      walkS A L TH t stop n (p + 1) { w with con := c } s

/-- Where the loops start, select.hpp lines 1474-1488, 1568-1583 (and 1828-1844, 1968-1983). -/
def walkStart (L TH : Nat) (sel : Vec (Option Nat)) : Outcome Walk := do
  let up ← uget sel 2
  let a ← uget sel 0
  let len := add32 (sub32 up a) 1
  ok ⟨⟨fresh (TH / 8 + 1), 0, 0#8, 7⟩, 0, up, len, decide (len > TH), decide (¬ len > TH ∧ len = L)⟩

/-! ## The second loop: which blocks to compress -/

/-- `bitTableLen`, select.hpp lines 1521, 1631 (and 1878, 2031, 2067, 2091, 2274, 2443, 2511, 2579). -/
def tableLen (len : Nat) : Nat := sub32 len 1 / 128 + 1

/-- The end of another block, select.hpp lines 1509-1528 (and 1865-1927); the end of the last block, lines
1494-1502 (and 1850-1858), is `planLast`. -/
def planNext (ty : MpeType) (w : Walk) (s : PlanS) : Outcome PlanS := do
  let fl ← s.flags.set s.bk (some 0#8)
  if !w.sparse && !w.mono then do
    let (z, f, n) ← countPairsS w.con
    let b := tableLen w.len
    match kindS ty z f n b with
    | 3 => do
      let fl ← fl.set s.bk (some 3#8)
      ok { s with flags := fl, bk := s.bk + 1, added := s.added + 2 * b,
                  pairs := s.pairs + if ty = .mpe1 then n else z + f }
    | 1 => do
      let fl ← fl.set s.bk (some 1#8)
      ok { s with flags := fl, bk := s.bk + 1, added := s.added + b, pairs := s.pairs + z }
    | 2 => do
      let fl ← fl.set s.bk (some 2#8)
      ok { s with flags := fl, bk := s.bk + 1, added := s.added + b, pairs := s.pairs + f }
    | _ => ok { s with flags := fl, bk := s.bk + 1 }
  else ok { s with flags := fl, bk := s.bk + 1 }

/-- The second loop with its actions; it writes no positions. -/
def planActs (ty : MpeType) (L ones : Nat) (sel : Vec (Option Nat)) : Acts PlanS :=
  ⟨planLast L ones, planNext ty, fun _ s => ok s, fun _ => sel⟩

/-- `blockToCompress` and the second loop, select.hpp lines 1471-1557 (and 1825-1956); `nb` is
`blockCounter`. -/
def planS (ty : MpeType) (L TH : Nat) (g : Option (Nat → Byte)) (t : Vec Byte) (ones stop nb : Nat)
    (sel : Vec (Option Nat)) : Outcome PlanS := do
  let w ← walkStart L TH sel
  let (_, s) ← walkS (planActs ty L ones sel) L TH t stop (8 * t.len) 0 w ⟨memory g nb, 0, 0, 0⟩
  ok s

/-! ## The third loop: writing the blocks -/

/-- The four stores of a position, select.hpp lines 1593-1601, 1691-1697 (and 1993-2001, 2139-2145). -/
def putPosS (s : EncS) (p : Nat) : Outcome EncS :=
  forN 4 (fun k s => s.put (BitVec.ofNat 8 (p >>> (8 * k)))) s

/-- The end of the last block, select.hpp lines 1590-1621 (and 1990-2021). -/
def encLast (L ones : Nat) (bit : Bool) (p : Nat) (w : Walk) (s : EncS) : Outcome EncS := do
  if ones % L > 0 then do
    let s ← (if w.sparse && bit then putPosS s p else ok s)
    if !w.sparse && !w.mono then do
      let c ← w.con.push (if bit then w.con.btw + 1#8 <<< w.con.bpos else w.con.btw)
      s.copy c
    else ok s
  else if !w.mono && !w.sparse then do
    let w ← w.flush
    s.copy w.con
  else ok s

/-- A block with pairs left out, select.hpp lines 1630-1664 (and 2030-2064, 2066-2088, 2090-2112). -/
def encComp (TH kind : Nat) (w : Walk) (s : EncS) : Outcome EncS := do
  let o := s.bc
  let b := tableLen w.len
  let b1 ← tableZero TH b
  let b2 ← tableZero TH b
  let n := w.con.bytes
  let (s, b1, b2) ← forN (n / 2) (encPairS kind w.con) ({ s with bc := s.bc + if kind = 3 then 2 * b else b }, b1, b2)
  let s ← (if n % 2 = 1 then do
      let a ← uget w.con.cont (n - 1)
      s.put a
    else ok s)
  let out ← tableStore s.out o b b1
  let out ← (if kind = 3 then tableStore out (o + b) b b2 else ok out)
  ok { s with out := out }

/-- The end of another block, select.hpp lines 1628-1672, 1682 (and 2028-2120, 2130). -/
def encNext (flags : Vec (Option Byte)) (TH : Nat) (w : Walk) (s : EncS) : Outcome EncS := do
  let s ← (if !w.sparse && !w.mono then
      if s.kind = 3 ∨ s.kind = 1 ∨ s.kind = 2 then encComp TH s.kind w s else s.copy w.con
    else ok s)
  let v ← s.sel.set (w.cnt + 1) (some s.bc)
  let k ← uget flags s.bk
  ok { s with sel := v, kind := k.toNat, bk := s.bk + 1 }

/-- The third loop with its actions. -/
def encActs (flags : Vec (Option Byte)) (L TH ones : Nat) : Acts EncS :=
  ⟨encLast L ones, encNext flags TH, fun p s => putPosS s p, fun s => s.sel⟩

/-- The third loop and what follows it: offsets of the padding, `++` on the entries.  Select.hpp lines 1568-1717
(and 1968-2165); `len` is `selectLenTempNotExtended`, `tl` is `selectLenTemp`. -/
def encodeS (L TH : Nat) (t : Vec Byte) (ones len tl : Nat) (flags out : Vec (Option Byte)) (sel : Vec (Option Nat)) :
    Outcome EncS := do
  let w ← walkStart L TH sel
  let k ← uget flags 0
  let (w, s) ← walkS (encActs flags L TH ones) L TH t (sub32 len 2) (8 * t.len) 0 w ⟨sel, out, 0, 1, k.toNat⟩
  let v ← forN ((tl - w.cnt) / 2) (fun k v => do
    let o ← uget v (sub32 w.cnt 1)
    v.set (w.cnt + 1 + 2 * k) (some o)) s.sel
  let v ← forN (len / 2 - 1) (fun k v => do
    let x ← uget v (2 + 2 * k)
    v.set (2 + 2 * k) (some (add32 x 1))) v
  ok { s with sel := v }

/-! ## Superblocks -/

/-- `bucket` for the superblock that starts at block `i`, select.hpp lines 1734-1745 (and 2182-2194); the
array is all zero when the body starts. -/
def bucketS (ty : MpeType) (g : Option (Nat → Byte)) (tmp : Vec (Option Nat)) (fl : Vec (Option Byte)) (i : Nat) :
    Outcome (Vec Nat) := do
  let b : Vec Nat := ⟨25, fun _ => 0⟩
  let b ← forN 16 (fun j b => do
    let x ← uget tmp (2 * (i + j))
    b.set j x) b
  let o ← uget tmp (2 * i + 1)
  let b ← b.set 16 o
  let b ← forN 15 (fun j b => do
    let o ← uget tmp (2 * (i + j + 1) + 1)
    let b0 ← b.get 16
    let fl ← flagAt g fl (i + j + 1)
    let x ← b.get (17 + j / 2)
    b.set (17 + j / 2) (add32 x (shl32 (add32 (sub32 o b0) (markOf ty fl)) (16 * (j % 2))))) b
  let fl ← flagAt g fl i
  let x ← b.get 17
  b.set 17 (add32 x (markFirst32 ty fl))

/-- Body of the loop over superblocks, select.hpp lines 1733-1750 (and 2181-2198), superblock number `k`;
`selectCounter = 25 * k`. -/
def superS (ty : MpeType) (g : Option (Nat → Byte)) (tmp : Vec (Option Nat)) (fl : Vec (Option Byte)) (k : Nat)
    (v : Vec (Option Nat)) : Outcome (Vec (Option Nat)) := do
  let b ← bucketS ty g tmp fl (16 * k)
  forN 25 (fun j v => do
    let x ← b.get j
    v.set (25 * k + j) (some x)) v

/-- `build_v1`, `build_v2`: select.hpp lines 1402-1754 (and 1756-2202); `aS`, `aB` are the addresses of `selects`
and `bits`. -/
def buildSelMpe (ty : MpeType) (L TH aS aB : Nat) (g : JunkS) (t : Vec Byte) : Outcome Select := do
  let ones ← countOnes t
  let len := entries L ones
  let tl := selTmpLen len
  let s ← sel1 L TH t ones (fresh tl)
  let tmp ← forFrom s.cnt (tl - s.cnt) (fun i v => v.set i (some 0)) s.sel
  let pl ← planS ty L TH g.flags t ones (sub32 len 2) (s.cnt / 2 - 1) tmp
  let bitsLen := sub32 (add32 s.bitsLen pl.added) (2 * pl.pairs)
  let e ← encodeS L TH t ones len tl pl.flags (memory g.bits (bytesAt aB bitsLen)) tmp
  let selLen := tl / 2 / 16 * 25
  let v ← forN (tl / 2 / 16) (superS ty g.flags e.sel pl.flags) (fresh (items aS selLen))
  ok ⟨v, selLen, e.out, bitsLen, t.len⟩

/-! ## Queries -/

/-- The offset of a sparse block, select.hpp lines 2219-2241 (and 2386-2408); `p` is the start of the superblock,
`n` is `selectFromStart`. -/
def offSparse (ty : MpeType) (sel : Vec (Option Nat)) (p n : Nat) : Outcome Nat := do
  let off ← uget sel (p + 16)
  if n = 0 then ok off
  else if n ≤ 2 then do
    let w ← uget sel (p + 17)
    ok (add32 off ((w >>> (16 * (n - 1))) &&& if ty = .mpe1 then 0x3FFF else 0x0FFF))
  else do
    let d ← slot sel (p + 16) n
    ok (add32 off d)

/-- The offset of another block and `compressedBlock`: select.hpp lines 2219, 2245-2270 (version 1, where `true`
is 3) and 2386, 2412-2437 (version 2).  Where the text leaves out a mask after `>> 31` and `>> 30` it would
change nothing in 32 bits. -/
def offDense (ty : MpeType) (sel : Vec (Option Nat)) (p n : Nat) : Outcome (Nat × Nat) := do
  let off ← uget sel (p + 16)
  if n = 0 then do
    let w ← uget sel (p + 17)
    ok (off, if ty = .mpe1 then 3 * ((w >>> 30) &&& 1) else (w >>> 28) &&& 3)
  else do
    let w ← uget sel (p + 16 + (n + 1) / 2)
    let d := w >>> (16 * ((n + 1) % 2))
    if ty = .mpe1 then
      ok (add32 off (d &&& if n ≤ 2 then 0x3FFF else 0x7FFF), 3 * ((d >>> 15) &&& 1))
    else
      ok (add32 off (d &&& if n ≤ 2 then 0x0FFF else 0x3FFF), (d >>> 14) &&& 3)

/-- A block with pairs left out, select.hpp lines 2273-2346 (and 2442-2508, 2510-2576, 2578-2650); the loop over
`m` and `k`, lines 2279-2331 (and 2447-2494, 2515-2562, 2584-2636), is `takeLoop`. -/
def takeBlock (bits : Vec (Option Byte)) (kind off diff i select : Nat) : Outcome Nat := do
  let b := tableLen diff
  ok ((← takeLoop bits kind off (off + b) (8 * b) 0
    ⟨fresh 8, 0, i, select, off + (if kind = 3 then 2 * b else b), diff⟩) % W32)

/-- `getSelect_v1`, `getSelect_v2`: select.hpp lines 2204-2369 (and 2371-2676). -/
def selectMpe (ty : MpeType) (strict : Bool) (L TH : Nat) (x : Select) (i : Nat) : Outcome Nat := do
  let start := i / L
  let p := 25 * (start / 16) % W32
  let n := start % 16
  let select ← uget x.sel (p + n)
  let i := i % L
  if i = 0 then ok (sub32 select 1)
  else do
    let s2 ← (if n = 15 then uget x.sel (p + 25) else uget x.sel (p + (n + 1)))
    let diff := sub32 s2 select
    if diff = L then ok (add32 (sub32 select 1) i)
    else if diff > TH then do
      let off ← offSparse ty x.sel p n
      let w ← load4 strict x.bits (off + 4 * (i - 1) % W32)
      ok w.toNat
    else do
      let (off, kind) ← offDense ty x.sel p n
      if kind ≠ 0 then takeBlock x.bits kind off diff i select
      else scanBlock32 strict x.bits off diff i select

/-! ## Sizes -/

/-- `getSize`, select.hpp lines 2838-2850. -/
def bytesMpe (x : Select) : Nat :=
  4 + 4 + 4 + 8 + 8 + 8 + 8 + (8 + 128) + (if x.selLen > 0 then add32 x.selLen 32 * 4 else 0) +
    (if x.bitsLen > 0 then add32 x.bitsLen 128 else 0)

/-- What an object takes: ten pointers and three lengths (select.hpp lines 2679-2693), with padding 96 bytes,
the tables `popcntLUT` and `masks`, which are members too (lines 2704-2716), `buffer` (line 1396), and the two
arrays that `build` allocates (lines 1562, 1724). -/
def takenMpe (x : Select) : Nat :=
  96 + 256 * 4 + 8 + (8 + 128) + 4 * add32 x.selLen 32 + add32 x.bitsLen 128

end MRS.Mran.S32
