import Verif.Model.Mranisz.Rank

/-!
# Compressed select of include/mranisz/shared/select.hpp

The classes `SelectBasic64<SELECT_BASIC_STANDARD, L, THRESHOLD>` and
`SelectBasic64<SELECT_BASIC_COMPRESSED_HEADERS, L, THRESHOLD>`; `TH` is `THRESHOLD`.

* Memory as in `Model/Mranisz/Rank`.  `alignedBits` is a multiple of 128, so a 64-bit access at byte
  `off` is aligned just when `off % 8 = 0`; with `strict` a misaligned access is undefined, without it
  works (x86).
* The nested loops over bytes `i` and bits `j` of the text run over `p = 8 * i + j`.
* Counters are `Nat` without reduction: the theorems are about texts shorter than `2^57` bytes, for which
  they cannot wrap when `L < THRESHOLD`.  Differences of positions are reduced modulo `2^64`.
* `free()`, destructor left out; `pointer`, `pointer2` are locals.
-/

set_option autoImplicit false

namespace MRS.Mran
open Outcome

/-- Bytes that remain after the array once `alignedBits` has moved to the next multiple of 128 on memory
with 128 extra bytes at address `addr`, select.hpp lines 756-758. -/
def roomBytes (addr : Nat) : Nat := 128 - (128 - addr % 128) % 128

/-- `((text[i] >> (7 - j)) & 1) == 1` at `p = 8 * i + j`, select.hpp line 713. -/
def bitAt (t : Vec Byte) (p : Nat) : Outcome Bool := do
  let c ← t.get (p / 8)
  ok (((c >>> (7 - p % 8)) &&& 1#8) == 1#8)

/-- `numberOfOnes`, select.hpp lines 691-693 (and 872-874). -/
def countOnes (t : Vec Byte) : Outcome Nat :=
  forN t.len (fun i n => do
    let c ← t.get i
    ok (n + popcnt (c.setWidth 64))) 0

/-- Variables of the first loop over the text. -/
structure Sel1 where
  sel : Vec (Option Nat)
  select : Nat
  cnt : Nat
  last : Nat
  bitsLen : Nat

/-- Body of the first loop, select.hpp lines 713-740 (and 894-919). -/
def sel1Step (L TH : Nat) (t : Vec Byte) (p : Nat) (s : Sel1) : Outcome Sel1 := do
  if ← bitAt t p then do
    let s := { s with select := s.select + 1, last := p }
    if s.select % L = 0 then do
      let v ← s.sel.set s.cnt (some s.last)
      let v ← v.set (s.cnt + 1) (some 0)
      let s := { s with sel := v, cnt := s.cnt + 2 }
      let a ← uget s.sel (s.cnt - 2)
      let b ← uget s.sel (s.cnt - 4)
      let len := sub64 a b
      let len := if s.cnt = 4 then add64 len 1 else len
      if len > TH then ok { s with bitsLen := s.bitsLen + 8 * (L - 1) }
      else if len > L then
        if s.cnt = 4 then
          ok { s with bitsLen := s.bitsLen + len / 8 + (if len % 8 > 0 then 1 else 0) }
        else
          ok { s with bitsLen := s.bitsLen + (len - 1) / 8 + (if (len - 1) % 8 > 0 then 1 else 0) }
      else ok s
    else ok s
  else ok s

/-- The first loop and the step after it, select.hpp lines 702-754 (and 884-933), on an array from
`new[]`. -/
def sel1 (L TH : Nat) (t : Vec Byte) (ones : Nat) (sel : Vec (Option Nat)) : Outcome Sel1 := do
  let v ← sel.set 0 (some 0)
  let v ← v.set 1 (some 0)
  let s ← forN (8 * t.len) (sel1Step L TH t) ⟨v, 0, 2, 0, 0⟩
  if ones % L > 0 then do
    let v ← s.sel.set s.cnt (some s.last)
    let v ← v.set (s.cnt + 1) (some 0)
    let s := { s with sel := v, cnt := s.cnt + 2 }
    let a ← uget s.sel (s.cnt - 2)
    let b ← uget s.sel (s.cnt - 4)
    let len := sub64 a b
    if len > TH then ok { s with bitsLen := s.bitsLen + 8 * (s.select % L) }
    else ok { s with bitsLen := s.bitsLen + len / 8 + (if len % 8 > 0 then 1 else 0) }
  else ok s

/-- Variables of the second loop. -/
structure Sel2 where
  sel : Vec (Option Nat)
  bits : Vec (Option Byte)
  cnt : Nat
  bc : Nat
  btw : Byte
  bpos : Nat
  upTo : Nat
  sparse : Bool
  mono : Bool

/-- `alignedBits[bitsCounter++] = x`. -/
def Sel2.put (s : Sel2) (x : Byte) : Outcome Sel2 := do
  let b ← s.bits.set s.bc (some x)
  ok { s with bits := b, bc := s.bc + 1 }

/-- The eight stores of a position, select.hpp lines 778-793 and 829-842. -/
def Sel2.putPos (s : Sel2) (p : Nat) : Outcome Sel2 :=
  forN 8 (fun k s => s.put (BitVec.ofNat 8 (p >>> (8 * k)))) s

/-- What happens at the end of the last block, select.hpp lines 774-806. -/
def sel2Last (L ones : Nat) (bit : Bool) (p : Nat) (s : Sel2) : Outcome Sel2 := do
  if ones % L > 0 then do
    let s ← (if s.sparse && bit then s.putPos p else ok s)
    if !s.sparse && !s.mono then
      s.put (if bit then s.btw + 1#8 <<< s.bpos else s.btw)
    else ok s
  else if !s.mono && !s.sparse && s.bpos != 7 then s.put s.btw
  else ok s

/-- What happens at the end of another block, select.hpp lines 808-824. -/
def sel2Next (L TH : Nat) (s : Sel2) : Outcome Sel2 := do
  let s ← (if !s.mono && !s.sparse && s.bpos != 7 then s.put s.btw else ok s)
  let v ← s.sel.set (s.cnt + 1) (some s.bc)
  let s := { s with sel := v }
  let up ← uget s.sel (s.cnt + 2)
  let a ← uget s.sel s.cnt
  let len := sub64 up a
  ok { s with upTo := up, sparse := decide (len > TH), mono := decide (¬ len > TH ∧ len = L),
              btw := 0#8, bpos := 7 }

/-- What happens inside a block, select.hpp lines 826-859. -/
def sel2In (bit : Bool) (p : Nat) (s : Sel2) : Outcome Sel2 := do
  if s.mono then ok s
  else if s.sparse then (if bit then s.putPos p else ok s)
  else do
    let s := if bit then { s with btw := s.btw + 1#8 <<< s.bpos } else s
    if s.bpos = 0 then do
      let s ← s.put s.btw
      ok { s with btw := 0#8, bpos := 7 }
    else ok { s with bpos := s.bpos - 1 }

/-- The second loop from position `p` with `n` positions left, select.hpp lines 770-862 (and
949-1042); `stop` is the number of entries it compares `selectCounter` to. -/
def sel2Loop (L TH : Nat) (t : Vec Byte) (ones stop : Nat) : Nat → Nat → Sel2 → Outcome Sel2
  | 0, _, s => ok s
  | n + 1, p, s => do
    let bit ← bitAt t p
    if p = s.upTo then
      let s := { s with cnt := s.cnt + 2 }
      if s.cnt = stop then sel2Last L ones bit p s
      else do
        let s ← sel2Next L TH s
        sel2Loop L TH t ones stop n (p + 1) s
    else do
      let s ← sel2In bit p s
      sel2Loop L TH t ones stop n (p + 1) s

/-- The second part, select.hpp lines 756-865 (and 938-1045): the loop, then `++` on the entries. -/
def sel2 (L TH : Nat) (t : Vec Byte) (ones stop len aB : Nat) (s : Sel1) : Outcome Sel2 := do
  let up ← uget s.sel 2
  let a ← uget s.sel 0
  let l := add64 (sub64 up a) 1
  let s ← sel2Loop L TH t ones stop (8 * t.len) 0
    ⟨s.sel, fresh (s.bitsLen + roomBytes aB), 0, 0, 0#8, 7, up, decide (l > TH), decide (¬ l > TH ∧ l = L)⟩
  let v ← forN (len / 2 - 1) (fun k v => do
    let x ← uget v (2 + 2 * k)
    v.set (2 + 2 * k) (some (add64 x 1))) s.sel
  ok { s with sel := v }

/-- The fields of `SelectBasic64` after `build`, select.hpp lines 1194-1202. -/
structure Select where
  sel : Vec (Option Nat)
  selLen : Nat
  bits : Vec (Option Byte)
  bitsLen : Nat
  textLen : Nat

/-- `selectsLen`, select.hpp lines 695-696 (and 876-877). -/
def entries (L ones : Nat) : Nat := 2 * (ones / L) + 2 + (if ones % L > 0 then 2 else 0)

/-- `build_std`, select.hpp lines 687-866; `aS`, `aB` are the addresses of `selects` and `bits`. -/
def buildSel (L TH aS aB : Nat) (t : Vec Byte) : Outcome Select := do
  let ones ← countOnes t
  let len := entries L ones
  let s ← sel1 L TH t ones (fresh (len + room aS))
  let s2 ← sel2 L TH t ones (sub64 len 2) len aB s
  ok ⟨s2.sel, len, s2.bits, s.bitsLen, t.len⟩

/-! ## Queries -/

/-- The 64-bit word in bytes `0..n-1` of `b`, least significant first. -/
def leWord (b : Nat → Byte) : Nat → Word
  | 0 => 0#64
  | n + 1 => leWord b n + (b n).setWidth 64 <<< (8 * n)

/-- `*((unsigned long long*)(alignedBits + off))` on a little-endian machine. -/
def load8 (strict : Bool) (bits : Vec (Option Byte)) (off : Nat) : Outcome Word :=
  if strict && off % 8 != 0 then ub .misaligned
  else forN 8 (fun k w => do
    let b ← uget bits (off + k)
    ok (w + b.setWidth 64 <<< (8 * k))) 0#64

/-- `for (j = 64; j < selectDiff; j += 64)`, select.hpp lines 1099-1106 (and 1167-1174), with `n`
iterations left; the variables are `i`, `select`, `pointer - alignedBits`. -/
def wordLoop (strict : Bool) (bits : Vec (Option Byte)) : Nat → Nat → Nat → Nat → Outcome (Nat × Nat × Nat)
  | 0, i, select, p => ok (i, select, p)
  | n + 1, i, select, p => do
    let c := popcnt (← load8 strict bits p)
    if c ≥ i then ok (i, select, p) else wordLoop strict bits n (i - c) (select + 64) (p + 8)

/-- `while (true)`, select.hpp lines 1107-1113 (and 1175-1181).  A read beyond the array ends it with
`ub .oob`, so `fuel = bits.len + 1` iterations are enough. -/
def byteLoop (bits : Vec (Option Byte)) : Nat → Nat → Nat → Nat → Outcome (Nat × Nat × Nat)
  | 0, _, _, _ => ub .diverges
  | fuel + 1, i, select, p => do
    let b ← uget bits p
    let c := popcntTable.getD b.toNat 0
    if c ≥ i then ok (i, select, p) else byteLoop bits fuel (i - c) (select + 8) (p + 1)

/-- `masks`, select.hpp lines 1224-1225. -/
def byteMasks : List Byte := [0x80#8, 0x40#8, 0x20#8, 0x10#8, 0x08#8, 0x04#8, 0x02#8, 0x01#8]

/-- `for (j = 0; j < 8; ++j)` and `return 0`, select.hpp lines 1114-1120 (and 1182-1188), with `n`
iterations left; `b` is `pointer[0]`. -/
def bitLoop (b : Byte) (select : Nat) : Nat → Nat → Nat → Nat
  | 0, _, _ => 0
  | n + 1, j, i =>
    if b &&& byteMasks.getD j 0#8 ≠ 0#8 then
      if i = 1 then select + j else bitLoop b select n (j + 1) (i - 1)
    else bitLoop b select n (j + 1) i

/-- The scan of a block that is neither sparse nor all ones, select.hpp lines 1097-1120 (and
1165-1188). -/
def scanBlock (strict : Bool) (bits : Vec (Option Byte)) (off diff i select : Nat) : Outcome Nat := do
  let (i, select, p) ← wordLoop strict bits ((diff - 1) / 64) i select off
  let (i, select, p) ← byteLoop bits (bits.len + 1) i select p
  let b ← uget bits p
  ok (bitLoop b select 8 0 i)

/-- `getSelect_std`, select.hpp lines 1085-1121. -/
def selectStd (strict : Bool) (L TH : Nat) (x : Select) (i : Nat) : Outcome Nat := do
  let start := i / L
  let select ← uget x.sel (2 * start)
  let i := i % L
  if i = 0 then ok (sub64 select 1)
  else do
    let diff := sub64 (← uget x.sel (2 * start + 2)) select
    if diff = L then ok (add64 (sub64 select 1) i)
    else do
      let off ← uget x.sel (2 * start + 1)
      if diff > TH then do
        let w ← load8 strict x.bits (off + 8 * (i - 1))
        ok w.toNat
      else scanBlock strict x.bits off diff i select

/-! ## Compressed headers -/

/-- `bucket` for the superblock that starts at block `i`, select.hpp lines 1065-1075; the array is all
zero when the body starts (lines 1061-1062 and 1079). -/
def selBucket (tmp : Vec (Option Nat)) (i : Nat) : Outcome (Vec Nat) := do
  let b : Vec Nat := ⟨21, fun _ => 0⟩
  let b ← forN 16 (fun j b => do
    let x ← uget tmp (2 * (i + j))
    b.set j x) b
  let o ← uget tmp (2 * i + 1)
  let b ← b.set 16 o
  forN 15 (fun j b => do
    let o ← uget tmp (2 * (i + j + 1) + 1)
    let b0 ← b.get 16
    let x ← b.get (17 + j / 4)
    b.set (17 + j / 4) (add64 x (shl64 (sub64 o b0) (16 * (j % 4))))) b

/-- Body of the loop over superblocks, select.hpp lines 1064-1081, superblock number `k`;
`selectCounter = 21 * k`. -/
def selSuper (tmp : Vec (Option Nat)) (k : Nat) (v : Vec (Option Nat)) : Outcome (Vec (Option Nat)) := do
  let b ← selBucket tmp (16 * k)
  forN 21 (fun j v => do
    let x ← b.get j
    v.set (21 * k + j) (some x)) v

/-- `selectLenTemp` after rounding up, select.hpp lines 879-881. -/
def selTmpLen (len : Nat) : Nat := if len % (2 * 16) > 0 then len + (2 * 16 - len % (2 * 16)) else len

/-- `build_bch`, select.hpp lines 868-1083.  `selectLenTempNotExtended` (line 878) is an
`unsigned int`. -/
def buildSelBch (L TH aS aB : Nat) (t : Vec Byte) : Outcome Select := do
  let ones ← countOnes t
  let len := entries L ones
  let short := len % 2 ^ 32
  let s ← sel1 L TH t ones (fresh (selTmpLen len))
  let tmp ← forFrom s.cnt (selTmpLen len - s.cnt) (fun i v => v.set i (some 0)) s.sel
  let s2 ← sel2 L TH t ones ((short + 2 ^ 32 - 2) % 2 ^ 32) short aB { s with sel := tmp }
  let selLen := selTmpLen len / 2 / 16 * 21
  let v ← forN (selTmpLen len / 2 / 16) (selSuper s2.sel) (fresh (selLen + room aS))
  ok ⟨v, selLen, s2.bits, s.bitsLen, t.len⟩

/-- `getSelect_bch`, select.hpp lines 1123-1189. -/
def selectBch (strict : Bool) (L TH : Nat) (x : Select) (i : Nat) : Outcome Nat := do
  let start := i / L
  let p := 21 * (start / 16)
  let n := start % 16
  let select ← uget x.sel (p + n)
  let i := i % L
  if i = 0 then ok (sub64 select 1)
  else do
    let s2 ← (if n = 15 then uget x.sel (p + 21) else uget x.sel (p + (n + 1)))
    let diff := sub64 s2 select
    if diff = L then ok (add64 (sub64 select 1) i)
    else do
      let off ← uget x.sel (p + 16)
      let off ← (if n > 0 then do ok (off + (← slot1 x.sel (p + 16) n)) else ok off)
      if diff > TH then do
        let w ← load8 strict x.bits (off + 8 * (i - 1))
        ok w.toNat
      else scanBlock strict x.bits off diff i select

/-! ## Sizes -/

/-- `getSize`, select.hpp lines 1339-1349. -/
def Select.bytes (x : Select) : Nat :=
  8 + 8 + 8 + 8 + 8 + (if x.selLen > 0 then (x.selLen + 16) * 8 else 0) +
    (if x.bitsLen > 0 then x.bitsLen + 128 else 0)

/-- What an object takes: nine members of 8 bytes and the tables `popcntLUT` and `masks`, which are
members too (select.hpp lines 1194-1225), and the two arrays that `build` allocates (lines 697, 756). -/
def Select.taken (x : Select) : Nat := 72 + 256 * 8 + 8 + 8 * (x.selLen + 16) + (x.bitsLen + 128)

end MRS.Mran
