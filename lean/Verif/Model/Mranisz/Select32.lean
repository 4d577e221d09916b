import Verif.Model.Mranisz.Select
import Verif.Model.Mranisz.Rank32

/-!
# The 32-bit select classes of include/mranisz/shared/select.hpp

`SelectBasic32<SELECT_BASIC_STANDARD, L, THRESHOLD>` and
`SelectBasic32<SELECT_BASIC_COMPRESSED_HEADERS, L, THRESHOLD>`; `TH` is `THRESHOLD`.  Names are those of
the 64-bit classes (`Model/Mranisz/Select`), in their own namespace.

* Lengths, positions, counts are `unsigned int`.  Positions `8 * i + j`, the counts of ones, of entries
  and of bytes, and the sizes of the two arrays are reduced modulo `2^32`.  The counters that index an
  array (`selectCounter`, `bitsCounter`) are not reduced: an access beyond the array, which has fewer than
  `2^32` items, comes before they wrap.
* `j += 64` in the loops of the queries cannot wrap when `THRESHOLD <= 2^32 - 64`, which the theorems
  assume.
* Otherwise as in `Model/Mranisz/Select`.
-/

set_option autoImplicit false

namespace MRS.Mran.S32
open Outcome

/-- Items of an array of `n + 32` numbers at address `addr` from the next multiple of 128 on, select.hpp
lines 45-48 (and 370-373). -/
def items (addr n : Nat) : Nat := add32 n 32 - (128 - addr % 128) % 128 / 4

/-- Items of an array of `n + 128` bytes at address `addr` from the next multiple of 128 on, select.hpp
lines 103-105 (and 270-272). -/
def bytesAt (addr n : Nat) : Nat := add32 n 128 - (128 - addr % 128) % 128

/-- `numberOfOnes`, select.hpp lines 39-41 (and 203-205). -/
def countOnes (t : Vec Byte) : Outcome Nat :=
  forN t.len (fun i n => do
    let c ← t.get i
    ok (add32 n (popcnt (c.setWidth 64)))) 0

/-- Body of the first loop, select.hpp lines 60-89 (and 226-252). -/
def sel1Step (L TH : Nat) (t : Vec Byte) (p : Nat) (s : Sel1) : Outcome Sel1 := do
  if ← bitAt t p then do
    let s := { s with select := add32 s.select 1, last := p % W32 }
    if s.select % L = 0 then do
      let v ← s.sel.set s.cnt (some s.last)
      let v ← v.set (s.cnt + 1) (some 0)
      let s := { s with sel := v, cnt := s.cnt + 2 }
      let a ← uget s.sel (s.cnt - 2)
      let b ← uget s.sel (s.cnt - 4)
      let len := sub32 a b
      let len := if s.cnt = 4 then add32 len 1 else len
      if len > TH then ok { s with bitsLen := add32 s.bitsLen (4 * (L - 1)) }
      else if len > L then
        if s.cnt = 4 then
          ok { s with bitsLen := add32 s.bitsLen (len / 8 + (if len % 8 > 0 then 1 else 0)) }
        else
          ok { s with bitsLen := add32 s.bitsLen ((len - 1) / 8 + (if (len - 1) % 8 > 0 then 1 else 0)) }
      else ok s
    else ok s
  else ok s

/-- The first loop and the step after it, select.hpp lines 50-101 (and 215-265), on an array from
`new[]`. -/
def sel1 (L TH : Nat) (t : Vec Byte) (ones : Nat) (sel : Vec (Option Nat)) : Outcome Sel1 := do
  let v ← sel.set 0 (some 0)
  let v ← v.set 1 (some 0)
  let s ← forN (8 * t.len) (sel1Step L TH t) ⟨v, 0, 2, 0, 0⟩
  if ones % L > 0 then do
    let v ← s.sel.set s.cnt (some s.last)
    let v ← v.set (s.cnt + 1) (some 0)
    let s := { s with sel := v, cnt := s.cnt + 2 }
    let a ← uget s.sel (s.cnt - 2)
    let b ← uget s.sel (s.cnt - 4)
    let len := sub32 a b
    if len > TH then ok { s with bitsLen := add32 s.bitsLen (4 * (s.select % L)) }
    else ok { s with bitsLen := add32 s.bitsLen (len / 8 + (if len % 8 > 0 then 1 else 0)) }
  else ok s

/-- The four stores of a position, select.hpp lines 126-134 and 170-176. -/
def putPos (s : Sel2) (p : Nat) : Outcome Sel2 :=
  forN 4 (fun k s => s.put (BitVec.ofNat 8 (p >>> (8 * k)))) s

/-- What happens at the end of the last block, select.hpp lines 122-147. -/
def sel2Last (L ones : Nat) (bit : Bool) (p : Nat) (s : Sel2) : Outcome Sel2 := do
  if ones % L > 0 then do
    let s ← (if s.sparse && bit then putPos s p else ok s)
    if !s.sparse && !s.mono then
      s.put (if bit then s.btw + 1#8 <<< s.bpos else s.btw)
    else ok s
  else if !s.mono && !s.sparse && s.bpos != 7 then s.put s.btw
  else ok s

/-- What happens at the end of another block, select.hpp lines 149-165. -/
def sel2Next (L TH : Nat) (s : Sel2) : Outcome Sel2 := do
  let s ← (if !s.mono && !s.sparse && s.bpos != 7 then s.put s.btw else ok s)
  let v ← s.sel.set (s.cnt + 1) (some s.bc)
  let s := { s with sel := v }
  let up ← uget s.sel (s.cnt + 2)
  let a ← uget s.sel s.cnt
  let len := sub32 up a
  ok { s with upTo := up, sparse := decide (len > TH), mono := decide (¬ len > TH ∧ len = L),
              btw := 0#8, bpos := 7 }

/-- What happens inside a block, select.hpp lines 167-191. -/
def sel2In (bit : Bool) (p : Nat) (s : Sel2) : Outcome Sel2 := do
  if s.mono then ok s
  else if s.sparse then (if bit then putPos s p else ok s)
  else do
    let s := if bit then { s with btw := s.btw + 1#8 <<< s.bpos } else s
    if s.bpos = 0 then do
      let s ← s.put s.btw
      ok { s with btw := 0#8, bpos := 7 }
    else ok { s with bpos := s.bpos - 1 }

/-- The second loop from position `p` with `n` positions left, select.hpp lines 118-193 (and
285-360); `stop` is the number of entries it compares `selectCounter` to. -/
def sel2Loop (L TH : Nat) (t : Vec Byte) (ones stop : Nat) : Nat → Nat → Sel2 → Outcome Sel2
  | 0, _, s => ok s
  | n + 1, p, s => do
    let bit ← bitAt t p
    if p % W32 = s.upTo then
      let s := { s with cnt := s.cnt + 2 }
      if s.cnt = stop then sel2Last L ones bit (p % W32) s
      else do
        let s ← sel2Next L TH s
        sel2Loop L TH t ones stop n (p + 1) s
    else do
      let s ← sel2In bit (p % W32) s
      sel2Loop L TH t ones stop n (p + 1) s

/-- The second part, select.hpp lines 103-196 (and 270-363): the loop, then `++` on the entries. -/
def sel2 (L TH : Nat) (t : Vec Byte) (ones stop len aB : Nat) (s : Sel1) : Outcome Sel2 := do
  let up ← uget s.sel 2
  let a ← uget s.sel 0
  let l := add32 (sub32 up a) 1
  let s ← sel2Loop L TH t ones stop (8 * t.len) 0
    ⟨s.sel, fresh (bytesAt aB s.bitsLen), 0, 0, 0#8, 7, up, decide (l > TH), decide (¬ l > TH ∧ l = L)⟩
  let v ← forN (len / 2 - 1) (fun k v => do
    let x ← uget v (2 + 2 * k)
    v.set (2 + 2 * k) (some (add32 x 1))) s.sel
  ok { s with sel := v }

/-- `selectsLen`, select.hpp lines 43-44 (and 207-208). -/
def entries (L ones : Nat) : Nat := (2 * (ones / L) + 2 + (if ones % L > 0 then 2 else 0)) % W32

/-- `build_std`, select.hpp lines 35-197; `aS`, `aB` are the addresses of `selects` and `bits`. -/
def buildSel (L TH aS aB : Nat) (t : Vec Byte) : Outcome Select := do
  let ones ← countOnes t
  let len := entries L ones
  let s ← sel1 L TH t ones (fresh (items aS len))
  let s2 ← sel2 L TH t ones (sub32 len 2) len aB s
  ok ⟨s2.sel, len, s2.bits, s.bitsLen, t.len⟩

/-! ## Queries -/

/-- `*((unsigned int*)(alignedBits + off))` on a little-endian machine. -/
def load4 (strict : Bool) (bits : Vec (Option Byte)) (off : Nat) : Outcome Word :=
  if strict && off % 4 != 0 then ub .misaligned
  else forN 4 (fun k w => do
    let b ← uget bits (off + k)
    ok (w + b.setWidth 64 <<< (8 * k))) 0#64

/-- The scan of a block that is neither sparse nor all ones, select.hpp lines 408-431 (and 463-486);
`select` is reduced at the end. -/
def scanBlock32 (strict : Bool) (bits : Vec (Option Byte)) (off diff i select : Nat) : Outcome Nat := do
  ok ((← scanBlock strict bits off diff i select) % W32)

/-- `getSelect_std`, select.hpp lines 398-433. -/
def selectStd (strict : Bool) (L TH : Nat) (x : Select) (i : Nat) : Outcome Nat := do
  let start := i / L
  let select ← uget x.sel (2 * start % W32)
  let i := i % L
  if i = 0 then ok (sub32 select 1)
  else do
    let diff := sub32 (← uget x.sel ((2 * start + 2) % W32)) select
    if diff = L then ok (add32 (sub32 select 1) i)
    else do
      let off ← uget x.sel ((2 * start + 1) % W32)
      if diff > TH then do
        let w ← load4 strict x.bits (off + 4 * (i - 1) % W32)
        ok w.toNat
      else scanBlock32 strict x.bits off diff i select

/-! ## Compressed headers -/

/-- `bucket` for the superblock that starts at block `i`, select.hpp lines 380-388; the array is all
zero when the body starts (lines 377 and 391). -/
def selBucket (tmp : Vec (Option Nat)) (i : Nat) : Outcome (Vec Nat) := do
  let b : Vec Nat := ⟨25, fun _ => 0⟩
  let b ← forN 16 (fun j b => do
    let x ← uget tmp (2 * (i + j))
    b.set j x) b
  let o ← uget tmp (2 * i + 1)
  let b ← b.set 16 o
  forN 15 (fun j b => do
    let o ← uget tmp (2 * (i + j + 1) + 1)
    let b0 ← b.get 16
    let x ← b.get (17 + j / 2)
    b.set (17 + j / 2) (add32 x (shl32 (sub32 o b0) (16 * (j % 2))))) b

/-- Body of the loop over superblocks, select.hpp lines 380-393, superblock number `k`;
`selectCounter = 25 * k`. -/
def selSuper (tmp : Vec (Option Nat)) (k : Nat) (v : Vec (Option Nat)) : Outcome (Vec (Option Nat)) := do
  let b ← selBucket tmp (16 * k)
  forN 25 (fun j v => do
    let x ← b.get j
    v.set (25 * k + j) (some x)) v

/-- `selectLenTemp` after rounding up, select.hpp lines 210-212. -/
def selTmpLen (len : Nat) : Nat := if len % (2 * 16) > 0 then add32 len (2 * 16 - len % (2 * 16)) else len

/-- `build_bch`, select.hpp lines 199-396. -/
def buildSelBch (L TH aS aB : Nat) (t : Vec Byte) : Outcome Select := do
  let ones ← countOnes t
  let len := entries L ones
  let s ← sel1 L TH t ones (fresh (selTmpLen len))
  let tmp ← forFrom s.cnt (selTmpLen len - s.cnt) (fun i v => v.set i (some 0)) s.sel
  let s2 ← sel2 L TH t ones (sub32 len 2) len aB { s with sel := tmp }
  let selLen := selTmpLen len / 2 / 16 * 25
  let v ← forN (selTmpLen len / 2 / 16) (selSuper s2.sel) (fresh (items aS selLen))
  ok ⟨v, selLen, s2.bits, s.bitsLen, t.len⟩

/-- The offset of block number `n > 0` of a superblock relative to its start, select.hpp lines 452-459. -/
def slot (sel : Vec (Option Nat)) (p n : Nat) : Outcome Nat := do
  let w ← uget sel (p + (n + 1) / 2)
  ok (if n % 2 = 1 then w &&& 0xFFFF else w >>> 16)

/-- `getSelect_bch`, select.hpp lines 435-488. -/
def selectBch (strict : Bool) (L TH : Nat) (x : Select) (i : Nat) : Outcome Nat := do
  let start := i / L
  let p := 25 * (start / 16) % W32
  let n := start % 16
  let select ← uget x.sel (p + n)
  let i := i % L
  if i = 0 then ok (sub32 select 1)
  else do
    let s2 ← (if n = 15 then uget x.sel (p + 25) else uget x.sel (p + (n + 1)))
    let diff := sub32 s2 select
    if diff = L then ok (add32 (sub32 select 1) i)
    else do
      let off ← uget x.sel (p + 16)
      let off ← (if n > 0 then do ok (add32 off (← slot x.sel (p + 16) n)) else ok off)
      if diff > TH then do
        let w ← load4 strict x.bits (off + 4 * (i - 1) % W32)
        ok w.toNat
      else scanBlock32 strict x.bits off diff i select

/-! ## Sizes -/

/-- `getSize`, select.hpp lines 633-643. -/
def bytes (x : Select) : Nat :=
  4 + 4 + 4 + 8 + 8 + (if x.selLen > 0 then add32 x.selLen 32 * 4 else 0) +
    (if x.bitsLen > 0 then add32 x.bitsLen 128 else 0)

/-- What an object takes: 64 bytes of pointers and lengths, the tables `popcntLUT` and `masks`, which are
members too (select.hpp lines 490-520), and the two arrays that `build` allocates (lines 45 and 103). -/
def taken (x : Select) : Nat := 64 + 256 * 4 + 8 + 4 * add32 x.selLen 32 + add32 x.bitsLen 128

end MRS.Mran.S32
