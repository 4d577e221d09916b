import Verif.Model.Mranisz.Mpe

/-!
# Compressed select of include/mranisz/shared/select.hpp: `SelectMPE64`

`SelectMPE64<SELECT_MPE1, L, THRESHOLD>` (`build_v1`, `getSelect_v1`), `SelectMPE64<SELECT_MPE2, ..>` and
`SelectMPE64<SELECT_MPE3, ..>` (`build_v2`, `getSelect_v2`, which differ in the thresholds only).  Blocks as in
`SelectBasic64`; in a block whose bits are stored and that has many pairs of bytes 00 or FF these pairs are
left out and marked in one or two tables of bits in front of it.

* Where the two versions have the same text they share a definition, which cites both.  The first loop over
  the text has the text of `SelectBasic64` and is `sel1`; `blockCounter` (lines 2931, 2965) is
  `selectCounter / 2 - 1`.
* `blockToCompress` as in `Model/Mranisz/Mpe`: bytes, 0 for `false`, 3 for `true`; `memory g n`, `flagAt`.
* `bitsContainer` holds values of one byte (`bitsToWrite` never exceeds 255).
* The second and the third loop over the text share `walkS`; they differ in what they do at the ends of
  blocks and with the ones of a sparse block.
* Loops `k += 2` over bytes run over pairs.  Counters are `Nat` without reduction, as in
  `Model/Mranisz/Select`; differences of positions and `bitsLen` are reduced modulo `2^64`.
* The text of `getSelect` would go on after the `for` that looks for a bit in a byte with at least `i` ones;
  for `1 ≤ i` that `for` always returns, so `bitLoop` is the last step here.
* `bitsContainer` is one array for both loops, here one for each: nothing is read that the same loop did not
  write.
* `buffer`: at least eight bytes remain behind `alignedBuffer`; the model has eight.
-/

set_option autoImplicit false

namespace MRS.Mran
open Outcome

/-- What memory holds where nothing was written: `blockToCompress`, `bits`. -/
structure JunkS where
  flags : Option (Nat → Byte)
  bits : Option (Nat → Byte)

/-! ## The second and the third loop -/

/-- `bitsContainer`, `bytesCounter`, `bitsToWrite`, `bitsToWritePos`. -/
structure Con where
  cont : Vec (Option Byte)
  bytes : Nat
  btw : Byte
  bpos : Nat

/-- `bitsContainer[bytesCounter++] = x`. -/
def Con.push (c : Con) (x : Byte) : Outcome Con := do
  let v ← c.cont.set c.bytes (some x)
  ok { c with cont := v, bytes := c.bytes + 1 }

/-- A bit of a block that is neither sparse nor all ones, select.hpp lines 3045-3054, 3216-3225 (and
3463-3472, 3683-3692). -/
def Con.bit (c : Con) (b : Bool) : Outcome Con := do
  let c := if b then { c with btw := c.btw + 1#8 <<< c.bpos } else c
  if c.bpos = 0 then do
    let c ← c.push c.btw
    ok { c with btw := 0#8, bpos := 7 }
  else ok { c with bpos := c.bpos - 1 }

/-- Variables of both loops: `bitsContainer` and what belongs to it, `selectCounter`, `upToBitPos`,
`blockLenInBits`, `sparseBlock`, `monoBlock`. -/
structure Walk where
  con : Con
  cnt : Nat
  upTo : Nat
  len : Nat
  sparse : Bool
  mono : Bool

/-- `if (!monoBlock && !sparseBlock && bitsToWritePos != 7) bitsContainer[bytesCounter++] = bitsToWrite`,
select.hpp lines 3006-3008, 3133-3135 (and 3381-3383, 3552-3554). -/
def Walk.flush (w : Walk) : Outcome Walk := do
  if !w.mono && !w.sparse && w.con.bpos != 7 then do
    let c ← w.con.push w.con.btw
    ok { w with con := c }
  else ok w

/-- The next block, select.hpp lines 3029-3040, 3181-3193 (and 3447-3458, 3648-3660); the third loop reads
`blockToCompress` in between, here that is part of `next`. -/
def Walk.advance (L TH : Nat) (sel : Vec (Option Nat)) (w : Walk) : Outcome Walk := do
  let up ← uget sel (w.cnt + 2)
  let a ← uget sel w.cnt
  let len := sub64 up a
  ok { w with upTo := up, len := len, sparse := decide (len > TH), mono := decide (¬ len > TH ∧ len = L),
              con := { w.con with btw := 0#8, bpos := 7, bytes := 0 } }

/-- What a loop does at the end of the last block, at the end of another block, and with a one of a sparse
block; and where it has `selectsTemp`. -/
structure Acts (σ : Type) where
  last : Bool → Nat → Walk → σ → Outcome σ
  next : Walk → σ → Outcome σ
  pos : Nat → σ → Outcome σ
  sel : σ → Vec (Option Nat)

/-- The loops over the text from position `p` with `n` positions left, select.hpp lines 2989-3057 and 3085-3228
(and 3364-3475, 3504-3695); `stop` is `selectLenTempNotExtended - 2`. -/
def walkS {σ : Type} (A : Acts σ) (L TH : Nat) (t : Vec Byte) (stop : Nat) : Nat → Nat → Walk → σ → Outcome (Walk × σ)
  | 0, _, w, s => ok (w, s)
  | n + 1, p, w, s => do
    let bit ← bitAt t p
    if p = w.upTo then
      let w := { w with cnt := w.cnt + 2 }
      if w.cnt = stop then do
        let s ← A.last bit p w s
        ok (w, s)
      else do
        let w ← w.flush
        let s ← A.next w s
        let w ← w.advance L TH (A.sel s)
        walkS A L TH t stop n (p + 1) w s
    else if w.mono then walkS A L TH t stop n (p + 1) w s
    else if w.sparse then do
      let s ← (if bit then A.pos p s else ok s)
      walkS A L TH t stop n (p + 1) w s
    else do
      let c ← w.con.bit bit
      walkS A L TH t stop n (p + 1) { w with con := c } s

/-- Where the loops start, select.hpp lines 2974-2988, 3068-3083 (and 3347-3363, 3487-3502). -/
def walkStart (L TH : Nat) (sel : Vec (Option Nat)) : Outcome Walk := do
  let up ← uget sel 2
  let a ← uget sel 0
  let len := add64 (sub64 up a) 1
  ok ⟨⟨fresh (TH / 8 + 1), 0, 0#8, 7⟩, 0, up, len, decide (len > TH), decide (¬ len > TH ∧ len = L)⟩

/-! ## The second loop: which blocks to compress -/

/-- Variables of the second loop: `blockToCompress`, `blockCounter`, `addedBitTablesInBytes`,
`pairsToRemove`. -/
structure PlanS where
  flags : Vec (Option Byte)
  bk : Nat
  added : Nat
  pairs : Nat

/-- The pairs 00 and the pairs FF of a block, select.hpp lines 3386-3396; `pairsToRemoveInBlock` of version 1
(lines 3011-3019) counts both.  A last byte without a partner is left out. -/
def countPairsS (c : Con) : Outcome (Nat × Nat × Nat) :=
  forN (c.bytes / 2) (fun p n => do
    let a ← uget c.cont (2 * p)
    let b ← uget c.cont (2 * p + 1)
    let z := a = 0#8 ∧ b = 0#8
    let f := a = 255#8 ∧ b = 255#8
    ok (n.1 + (if z then 1 else 0), n.2.1 + (if f then 1 else 0), n.2.2 + (if z ∨ f then 1 else 0))) (0, 0, 0)

/-- `bitTableLen`, select.hpp lines 3021, 3139 (and 3397, 3558, 3594, 3618, 3862, 4081, 4149, 4217). -/
def tableLen (len : Nat) : Nat := sub64 len 1 / 128 + 1

/-- How a block is stored, from its pairs 00, pairs FF, both, and `bitTableLen`: select.hpp lines 3020-3026 for
version 1, 3400-3420 and 3423-3442 for version 2. -/
def kindS : MpeType → Nat → Nat → Nat → Nat → Nat
  | .mpe1, _, _, n, b => if n > b then 3 else 0
  | .mpe2, z, f, _, b =>
    if 2 * z > b ∧ 2 * f > b then 3 else if 2 * z > b ∧ 2 * f ≤ b then 1 else if 2 * z ≤ b ∧ 2 * f > b then 2 else 0
  | .mpe3, z, f, _, _ =>
    if z > 9 ∧ f > 9 then 3 else if z ≥ 9 * 2 ∧ f ≤ 9 then 1 else if z ≤ 9 ∧ f ≥ 9 * 2 then 2 else 0

/-- The end of the last block, select.hpp lines 2994-3002 (and 3369-3377). -/
def planLast (L ones : Nat) (bit : Bool) (_p : Nat) (w : Walk) (s : PlanS) : Outcome PlanS := do
  if ones % L > 0 then do
    let fl ← s.flags.set s.bk (some 0#8)
    if !w.sparse && !w.mono then do
      let _ ← w.con.push (if bit then w.con.btw + 1#8 <<< w.con.bpos else w.con.btw)
      ok { s with flags := fl, bk := s.bk + 1 }
    else ok { s with flags := fl, bk := s.bk + 1 }
  else ok s

/-- The end of another block, select.hpp lines 3009-3028 (and 3384-3446). -/
def planNext (ty : MpeType) (w : Walk) (s : PlanS) : Outcome PlanS := do
  let fl ← s.flags.set s.bk (some 0#8)
  if !w.sparse && !w.mono then do
    let (z, f, n) ← countPairsS w.con
    let b := tableLen w.len
    match kindS ty z f n b with
    | 3 => do
      let fl ← fl.set s.bk (some 3#8)
      ok { s with flags := fl, bk := s.bk + 1, added := s.added + 2 * b,
                  pairs := s.pairs + if ty = .mpe1 then n else z + f }
    | 1 => do
      let fl ← fl.set s.bk (some 1#8)
      ok { s with flags := fl, bk := s.bk + 1, added := s.added + b, pairs := s.pairs + z }
    | 2 => do
      let fl ← fl.set s.bk (some 2#8)
      ok { s with flags := fl, bk := s.bk + 1, added := s.added + b, pairs := s.pairs + f }
    | _ => ok { s with flags := fl, bk := s.bk + 1 }
  else ok { s with flags := fl, bk := s.bk + 1 }

/-- The second loop with its actions; it writes no positions. -/
def planActs (ty : MpeType) (L ones : Nat) (sel : Vec (Option Nat)) : Acts PlanS :=
  ⟨planLast L ones, planNext ty, fun _ s => ok s, fun _ => sel⟩

/-- `blockToCompress` and the second loop, select.hpp lines 2971-3057 (and 3344-3475); `nb` is
`blockCounter`. -/
def planS (ty : MpeType) (L TH : Nat) (g : Option (Nat → Byte)) (t : Vec Byte) (ones stop nb : Nat)
    (sel : Vec (Option Nat)) : Outcome PlanS := do
  let w ← walkStart L TH sel
  let (_, s) ← walkS (planActs ty L ones sel) L TH t stop (8 * t.len) 0 w ⟨memory g nb, 0, 0, 0⟩
  ok s

/-! ## The third loop: writing the blocks -/

/-- Variables of the third loop: `selectsTemp`, `alignedBits`, `bitsCounter`, `blockCounter`,
`compressedBlock`. -/
structure EncS where
  sel : Vec (Option Nat)
  out : Vec (Option Byte)
  bc : Nat
  bk : Nat
  kind : Nat

/-- `alignedBits[bitsCounter++] = x`. -/
def EncS.put (s : EncS) (x : Byte) : Outcome EncS := do
  let o ← s.out.set s.bc (some x)
  ok { s with out := o, bc := s.bc + 1 }

/-- The eight stores of a position, select.hpp lines 3093-3109, 3199-3213 (and 3512-3528, 3666-3680). -/
def EncS.putPos (s : EncS) (p : Nat) : Outcome EncS :=
  forN 8 (fun k s => s.put (BitVec.ofNat 8 (p >>> (8 * k)))) s

/-- `for (k = 0; k < bytesCounter; ++k) alignedBits[bitsCounter++] = bitsContainer[k]`, select.hpp lines
3116-3120, 3125-3128, 3174-3177 (and 3535-3539, 3544-3547, 3641-3644). -/
def EncS.copy (s : EncS) (c : Con) : Outcome EncS :=
  forN c.bytes (fun k s => do
    let a ← uget c.cont k
    s.put a) s

/-- The end of the last block, select.hpp lines 3090-3129 (and 3509-3548). -/
def encLast (L ones : Nat) (bit : Bool) (p : Nat) (w : Walk) (s : EncS) : Outcome EncS := do
  if ones % L > 0 then do
    let s ← (if w.sparse && bit then s.putPos p else ok s)
    if !w.sparse && !w.mono then do
      let c ← w.con.push (if bit then w.con.btw + 1#8 <<< w.con.bpos else w.con.btw)
      s.copy c
    else ok s
  else if !w.mono && !w.sparse then do
    let w ← w.flush
    s.copy w.con
  else ok s

/-- `bits1`, `bits2` (`bits`) with zeros, select.hpp lines 3066-3067, 3140-3143 (and 3484-3486, 3559-3562,
3595-3596, 3619-3620). -/
def tableZero (TH b : Nat) : Outcome (Vec (Option Byte)) :=
  forN b (fun k v => v.set k (some 0#8)) (fresh (TH / 8 / 2 / 8 + 1))

/-- `bits1[k / 16] += (1 << (7 - ((k % 16) / 2)))` for `k = 2 * p`, select.hpp lines 3153-3154, 3160-3161 (and
3572-3573, 3579-3580, 3606, 3630). -/
def tableMark (v : Vec (Option Byte)) (p : Nat) : Outcome (Vec (Option Byte)) := do
  let x ← uget v (p / 8)
  v.set (p / 8) (some (x + 1#8 <<< (7 - p % 8)))

/-- Body of the loop over pairs, with `bits1` (`bits`) and `bits2`: select.hpp lines 3151-3167 (and 3570-3586,
3604-3612, 3628-3636). -/
def encPairS (kind : Nat) (c : Con) (p : Nat) (s : EncS × Vec (Option Byte) × Vec (Option Byte)) :
    Outcome (EncS × Vec (Option Byte) × Vec (Option Byte)) := do
  let a ← uget c.cont (2 * p)
  let b ← uget c.cont (2 * p + 1)
  let b2 ← (if kind = 3 ∧ a = 255#8 ∧ b = 255#8 then tableMark s.2.2 p else ok s.2.2)
  if dropped kind a b then do
    let b1 ← tableMark s.2.1 p
    ok (s.1, b1, b2)
  else do
    let e ← s.1.put a
    let e ← e.put b
    ok (e, s.2.1, b2)

/-- `for (k = 0; k < bitTableLen; ++k) alignedBits[bitTableOffset++] = bits1[k]`, select.hpp lines 3169-3172
(and 3588-3591, 3614-3615, 3638-3639). -/
def tableStore (out : Vec (Option Byte)) (o b : Nat) (v : Vec (Option Byte)) : Outcome (Vec (Option Byte)) :=
  forN b (fun k out => do
    let x ← uget v k
    out.set (o + k) (some x)) out

/-- A block with pairs left out, select.hpp lines 3138-3172 (and 3557-3591, 3593-3615, 3617-3639). -/
def encComp (TH kind : Nat) (w : Walk) (s : EncS) : Outcome EncS := do
  let o := s.bc
  let b := tableLen w.len
  let b1 ← tableZero TH b
  let b2 ← tableZero TH b
  let n := w.con.bytes
  let (s, b1, b2) ← forN (n / 2) (encPairS kind w.con) ({ s with bc := s.bc + if kind = 3 then 2 * b else b }, b1, b2)
  let s ← (if n % 2 = 1 then do
      let a ← uget w.con.cont (n - 1)
      s.put a
    else ok s)
  let out ← tableStore s.out o b b1
  let out ← (if kind = 3 then tableStore out (o + b) b b2 else ok out)
  ok { s with out := out }

/-- The end of another block, select.hpp lines 3136-3180, 3190 (and 3555-3647, 3657). -/
def encNext (flags : Vec (Option Byte)) (TH : Nat) (w : Walk) (s : EncS) : Outcome EncS := do
  let s ← (if !w.sparse && !w.mono then
      if s.kind = 3 ∨ s.kind = 1 ∨ s.kind = 2 then encComp TH s.kind w s else s.copy w.con
    else ok s)
  let v ← s.sel.set (w.cnt + 1) (some s.bc)
  let k ← uget flags s.bk
  ok { s with sel := v, kind := k.toNat, bk := s.bk + 1 }

/-- The third loop with its actions. -/
def encActs (flags : Vec (Option Byte)) (L TH ones : Nat) : Acts EncS :=
  ⟨encLast L ones, encNext flags TH, fun p s => s.putPos p, fun s => s.sel⟩

/-- The third loop and what follows it: offsets of the padding, `++` on the entries.  Select.hpp lines 3068-3234
(and 3487-3701); `len` is `selectLenTempNotExtended`, `tl` is `selectLenTemp`. -/
def encodeS (L TH : Nat) (t : Vec Byte) (ones len tl : Nat) (flags out : Vec (Option Byte)) (sel : Vec (Option Nat)) :
    Outcome EncS := do
  let w ← walkStart L TH sel
  let k ← uget flags 0
  let (w, s) ← walkS (encActs flags L TH ones) L TH t (sub64 len 2) (8 * t.len) 0 w ⟨sel, out, 0, 1, k.toNat⟩
  let v ← forN ((tl - w.cnt) / 2) (fun k v => do
    let o ← uget v (sub64 w.cnt 1)
    v.set (w.cnt + 1 + 2 * k) (some o)) s.sel
  let v ← forN (len / 2 - 1) (fun k v => do
    let x ← uget v (2 + 2 * k)
    v.set (2 + 2 * k) (some (add64 x 1))) v
  ok { s with sel := v }

/-! ## Superblocks -/

/-- `bucket` for the superblock that starts at block `i`, select.hpp lines 3252-3263 (and 3719-3731); the
array is all zero when the body starts. -/
def bucketS (ty : MpeType) (g : Option (Nat → Byte)) (tmp : Vec (Option Nat)) (fl : Vec (Option Byte)) (i : Nat) :
    Outcome (Vec Nat) := do
  let b : Vec Nat := ⟨21, fun _ => 0⟩
  let b ← forN 16 (fun j b => do
    let x ← uget tmp (2 * (i + j))
    b.set j x) b
  let o ← uget tmp (2 * i + 1)
  let b ← b.set 16 o
  let b ← forN 15 (fun j b => do
    let o ← uget tmp (2 * (i + j + 1) + 1)
    let b0 ← b.get 16
    let fl ← flagAt g fl (i + j + 1)
    let x ← b.get (17 + j / 4)
    b.set (17 + j / 4) (add64 x (shl64 (add64 (sub64 o b0) (markOf ty fl)) (16 * (j % 4))))) b
  let fl ← flagAt g fl i
  let x ← b.get 17
  b.set 17 (add64 x (markFirst ty fl))

/-- Body of the loop over superblocks, select.hpp lines 3251-3268 (and 3718-3736), superblock number `k`;
`selectCounter = 21 * k`. -/
def superS (ty : MpeType) (g : Option (Nat → Byte)) (tmp : Vec (Option Nat)) (fl : Vec (Option Byte)) (k : Nat)
    (v : Vec (Option Nat)) : Outcome (Vec (Option Nat)) := do
  let b ← bucketS ty g tmp fl (16 * k)
  forN 21 (fun j v => do
    let x ← b.get j
    v.set (21 * k + j) (some x)) v

/-- `build_v1`, `build_v2`: select.hpp lines 2901-3272 (and 3274-3740); `aS`, `aB` are the addresses of `selects`
and `bits`. -/
def buildSelMpe (ty : MpeType) (L TH aS aB : Nat) (g : JunkS) (t : Vec Byte) : Outcome Select := do
  let ones ← countOnes t
  let len := entries L ones
  let tl := selTmpLen len
  let s ← sel1 L TH t ones (fresh tl)
  let tmp ← forFrom s.cnt (tl - s.cnt) (fun i v => v.set i (some 0)) s.sel
  let pl ← planS ty L TH g.flags t ones (sub64 len 2) (s.cnt / 2 - 1) tmp
  let bitsLen := sub64 (s.bitsLen + pl.added) (2 * pl.pairs)
  let e ← encodeS L TH t ones len tl pl.flags (memory g.bits (bitsLen + roomBytes aB)) tmp
  let selLen := tl / 2 / 16 * 21
  let v ← forN (tl / 2 / 16) (superS ty g.flags e.sel pl.flags) (fresh (selLen + room aS))
  ok ⟨v, selLen, e.out, bitsLen, t.len⟩

/-! ## Queries -/

/-- The offset of a sparse block, select.hpp lines 3757-3806 (and 3974-4023); `p` is the start of the superblock,
`n` is `selectFromStart`. -/
def offSparse (ty : MpeType) (sel : Vec (Option Nat)) (p n : Nat) : Outcome Nat := do
  let off ← uget sel (p + 16)
  if n = 0 then ok off
  else if n ≤ 4 then do
    let w ← uget sel (p + 17)
    ok (off + ((w >>> (16 * (n - 1))) &&& if ty = .mpe1 then 0x3FFF else 0x0FFF))
  else do
    let d ← slot1 sel (p + 16) n
    ok (off + d)

/-- The offset of another block and `compressedBlock`: select.hpp lines 3757, 3812-3858 (version 1, where `true`
is 3) and 3974, 4029-4075 (version 2).  Where the text leaves out a mask after `>> 63` and `>> 62` it would
change nothing in 64 bits. -/
def offDense (ty : MpeType) (sel : Vec (Option Nat)) (p n : Nat) : Outcome (Nat × Nat) := do
  let off ← uget sel (p + 16)
  if n = 0 then do
    let w ← uget sel (p + 17)
    ok (off, if ty = .mpe1 then 3 * ((w >>> 62) &&& 1) else (w >>> 60) &&& 3)
  else do
    let w ← uget sel (p + 16 + (n + 3) / 4)
    let d := w >>> (16 * ((n + 3) % 4))
    if ty = .mpe1 then
      ok (off + (d &&& if n ≤ 4 then 0x3FFF else 0x7FFF), 3 * ((d >>> 15) &&& 1))
    else
      ok (off + (d &&& if n ≤ 4 then 0x0FFF else 0x3FFF), (d >>> 14) &&& 3)

/-- The last steps: the byte, then the bit.  Select.hpp lines 3897-3912, 3920-3933 (and 4110-4125, 4133-4146,
4178-4193, 4201-4214, 4252-4267, 4275-4288). -/
def tailS (buf : Vec (Option Byte)) (i select : Nat) : Outcome Nat := do
  let (i, select, q) ← byteLoop buf (buf.len + 1) i select 0
  let b ← uget buf q
  ok (bitLoop b select 8 0 i)

/-- Variables of the loop that restores the bytes: `alignedBuffer`, `byteCounter`, `i`, `select`, `pointerData`,
`bitsToTake`. -/
structure Take where
  buf : Vec (Option Byte)
  bc : Nat
  i : Nat
  select : Nat
  data : Nat
  rest : Nat

/-- `alignedBuffer[byteCounter++] = x`. -/
def Take.put (s : Take) (x : Byte) : Outcome Take := do
  let b ← s.buf.set s.bc (some x)
  ok { s with buf := b, bc := s.bc + 1 }

/-- The loop over `m` and `k`, select.hpp lines 3867-3919 (and 4085-4132, 4153-4200, 4222-4274), from pair
`p = 8 * m + k` with `n` pairs left; `o`, `o2` are where the tables start. -/
def takeLoop (bits : Vec (Option Byte)) (kind o o2 : Nat) : Nat → Nat → Take → Outcome Nat
  | 0, _, s => tailS s.buf s.i s.select
  | n + 1, p, s => do
    let x ← uget bits (o + p / 8)
    let r ← (if x &&& byteMasks.getD (p % 8) 0#8 ≠ 0#8 then do
        let v ← (if kind = 3 then do
            let y ← uget bits (o2 + p / 8)
            ok (if y &&& byteMasks.getD (p % 8) 0#8 ≠ 0#8 then 255#8 else 0#8)
          else ok (if kind = 1 then 0#8 else 255#8))
        let s ← s.put v
        let s ← s.put v
        ok (s, false)
      else do
        let a ← uget bits s.data
        let s ← s.put a
        if s.rest ≤ 8 then ok (s, true)
        else do
          let b ← uget bits (s.data + 1)
          let s ← s.put b
          ok ({ s with data := s.data + 2 }, false))
    let s := r.1
    if r.2 then tailS s.buf s.i s.select
    else if s.rest ≤ 16 then tailS s.buf s.i s.select
    else
      let s := { s with rest := s.rest - 16 }
      if s.bc % 8 = 0 then do
        let c := popcnt (← load8 true s.buf 0)
        if c ≥ s.i then tailS s.buf s.i s.select
        else takeLoop bits kind o o2 n (p + 1) { s with i := s.i - c, select := s.select + 64, bc := 0 }
      else takeLoop bits kind o o2 n (p + 1) s

/-- A block with pairs left out, select.hpp lines 3861-3934 (and 4080-4146, 4148-4214, 4216-4288). -/
def takeBlock (bits : Vec (Option Byte)) (kind off diff i select : Nat) : Outcome Nat :=
  let b := tableLen diff
  takeLoop bits kind off (off + b) (8 * b) 0 ⟨fresh 8, 0, i, select, off + (if kind = 3 then 2 * b else b), diff⟩

/-- `getSelect_v1`, `getSelect_v2`: select.hpp lines 3742-3957 (and 3959-4314). -/
def selectMpe (ty : MpeType) (strict : Bool) (L TH : Nat) (x : Select) (i : Nat) : Outcome Nat := do
  let start := i / L
  let p := 21 * (start / 16)
  let n := start % 16
  let select ← uget x.sel (p + n)
  let i := i % L
  if i = 0 then ok (sub64 select 1)
  else do
    let s2 ← (if n = 15 then uget x.sel (p + 21) else uget x.sel (p + (n + 1)))
    let diff := sub64 s2 select
    if diff = L then ok (add64 (sub64 select 1) i)
    else if diff > TH then do
      let off ← offSparse ty x.sel p n
      let w ← load8 strict x.bits (off + 8 * (i - 1))
      ok w.toNat
    else do
      let (off, kind) ← offDense ty x.sel p n
      if kind ≠ 0 then takeBlock x.bits kind off diff i select
      else scanBlock strict x.bits off diff i select

/-! ## Sizes -/

/-- `getSize`, select.hpp lines 4477-4489. -/
def Select.bytesMpe (x : Select) : Nat :=
  8 + 8 + 8 + 8 + 8 + 8 + 8 + (8 + 128) + (if x.selLen > 0 then (x.selLen + 16) * 8 else 0) +
    (if x.bitsLen > 0 then x.bitsLen + 128 else 0)

/-- What an object takes: thirteen members of 8 bytes and the tables `popcntLUT` and `masks`, which are members
too (select.hpp lines 4317-4354), `buffer` (line 2895), and the two arrays that `build` allocates (lines 3062,
3241). -/
def Select.takenMpe (x : Select) : Nat :=
  104 + 256 * 8 + 8 + (8 + 128) + 8 * (x.selLen + 16) + (x.bitsLen + 128)

end MRS.Mran
