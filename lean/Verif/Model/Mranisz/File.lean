import Verif.Model.Mranisz.Select

/-!
# `save` and `load` of the compressed classes

Sources: include/mranisz/shared/rank.hpp lines 953-1015 and 1711-1765, include/mranisz/shared/select.hpp
lines 1271-1332.

* A file is the list of its bytes; a byte that came from memory without a value is `none`.
* Writing never fails; the host is little-endian.
* `exit(1)` after a short `fread` is `abort`.  The number of items that `fread` returns is smaller than
  asked for just when the file is too short.
* `load` frees the old object first, so it does not appear.  The pointers of an array of length 0 stay
  `NULL`: no cell can be read.  Allocation succeeds.
-/

set_option autoImplicit false

namespace MRS.Mran
open Outcome

/-- A file, or what is left of it. -/
abbrev File := List (Option Byte)

/-- The eight bytes of an `unsigned long long`. -/
def cell8 : Option Nat → File
  | some v => (List.range 8).map fun k => some (BitVec.ofNat 8 (v >>> (8 * k)))
  | none => List.replicate 8 none

/-- The value of an object with these bytes. -/
def value8 : File → Option Nat
  | [] => some 0
  | none :: _ => none
  | some b :: bs => (value8 bs).map fun v => b.toNat + 256 * v

/-- `fwrite(p, sizeof(unsigned long long), n, f)`. -/
def fwrite8 (v : Vec (Option Nat)) (n : Nat) (f : File) : Outcome File :=
  forN n (fun i f => do
    let x ← v.get i
    ok (f ++ cell8 x)) f

/-- `fwrite(p, sizeof(unsigned char), n, f)`. -/
def fwrite1 (v : Vec (Option Byte)) (n : Nat) (f : File) : Outcome File :=
  forN n (fun i f => do
    let x ← v.get i
    ok (f ++ [x])) f

/-- `fread(&x, sizeof(unsigned long long), 1, f)` and the test of its result. -/
def freadHead (f : File) : Outcome (Nat × File) :=
  if f.length < 8 then abort
  else match value8 (f.take 8) with
    | some v => ok (v, f.drop 8)
    | none => ub .uninit

/-- `fread(p, sizeof(unsigned long long), n, f)` and the test of its result. -/
def fread8 (v : Vec (Option Nat)) (n : Nat) (f : File) : Outcome (Vec (Option Nat) × File) :=
  if f.length < 8 * n then abort
  else forN n (fun i p => do
    let v ← p.1.set i (value8 (p.2.take 8))
    ok (v, p.2.drop 8)) (v, f)

/-- `fread(p, sizeof(unsigned char), n, f)` and the test of its result. -/
def fread1 (v : Vec (Option Byte)) (n : Nat) (f : File) : Outcome (Vec (Option Byte) × File) :=
  if f.length < n then abort
  else forN n (fun i p => do
    let v ← p.1.set i (p.2.headD none)
    ok (v, p.2.drop 1)) (v, f)

/-- The words of an array as numbers. -/
def toNats (v : Vec (Option Word)) : Vec (Option Nat) := ⟨v.len, fun i => (v.f i).map (·.toNat)⟩

/-- Numbers as the words of an array. -/
def toWords (v : Vec (Option Nat)) : Vec (Option Word) := ⟨v.len, fun i => (v.f i).map (BitVec.ofNat 64)⟩

/-- An array of words with its length in front, rank.hpp lines 956-961 (and 962-966, 1719-1723,
select.hpp 1274-1279). -/
def saveWords (v : Vec (Option Nat)) (n : Nat) (f : File) : Outcome File :=
  let f := f ++ cell8 (some n)
  if n > 0 then fwrite8 v n f else ok f

/-- The same for reading, rank.hpp lines 977-996 (and 997-1015, 1746-1764, select.hpp 1295-1314):
memory from `new[]` at address `a`, nothing when the length is 0. -/
def loadWords (a : Nat) (f : File) : Outcome (Vec (Option Nat) × Nat × File) := do
  let (n, f) ← freadHead f
  if n > 0 then do
    let (v, f) ← fread8 (fresh (n + room a)) n f
    ok (v, n, f)
  else ok (fresh 0, n, f)

/-- `RankBasic64::save`, rank.hpp lines 953-966. -/
def Basic.save (x : Basic) (f : File) : Outcome File := do
  let f := f ++ cell8 (some x.textLen)
  let f ← saveWords x.ranks x.ranksLen f
  saveWords (toNats x.bits) x.bitsLen f

/-- `RankBasic64::load`, rank.hpp lines 968-1015. -/
def Basic.load (aB aR : Nat) (f : File) : Outcome (Basic × File) := do
  let (textLen, f) ← freadHead f
  let (ranks, ranksLen, f) ← loadWords aR f
  let (bits, bitsLen, f) ← loadWords aB f
  ok (⟨ranks, ranksLen, toWords bits, bitsLen, textLen⟩, f)

/-- `RankCF64::save`, rank.hpp lines 1711-1723. -/
def CF.save (x : CF) (f : File) : Outcome File :=
  let f := f ++ cell8 (some x.textLen)
  let f := f ++ cell8 (some x.border)
  let f := f ++ cell8 (some x.blockBorder)
  saveWords (toNats x.bits) x.bitsLen f

/-- `RankCF64::load`, rank.hpp lines 1725-1765. -/
def CF.load (aB : Nat) (f : File) : Outcome (CF × File) := do
  let (textLen, f) ← freadHead f
  let (border, f) ← freadHead f
  let (blockBorder, f) ← freadHead f
  let (bits, bitsLen, f) ← loadWords aB f
  ok (⟨toWords bits, bitsLen, textLen, border, blockBorder⟩, f)

/-- `SelectBasic64::save`, select.hpp lines 1271-1284. -/
def Select.save (x : Select) (f : File) : Outcome File := do
  let f := f ++ cell8 (some x.textLen)
  let f ← saveWords x.sel x.selLen f
  let f := f ++ cell8 (some x.bitsLen)
  if x.bitsLen > 0 then fwrite1 x.bits x.bitsLen f else ok f

/-- `SelectBasic64::load`, select.hpp lines 1286-1332. -/
def Select.load (aS aB : Nat) (f : File) : Outcome (Select × File) := do
  let (textLen, f) ← freadHead f
  let (sel, selLen, f) ← loadWords aS f
  let (bitsLen, f) ← freadHead f
  if bitsLen > 0 then do
    let (bits, f) ← fread1 (fresh (bitsLen + roomBytes aB)) bitsLen f
    ok (⟨sel, selLen, bits, bitsLen, textLen⟩, f)
  else ok (⟨sel, selLen, fresh 0, bitsLen, textLen⟩, f)

end MRS.Mran
