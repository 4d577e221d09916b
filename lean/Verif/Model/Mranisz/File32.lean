import Verif.Model.Mranisz.File
import Verif.Model.Mranisz.Rank32

/-!
# `save` and `load` of the 32-bit rank classes

Sources: include/mranisz/shared/rank.hpp lines 426-487 and 1358-1409.  The conventions are those of
File.lean; lengths and ranks take four bytes.
-/

set_option autoImplicit false

namespace MRS.Mran
open Outcome

/-- The four bytes of an `unsigned int`. -/
def cell4 : Option Nat → File
  | some v => (List.range 4).map fun k => some (BitVec.ofNat 8 (v >>> (8 * k)))
  | none => List.replicate 4 none

/-- `fwrite(p, sizeof(unsigned int), n, f)`. -/
def fwrite4 (v : Vec (Option Nat)) (n : Nat) (f : File) : Outcome File :=
  forN n (fun i f => do
    let x ← v.get i
    ok (f ++ cell4 x)) f

/-- `fread(&x, sizeof(unsigned int), 1, f)` and the test of its result. -/
def freadHead4 (f : File) : Outcome (Nat × File) :=
  if f.length < 4 then abort
  else match value8 (f.take 4) with
    | some v => ok (v, f.drop 4)
    | none => ub .uninit

/-- `fread(p, sizeof(unsigned int), n, f)` and the test of its result. -/
def fread4 (v : Vec (Option Nat)) (n : Nat) (f : File) : Outcome (Vec (Option Nat) × File) :=
  if f.length < 4 * n then abort
  else forN n (fun i p => do
    let v ← p.1.set i (value8 (p.2.take 4))
    ok (v, p.2.drop 4)) (v, f)

/-- Units of four bytes as numbers. -/
def toNatsH (v : Vec (Option Half)) : Vec (Option Nat) := ⟨v.len, fun i => (v.f i).map (·.toNat)⟩

/-- Numbers as units of four bytes. -/
def toHalves (v : Vec (Option Nat)) : Vec (Option Half) := ⟨v.len, fun i => (v.f i).map (BitVec.ofNat 32)⟩

/-- An array of `unsigned int` with its length in front, rank.hpp lines 429-433 (and 1364-1368). -/
def saveInts (v : Vec (Option Nat)) (n : Nat) (f : File) : Outcome File :=
  let f := f ++ cell4 (some n)
  if n > 0 then fwrite4 v n f else ok f

/-- The same for reading, rank.hpp lines 450-467 (and 1392-1409). -/
def loadInts (a : Nat) (f : File) : Outcome (Vec (Option Nat) × Nat × File) := do
  let (n, f) ← freadHead4 f
  if n > 0 then do
    let (v, f) ← fread4 (fresh (n + room32 a)) n f
    ok (v, n, f)
  else ok (fresh 0, n, f)

/-- An array of `unsigned long long` with its length in front, rank.hpp lines 434-438. -/
def saveLongs (v : Vec (Option Nat)) (n : Nat) (f : File) : Outcome File :=
  let f := f ++ cell4 (some n)
  if n > 0 then fwrite8 v n f else ok f

/-- The same for reading, rank.hpp lines 468-486. -/
def loadLongs (a : Nat) (f : File) : Outcome (Vec (Option Nat) × Nat × File) := do
  let (n, f) ← freadHead4 f
  if n > 0 then do
    let (v, f) ← fread8 (fresh (n + room a)) n f
    ok (v, n, f)
  else ok (fresh 0, n, f)

/-- `RankBasic32::save`, rank.hpp lines 426-439. -/
def Basic.save32 (x : Basic) (f : File) : Outcome File := do
  let f := f ++ cell4 (some x.textLen)
  let f ← saveInts x.ranks x.ranksLen f
  saveLongs (toNats x.bits) x.bitsLen f

/-- `RankBasic32::load`, rank.hpp lines 441-487. -/
def Basic.load32 (aB aR : Nat) (f : File) : Outcome (Basic × File) := do
  let (textLen, f) ← freadHead4 f
  let (ranks, ranksLen, f) ← loadInts aR f
  let (bits, bitsLen, f) ← loadLongs aB f
  ok (⟨ranks, ranksLen, toWords bits, bitsLen, textLen⟩, f)

/-- `RankCF32::save`, rank.hpp lines 1358-1369. -/
def CF32.save (x : CF32) (f : File) : Outcome File :=
  let f := f ++ cell4 (some x.textLen)
  let f := f ++ cell4 (some x.border)
  let f := f ++ cell4 (some x.blockBorder)
  saveInts (toNatsH x.bits) x.bitsLen f

/-- `RankCF32::load`, rank.hpp lines 1371-1410. -/
def CF32.load (aB : Nat) (f : File) : Outcome (CF32 × File) := do
  let (textLen, f) ← freadHead4 f
  let (border, f) ← freadHead4 f
  let (blockBorder, f) ← freadHead4 f
  let (bits, bitsLen, f) ← loadInts aB f
  ok (⟨toHalves bits, bitsLen, textLen, border, blockBorder⟩, f)

end MRS.Mran
