import Verif.Model.Mranisz.File32
import Verif.Model.Mranisz.Select32

/-!
# `save` and `load` of the 32-bit select classes

Source: include/mranisz/shared/select.hpp lines 566-625.  The conventions are those of File.lean; lengths
and entries take four bytes.
-/

set_option autoImplicit false

namespace MRS.Mran.S32
open Outcome

/-- `SelectBasic32::save`, select.hpp lines 566-579. -/
def save (x : Select) (f : File) : Outcome File := do
  let f := f ++ cell4 (some x.textLen)
  let f ← saveInts x.sel x.selLen f
  let f := f ++ cell4 (some x.bitsLen)
  if x.bitsLen > 0 then fwrite1 x.bits x.bitsLen f else ok f

/-- `SelectBasic32::load`, select.hpp lines 581-625; `aS`, `aB` are the addresses of the new arrays, whose
sizes are computed in `unsigned int`. -/
def load (aS aB : Nat) (f : File) : Outcome (Select × File) := do
  let (textLen, f) ← freadHead4 f
  let (selLen, f) ← freadHead4 f
  let (sel, f) ← (if selLen > 0 then fread4 (fresh (items aS selLen)) selLen f else ok (fresh 0, f))
  let (bitsLen, f) ← freadHead4 f
  let (bits, f) ← (if bitsLen > 0 then fread1 (fresh (bytesAt aB bitsLen)) bitsLen f else ok (fresh 0, f))
  ok (⟨sel, selLen, bits, bitsLen, textLen⟩, f)

end MRS.Mran.S32
