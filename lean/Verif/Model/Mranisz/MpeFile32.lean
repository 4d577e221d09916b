import Verif.Model.Mranisz.FileSel32
import Verif.Model.Mranisz.Mpe32

/-! # `save` and `load` of `RankMPE32`, as in `Model/Mranisz/FileSel32` -/

set_option autoImplicit false

namespace MRS.Mran
open Outcome

/-- `RankMPE32::save`, rank.hpp lines 3267-3280. -/
def Mpe.save32 (x : Mpe) (f : File) : Outcome File := do
  let f := f ++ cell4 (some x.textLen)
  let f ← saveInts x.ranks x.ranksLen f
  let f := f ++ cell4 (some x.bitsLen)
  if x.bitsLen > 0 then fwrite1 x.bits x.bitsLen f else ok f

/-- `RankMPE32::load`, rank.hpp lines 3282-3327; memory is `fresh`. -/
def Mpe.load32 (aB aR : Nat) (f : File) : Outcome (Mpe × File) := do
  let (textLen, f) ← freadHead4 f
  let (ranksLen, f) ← freadHead4 f
  let (ranks, f) ← (if ranksLen > 0 then fread4 (fresh (S32.items aR ranksLen)) ranksLen f else ok (fresh 0, f))
  let (bitsLen, f) ← freadHead4 f
  let (bits, f) ← (if bitsLen > 0 then fread1 (fresh (bytesM32 aB bitsLen)) bitsLen f else ok (fresh 0, f))
  ok (⟨ranks, ranksLen, bits, bitsLen, textLen⟩, f)

end MRS.Mran
