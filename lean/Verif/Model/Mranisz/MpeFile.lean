import Verif.Model.Mranisz.File
import Verif.Model.Mranisz.Mpe

/-! # `save` and `load` of `RankMPE64`, as in `Model/Mranisz/File` -/

set_option autoImplicit false

namespace MRS.Mran
open Outcome

/-- `RankMPE64::save`, rank.hpp lines 4915-4928. -/
def Mpe.save (x : Mpe) (f : File) : Outcome File := do
  let f := f ++ cell8 (some x.textLen)
  let f ← saveWords x.ranks x.ranksLen f
  let f := f ++ cell8 (some x.bitsLen)
  if x.bitsLen > 0 then fwrite1 x.bits x.bitsLen f else ok f

/-- `RankMPE64::load`, rank.hpp lines 4930-4976; memory is `fresh`. -/
def Mpe.load (aB aR : Nat) (f : File) : Outcome (Mpe × File) := do
  let (textLen, f) ← freadHead f
  let (ranks, ranksLen, f) ← loadWords aR f
  let (bitsLen, f) ← freadHead f
  if bitsLen > 0 then do
    let (bits, f) ← fread1 (fresh (bitsLen + roomBytes aB)) bitsLen f
    ok (⟨ranks, ranksLen, bits, bitsLen, textLen⟩, f)
  else ok (⟨ranks, ranksLen, fresh 0, bitsLen, textLen⟩, f)

end MRS.Mran
