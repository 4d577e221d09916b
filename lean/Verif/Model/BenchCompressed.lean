import Verif.Model.BenchStructs
import Verif.Model.Mranisz.Classes

/-!
# Model of the benchmark of compressed structures

src/perf_compressed_bitmap.cpp.  The thirteen types that the program knows are classes of
`Model/Mranisz/Classes`: `mranisz_rank_traits`, `mranisz_select_traits`, lines 53-154.  The wrapper
(lines 156-226) passes the bytes of the words to `build` and a query to `rank` or `select`.  Times are left
out, and so is `bytes()`, which reads members only (`getSize`, modelled with the classes).
-/

set_option autoImplicit false

namespace MRS.Bench
open Outcome MRS.Mran MRS.Mran.Life

/-- `measure`.  perf_compressed_bitmap.cpp:263-281. -/
def measureComp (b : Build) (K : Kind) (op : String) (qs : List Nat) (x : K.V) : Outcome (Nat × K.V) :=
  if op = "rank" ∨ op = "select" then do
    let total ← measure (fun _ _ q => K.ask x q) qs
    ok (total, x)
  else if op = "build" then do
    let total ← measure (fun _ _ q => ok q) qs
    ok (total, x)
  else do
    massert b false
    ok (0, x)

/-- `test<I, Wrapper>::run` for `n = sizes[I]`: the forty numbers printed and the object.  `arg` gives `build`
the addresses of its arrays, what memory holds, and the text.  perf_compressed_bitmap.cpp:228-333, with
`build` of the wrappers, lines 163-169 and 199-205. -/
def compRound (b : Build) (K : Kind) (arg : Vec Byte → K.A) (op : String) (n : Nat)
    (threshold bitsSeed seed : Word) : Outcome (List Nat × K.V) := do
  let r ← createRandomBits (Vec.ofList (List.replicate ((n + 63) / 64) 0#64)) threshold bitsSeed
  let x ← K.build (arg (wordBytes (Vec.ofList r.2.toList)))
  let qs ← drawBelow (if op = "select" then r.1 else n) seed numQueries 0
  forty (fun _ x => measureComp b K op qs x) x

end MRS.Bench
