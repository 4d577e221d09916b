import Verif.Model.Mranisz.Life
import Verif.Model.Mranisz.File
import Verif.Model.Mranisz.File32
import Verif.Model.Mranisz.FileSel32
import Verif.Model.Mranisz.MpeFile
import Verif.Model.Mranisz.MpeFile32
import Verif.Model.Mranisz.SelMpe
import Verif.Model.Mranisz.SelMpe32

/-!
# The classes of include/mranisz as families of `Life.lean`

Arguments of `build`: the addresses that `new[]` returns, what memory holds that is read without being written
(where the models have that), and the text.  Arguments of `load`: addresses and the file.
-/

set_option autoImplicit false

namespace MRS.Mran.Life
open Outcome

/-- The object without the rest of the file. -/
def fst' {α β : Type} (o : Outcome (α × β)) : Outcome α := do
  let p ← o
  ok p.1

/-- Arrays of lengths `m` and `n` that `load` allocates. -/
def nonempty (m n : Nat) : Nat := (decide (0 < m)).toNat + (decide (0 < n)).toNat

/-- `RankBasic64<RANK_BASIC_STANDARD>`; `emptyBlock` is temporary. -/
def rankStd64 : Kind where
  V := Basic
  A := Nat × Nat × Vec Byte
  F := Nat × Nat × File
  build a := buildStd a.1 a.2.1 a.2.2
  load f := fst' (Basic.load f.1 f.2.1 f.2.2)
  ask := rankStd
  temps := 1
  arrays := 2
  kept x := nonempty x.ranksLen x.bitsLen
  buffer := false

/-- `RankBasic64<RANK_BASIC_COMPRESSED_HEADERS>`; `emptyBlock` and `ranksTemp` are temporary. -/
def rankBch64 : Kind where
  V := Basic
  A := Option (Nat → Bool) × Nat × Nat × Vec Byte
  F := Nat × Nat × File
  build a := buildBch a.1 a.2.1 a.2.2.1 a.2.2.2
  load f := fst' (Basic.load f.1 f.2.1 f.2.2)
  ask := rankBch
  temps := 2
  arrays := 2
  kept x := nonempty x.ranksLen x.bitsLen
  buffer := false

/-- `RankCF64`; `emptyBlock`, `ranks` and `bitsTemp` are temporary. -/
def rankCF64 : Kind where
  V := CF
  A := Nat × Vec Byte
  F := Nat × File
  build a := buildCF a.1 a.2
  load f := fst' (CF.load f.1 f.2)
  ask := rankCF
  temps := 3
  arrays := 1
  kept x := nonempty 0 x.bitsLen
  buffer := false

/-- `RankMPE64`; `emptyBlock`, `bitsTemp`, `ranksTemp` and `blockToCompress` are temporary. -/
def rankMpe64 (ty : MpeType) (strict : Bool) : Kind where
  V := Mpe
  A := Junk × Nat × Nat × Vec Byte
  F := Nat × Nat × File
  build a := buildMpe ty a.1 a.2.1 a.2.2.1 a.2.2.2
  load f := fst' (Mpe.load f.1 f.2.1 f.2.2)
  ask := rankMpe ty strict
  temps := 4
  arrays := 2
  kept x := nonempty x.ranksLen x.bitsLen
  buffer := false

/-- `SelectBasic64<SELECT_BASIC_STANDARD, L, TH>`. -/
def selStd64 (strict : Bool) (L TH : Nat) : Kind where
  V := Select
  A := Nat × Nat × Vec Byte
  F := Nat × Nat × File
  build a := buildSel L TH a.1 a.2.1 a.2.2
  load f := fst' (Select.load f.1 f.2.1 f.2.2)
  ask := selectStd strict L TH
  temps := 0
  arrays := 2
  kept x := nonempty x.selLen x.bitsLen
  buffer := false

/-- `SelectBasic64<SELECT_BASIC_COMPRESSED_HEADERS, L, TH>`; `selectsTemp` is temporary. -/
def selBch64 (strict : Bool) (L TH : Nat) : Kind where
  V := Select
  A := Nat × Nat × Vec Byte
  F := Nat × Nat × File
  build a := buildSelBch L TH a.1 a.2.1 a.2.2
  load f := fst' (Select.load f.1 f.2.1 f.2.2)
  ask := selectBch strict L TH
  temps := 1
  arrays := 2
  kept x := nonempty x.selLen x.bitsLen
  buffer := false

/-- `SelectMPE64`; `selectsTemp` and `blockToCompress` are temporary. -/
def selMpe64 (ty : MpeType) (strict : Bool) (L TH : Nat) : Kind where
  V := Select
  A := JunkS × Nat × Nat × Vec Byte
  F := Nat × Nat × File
  build a := buildSelMpe ty L TH a.2.1 a.2.2.1 a.1 a.2.2.2
  load f := fst' (Select.load f.1 f.2.1 f.2.2)
  ask := selectMpe ty strict L TH
  temps := 2
  arrays := 2
  kept x := nonempty x.selLen x.bitsLen
  buffer := true

/-- `RankBasic32<RANK_BASIC_STANDARD>`. -/
def rankStd32 : Kind :=
  { rankStd64 with
    build := fun (a : Nat × Nat × Vec Byte) => buildStd32 a.1 a.2.1 a.2.2
    load := fun (f : Nat × Nat × File) => fst' (Basic.load32 f.1 f.2.1 f.2.2)
    ask := Mran.rankStd32 }

/-- `RankBasic32<RANK_BASIC_COMPRESSED_HEADERS>`. -/
def rankBch32 : Kind :=
  { rankBch64 with
    build := fun (a : Option (Nat → Bool) × Nat × Nat × Vec Byte) => buildBch32 a.1 a.2.1 a.2.2.1 a.2.2.2
    load := fun (f : Nat × Nat × File) => fst' (Basic.load32 f.1 f.2.1 f.2.2)
    ask := Mran.rankBch32 }

/-- `RankCF32`. -/
def rankCF32 (strict : Bool) : Kind where
  V := CF32
  A := Nat × Vec Byte
  F := Nat × File
  build a := buildCF32 a.1 a.2
  load f := fst' (CF32.load f.1 f.2)
  ask := Mran.rankCF32 strict
  temps := 3
  arrays := 1
  kept x := nonempty 0 x.bitsLen
  buffer := false

/-- `RankMPE32`. -/
def rankMpe32 (ty : MpeType) (strict : Bool) : Kind :=
  { rankMpe64 ty strict with
    build := fun (a : Junk × Nat × Nat × Vec Byte) => buildMpe32 ty a.1 a.2.1 a.2.2.1 a.2.2.2
    load := fun (f : Nat × Nat × File) => fst' (Mpe.load32 f.1 f.2.1 f.2.2)
    ask := Mran.rankMpe32 ty strict }

/-- `SelectBasic32<SELECT_BASIC_STANDARD, L, TH>`. -/
def selStd32 (strict : Bool) (L TH : Nat) : Kind :=
  { selStd64 strict L TH with
    build := fun (a : Nat × Nat × Vec Byte) => S32.buildSel L TH a.1 a.2.1 a.2.2
    load := fun (f : Nat × Nat × File) => fst' (S32.load f.1 f.2.1 f.2.2)
    ask := S32.selectStd strict L TH }

/-- `SelectBasic32<SELECT_BASIC_COMPRESSED_HEADERS, L, TH>`. -/
def selBch32 (strict : Bool) (L TH : Nat) : Kind :=
  { selBch64 strict L TH with
    build := fun (a : Nat × Nat × Vec Byte) => S32.buildSelBch L TH a.1 a.2.1 a.2.2
    load := fun (f : Nat × Nat × File) => fst' (S32.load f.1 f.2.1 f.2.2)
    ask := S32.selectBch strict L TH }

/-- `SelectMPE32`. -/
def selMpe32 (ty : MpeType) (strict : Bool) (L TH : Nat) : Kind :=
  { selMpe64 ty strict L TH with
    build := fun (a : JunkS × Nat × Nat × Vec Byte) => S32.buildSelMpe ty L TH a.2.1 a.2.2.1 a.1 a.2.2.2
    load := fun (f : Nat × Nat × File) => fst' (S32.load f.1 f.2.1 f.2.2)
    ask := S32.selectMpe ty strict L TH }

end MRS.Mran.Life
