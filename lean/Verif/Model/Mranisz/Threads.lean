import Verif.Model.Mranisz.Select

/-!
# Queries of the compressed structures as programs over the members they write

`RankBasic64`, `RankCF64` and `SelectBasic64` keep the place they read from in the members `pointer` and
`pointer2` of the object (rank.hpp lines 665, 723, 771, 776, 1640, 1646, 1654; select.hpp lines 1098, 1105, 1112,
1125, 1166, 1173, 1180), so a query writes the object that it queries.  Here a query is a program that reads and
writes these two members and ends with an outcome; the arrays are not modified by queries.  A member is the
difference to `alignedBits` (`pointer`), or to `alignedRanks` or `alignedSelects` (`pointer2`).  Every use of
`this->pointer` reads the member anew, as the source says.

Two simplifications, both in favour of the code: accesses are sequentially consistent and pointers are not torn.
In C++ conflicting accesses of two threads are undefined behaviour already; see `Sys.Race`.
-/

set_option autoImplicit false

namespace MRS.Mran
open Outcome

/-- A member of an object: `pointer`, or `pointer2` if `two`. -/
structure Cell where
  obj : Nat
  two : Bool
  deriving DecidableEq

/-- The members of all objects. -/
abbrev Cells : Type := Cell → Nat

/-- A program that reads and writes members, then ends with an outcome. -/
inductive Prog (α : Type)
  | done (o : Outcome α)
  | get (l : Cell) (k : Nat → Prog α)
  | put (l : Cell) (v : Nat) (k : Prog α)

namespace Prog
variable {α β : Type}

/-- Sequencing. -/
protected def bind : Prog α → (α → Prog β) → Prog β
  | done (ok a), f => f a
  | done (ub e), _ => done (ub e)
  | done abort, _ => done abort
  | get l k, f => get l fun v => (k v).bind f
  | put l v k, f => put l v (k.bind f)

instance : Monad Prog where
  pure a := done (ok a)
  bind := Prog.bind

/-- Read a member. -/
def getP (l : Cell) : Prog Nat := get l fun v => done (ok v)

/-- Write a member. -/
def setP (l : Cell) (v : Nat) : Prog Unit := put l v (done (ok ()))

/-- `for (i = a; i < a + n; ++i) s = body(i, s)`. -/
def loop (a : Nat) : Nat → (Nat → α → Prog α) → α → Prog α
  | 0, _, s => done (ok s)
  | n + 1, body, s => do
    let s ← body a s
    loop (a + 1) n body s

end Prog

open Prog

/-! ## rank -/

/-- What is known before the words of a block are read: the answer, or the rank in front of the block. -/
inductive Head
  | known (r : Nat)
  | block (rank : Nat)

/-- `switch (i / 64)`, rank.hpp lines 666-718 (and 778-830, 1656-1708): each word is read through
`this->pointer`. -/
def inBlockA (bits : Vec (Option Word)) (o rank i : Nat) : Prog Nat := do
  let r ← loop 0 (i / 64) (fun k r => do
    let p ← getP ⟨o, false⟩
    let w ← done (uget bits (p + k))
    done (ok (r + popcnt w))) rank
  let p ← getP ⟨o, false⟩
  let w ← done (uget bits (p + i / 64))
  let m ← done (maskAt (i - 64 * (i / 64)))
  done (ok (r + popcnt (w &&& m)))

/-- The rest of a query, with `i` reduced modulo 512. -/
def tailA (bits : Vec (Option Word)) (o i : Nat) : Head → Prog Nat
  | .known r => done (ok r)
  | .block rank => inBlockA bits o rank i

/-- `getRank_std` up to line 665, rank.hpp lines 659-665. -/
def headStd (o : Nat) (x : Basic) (i : Nat) : Prog Head := do
  let start := i / 512
  let rank ← done (uget x.ranks (2 * start))
  let i := i % 512
  let r2 ← done (uget x.ranks (2 * start + 2))
  let diff := sub64 r2 rank
  if diff &&& 511 = 0 then done (ok (.known (rank + i * (diff >>> 9))))
  else do
    let off ← done (uget x.ranks (2 * start + 1))
    setP ⟨o, false⟩ off
    done (ok (.block rank))

/-- `getRank_std`, rank.hpp lines 659-719. -/
def rankStdA (o : Nat) (x : Basic) (i : Nat) : Prog Nat := do
  let h ← headStd o x i
  tailA x.bits o (i % 512) h

/-- The part of the word that holds the rank of block `n` of a superblock, rank.hpp lines 728-741, through
`this->pointer2`. -/
def slot1A (o : Nat) (ranks : Vec (Option Nat)) (e n : Nat) : Prog Nat := do
  let p ← getP ⟨o, true⟩
  done (slot1 ranks (p + e) n)

/-- The same for the next block, rank.hpp lines 750-763. -/
def slot2A (o : Nat) (ranks : Vec (Option Nat)) (n : Nat) : Prog Nat := do
  let p ← getP ⟨o, true⟩
  done (slot2 ranks p n)

/-- `this->pointer2[k]`. -/
def at2 (o : Nat) (ranks : Vec (Option Nat)) (k : Nat) : Prog Nat := do
  let p ← getP ⟨o, true⟩
  done (uget ranks (p + k))

/-- `getRank_bch` up to line 777, rank.hpp lines 721-777. -/
def headBch (o : Nat) (x : Basic) (i : Nat) : Prog Head := do
  let start := i / 512
  setP ⟨o, true⟩ (19 * (start / 64))
  let rank ← at2 o x.ranks 0
  let n := start % 64
  let rank ← (if n > 0 then do
      let s ← slot1A o x.ranks 0 n
      done (ok (rank + s))
    else done (ok rank))
  let i := i % 512
  let rank2 ← (if n = 63 then at2 o x.ranks 19 else do
      let b0 ← at2 o x.ranks 0
      let s ← slot2A o x.ranks n
      done (ok (b0 + s)))
  let diff := sub64 rank2 rank
  if diff &&& 511 = 0 then done (ok (.known (rank + i * (diff >>> 9))))
  else do
    let off ← (if n > 0 then do
        let b ← at2 o x.ranks 17
        let f ← at2 o x.ranks (17 + 1)
        let m ← done (maskAt n)
        done (ok (b + 8 * popcnt (BitVec.ofNat 64 f &&& m)))
      else at2 o x.ranks 17)
    setP ⟨o, false⟩ off
    done (ok (.block rank))

/-- `getRank_bch`, rank.hpp lines 721-831. -/
def rankBchA (o : Nat) (x : Basic) (i : Nat) : Prog Nat := do
  let h ← headBch o x i
  tailA x.bits o (i % 512) h

/-- `RankCF64::rank` up to line 1655, rank.hpp lines 1635-1655. -/
def headCF (o : Nat) (x : CF) (i : Nat) : Prog Head := do
  let start := i / 512
  if start < x.border then do
    setP ⟨o, false⟩ (start * 8 + start)
    let p ← getP ⟨o, false⟩
    let rank ← done (uget x.bits p)
    let i := i % 512
    let p ← getP ⟨o, false⟩
    let next ← done (uget x.bits (p + 9))
    let diff := sub64 next.toNat rank.toNat
    if diff &&& 511 = 0 then done (ok (.known (rank.toNat + i * (diff >>> 9))))
    else do
      let p ← getP ⟨o, false⟩
      setP ⟨o, false⟩ (p + 1)
      done (ok (.block rank.toNat))
  else do
    let p := x.blockBorder + 2 * (start - x.border)
    let rank ← done (uget x.bits p)
    let i := i % 512
    let next ← done (uget x.bits (p + 2))
    let diff := sub64 next.toNat rank.toNat
    if diff &&& 511 = 0 then done (ok (.known (rank.toNat + i * (diff >>> 9))))
    else do
      let off ← done (uget x.bits (p + 1))
      setP ⟨o, false⟩ off.toNat
      done (ok (.block rank.toNat))

/-- `RankCF64::rank`, rank.hpp lines 1635-1709. -/
def rankCFA (o : Nat) (x : CF) (i : Nat) : Prog Nat := do
  let h ← headCF o x i
  tailA x.bits o (i % 512) h

/-! ## select -/

/-- `for (j = 64; j < selectDiff; j += 64)`, select.hpp lines 1099-1106 (and 1167-1174), with `n` iterations
left. -/
def wordLoopA (strict : Bool) (bits : Vec (Option Byte)) (o : Nat) : Nat → Nat → Nat → Prog (Nat × Nat)
  | 0, i, select => done (ok (i, select))
  | n + 1, i, select => do
    let p ← getP ⟨o, false⟩
    let w ← done (load8 strict bits p)
    let c := popcnt w
    if c ≥ i then done (ok (i, select))
    else do
      let p ← getP ⟨o, false⟩
      setP ⟨o, false⟩ (p + 8)
      wordLoopA strict bits o n (i - c) (select + 64)

/-- `while (true)`, select.hpp lines 1107-1113 (and 1175-1181).  Alone, `fuel = bits.len + 1` iterations are
enough; among others the loop may take longer, which counts as `ub .diverges` here. -/
def byteLoopA (bits : Vec (Option Byte)) (o : Nat) : Nat → Nat → Nat → Prog (Nat × Nat)
  | 0, _, _ => done (ub .diverges)
  | fuel + 1, i, select => do
    let p ← getP ⟨o, false⟩
    let b ← done (uget bits p)
    let c := popcntTable.getD b.toNat 0
    if c ≥ i then done (ok (i, select))
    else do
      let p ← getP ⟨o, false⟩
      setP ⟨o, false⟩ (p + 1)
      byteLoopA bits o fuel (i - c) (select + 8)

/-- `for (j = 0; j < 8; ++j)` and `return 0`, select.hpp lines 1114-1120 (and 1182-1188), with `n` iterations
left. -/
def bitLoopA (bits : Vec (Option Byte)) (o select : Nat) : Nat → Nat → Nat → Prog Nat
  | 0, _, _ => done (ok 0)
  | n + 1, j, i => do
    let p ← getP ⟨o, false⟩
    let b ← done (uget bits p)
    if b &&& byteMasks.getD j 0#8 ≠ 0#8 then
      if i = 1 then done (ok (select + j)) else bitLoopA bits o select n (j + 1) (i - 1)
    else bitLoopA bits o select n (j + 1) i

/-- The scan of a block, select.hpp lines 1097-1120 (and 1165-1188). -/
def scanBlockA (strict : Bool) (bits : Vec (Option Byte)) (o off diff i select : Nat) : Prog Nat := do
  setP ⟨o, false⟩ off
  let (i, select) ← wordLoopA strict bits o ((diff - 1) / 64) i select
  let (i, select) ← byteLoopA bits o (bits.len + 1) i select
  bitLoopA bits o select 8 0 i

/-- `getSelect_std`, select.hpp lines 1085-1121. -/
def selectStdA (strict : Bool) (L TH o : Nat) (x : Select) (i : Nat) : Prog Nat := do
  let start := i / L
  let select ← done (uget x.sel (2 * start))
  let i := i % L
  if i = 0 then done (ok (sub64 select 1))
  else do
    let s2 ← done (uget x.sel (2 * start + 2))
    let diff := sub64 s2 select
    if diff = L then done (ok (add64 (sub64 select 1) i))
    else do
      let off ← done (uget x.sel (2 * start + 1))
      if diff > TH then do
        let w ← done (load8 strict x.bits (off + 8 * (i - 1)))
        done (ok w.toNat)
      else scanBlockA strict x.bits o off diff i select

/-- `getSelect_bch`, select.hpp lines 1123-1189. -/
def selectBchA (strict : Bool) (L TH o : Nat) (x : Select) (i : Nat) : Prog Nat := do
  let start := i / L
  setP ⟨o, true⟩ (21 * (start / 16))
  let n := start % 16
  let select ← at2 o x.sel n
  let i := i % L
  if i = 0 then done (ok (sub64 select 1))
  else do
    let s2 ← (if n = 15 then at2 o x.sel 21 else at2 o x.sel (n + 1))
    let diff := sub64 s2 select
    if diff = L then done (ok (add64 (sub64 select 1) i))
    else do
      let off ← at2 o x.sel 16
      let off ← (if n > 0 then do
          let s ← slot1A o x.sel 16 n
          done (ok (off + s))
        else done (ok off))
      if diff > TH then do
        let w ← done (load8 strict x.bits (off + 8 * (i - 1)))
        done (ok w.toNat)
      else scanBlockA strict x.bits o off diff i select

/-! ## Threads -/

/-- A query of a built object. -/
inductive Query
  | rankStd (x : Basic) (i : Nat)
  | rankBch (x : Basic) (i : Nat)
  | rankCF (x : CF) (i : Nat)
  | selStd (L TH : Nat) (x : Select) (i : Nat)
  | selBch (L TH : Nat) (x : Select) (i : Nat)

/-- The program of the query, for object number `o`. -/
def Query.act (o : Nat) : Query → Prog Nat
  | .rankStd x i => rankStdA o x i
  | .rankBch x i => rankBchA o x i
  | .rankCF x i => rankCFA o x i
  | .selStd L TH x i => selectStdA false L TH o x i
  | .selBch L TH x i => selectBchA false L TH o x i

/-- The model without members. -/
def Query.value : Query → Outcome Nat
  | .rankStd x i => Mran.rankStd x i
  | .rankBch x i => Mran.rankBch x i
  | .rankCF x i => Mran.rankCF x i
  | .selStd L TH x i => selectStd false L TH x i
  | .selBch L TH x i => selectBch false L TH x i

/-- What a thread does: a query of object number `obj`. -/
structure Work where
  obj : Nat
  q : Query

def Work.act (w : Work) : Prog Nat := w.q.act w.obj

/-- Programs of all threads, and the members. -/
structure Sys where
  thr : Nat → Prog Nat
  mem : Cells

def cset (m : Cells) (l : Cell) (v : Nat) : Cells := fun l' => if l' = l then v else m l'

def pset (f : Nat → Prog Nat) (t : Nat) (a : Prog Nat) : Nat → Prog Nat := fun u => if u = t then a else f u

/-- Thread `t` makes one access. -/
def Sys.step (s : Sys) (t : Nat) : Sys :=
  match s.thr t with
  | .done _ => s
  | .get l k => ⟨pset s.thr t (k (s.mem l)), s.mem⟩
  | .put l v k => ⟨pset s.thr t k, cset s.mem l v⟩

/-- The threads make their accesses in the order of the schedule. -/
def Sys.run (s : Sys) (σ : List Nat) : Sys := σ.foldl Sys.step s

/-- All threads at the start of their queries. -/
def Sys.start (work : Nat → Work) (m : Cells) : Sys := ⟨fun t => (work t).act, m⟩

/-- The next access is to `l`. -/
def Prog.Uses {α : Type} (l : Cell) : Prog α → Prop
  | .done _ => False
  | .get l' _ => l' = l
  | .put l' _ _ => l' = l

/-- The next access writes `l`. -/
def Prog.Writes {α : Type} (l : Cell) : Prog α → Prop
  | .put l' _ _ => l' = l
  | _ => False

/-- The next accesses of two threads are to the same member and one of them writes. -/
def Sys.Race (s : Sys) (t u : Nat) : Prop := t ≠ u ∧ ∃ l, (s.thr t).Writes l ∧ (s.thr u).Uses l

end MRS.Mran
