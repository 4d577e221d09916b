import Verif.Model.Hft.Trees

/-!
# Vendored Fenwick trees, part 3: Hybrid

Source: include/hft/fenwick/hybrid.hpp.  A tree over blocks of `2^CUT` elements and one small tree
inside each block.  The two template classes are any of the eight of `Trees.lean`.
-/

set_option autoImplicit false

namespace MRS.Hft
open Outcome

/-- Template parameters of `Hybrid`: `TOP`, `BOTTOM`, `CUT`; `BOUND` is in `Cfg`. -/
structure HCfg where
  cfg : Cfg
  top : Kind
  bottom : Kind
  cut : Nat

/-- Members of `Hybrid`, lines 12-18. -/
structure Hybrid where
  size : Nat
  top : Obj
  forest : Vec Obj

/-- The configuration of `TOP<TOPBOUND>`: `TOPBOUND = BOUND * 2^CUT` in `size_t`, line 13. -/
def HCfg.topCfg (c : HCfg) : Cfg := { c.cfg with bound := c.cfg.bound * 2 ^ c.cut % W64 }

/-- `BottomSize`, line 12. -/
def HCfg.bottomSize (c : HCfg) : Nat := 2 ^ c.cut - 1

/-- `sequence + next`. -/
def vecShift {α : Type} (v : Vec α) (k : Nat) : Vec α := ⟨v.len - k, fun j => v.f (k + j)⟩

/-- `push_back`. -/
def vecPush {α : Type} (v : Vec α) (a : α) : Vec α :=
  ⟨v.len + 1, fun j => if j = v.len then a else v.f j⟩

/-- `buildTop`, lines 79-87. -/
def buildTop (c : HCfg) (seq : Vec Nat) (size : Nat) : Outcome Obj := do
  let topsize := size >>> c.cut
  let subseq ← forFrom 1 topsize (fun i s => do
    let x ← seq.get (i * (c.bottomSize + 1) - 1)
    s.set (i - 1) x) (words topsize)
  build c.topCfg subseq topsize c.top

/-- `bsize`, lines 23-24. -/
def HCfg.bsize (c : HCfg) (size next : Nat) : Nat :=
  if c.bottomSize + next ≤ size then c.bottomSize else size &&& c.bottomSize

/-- The constructor, lines 21-31.  The empty vector is given by its length. -/
def hybridBuild (c : HCfg) (seq : Vec Nat) (size : Nat) : Outcome Hybrid := do
  let top ← buildTop c seq size
  let forest ← forN (top.size + 1) (fun i v => do
    let next := (c.bottomSize + 1) * i
    let o ← build c.cfg (vecShift seq next) (c.bsize size next) c.bottom
    ok (vecPush v o)) ⟨0, fun _ => top⟩
  let top' ← forN top.size (fun i t => do
    let b ← forest.get i
    let s ← b.prefix c.cfg b.size
    t.add c.topCfg (i + 1) s) top
  ok ⟨size, top', forest⟩

/-- `prefix`, lines 33-38. -/
def Hybrid.prefix (c : HCfg) (o : Hybrid) (idx : Nat) : Outcome Nat := do
  let a ← o.top.prefix c.topCfg (idx >>> c.cut)
  let b ← o.forest.get (idx >>> c.cut)
  let s ← b.prefix c.cfg (idx &&& c.bottomSize)
  ok (add64 a s)

/-- `add`, lines 40-50. -/
def Hybrid.add (c : HCfg) (o : Hybrid) (idx inc : Nat) : Outcome Hybrid := do
  let top := idx >>> c.cut
  let bottom := idx &&& c.bottomSize
  if bottom = 0 then
    let t ← o.top.add c.topCfg top inc
    ok ⟨o.size, t, o.forest⟩
  else
    let t ← o.top.add c.topCfg (top + 1) inc
    let b ← o.forest.get top
    let b' ← b.add c.cfg bottom inc
    let f ← o.forest.set top b'
    ok ⟨o.size, t, f⟩

/-- A history of `add`s. -/
def Hybrid.adds (c : HCfg) : List (Nat × Int) → Hybrid → Outcome Hybrid
  | [], o => ok o
  | op :: ops, o => do
    let o' ← o.add c op.1 (u64 op.2)
    Hybrid.adds c ops o'

/-- `find`, lines 53-58, and `compFind`, lines 61-66, with the searches of the two classes given. -/
def Hybrid.search (c : HCfg) (o : Hybrid) (ftop : Obj → Nat → Outcome (Nat × Nat))
    (fbot : Obj → Nat → Outcome (Nat × Nat)) (val : Nat) : Outcome (Nat × Nat) := do
  let r ← if o.top.size ≠ 0 then ftop o.top val else ok (0, val)
  let q ← if r.1 < o.forest.len then do
      let b ← o.forest.get r.1
      fbot b r.2
    else ok (0, r.2)
  ok (r.1 <<< c.cut + q.1, q.2)

/-- `find(&val)`. -/
def Hybrid.find (c : HCfg) (o : Hybrid) : Nat → Outcome (Nat × Nat) :=
  o.search c (Obj.find c.topCfg) (Obj.find c.cfg)

/-- `compFind(&val)`. -/
def Hybrid.compFind (c : HCfg) (o : Hybrid) : Nat → Outcome (Nat × Nat) :=
  o.search c (Obj.compFind c.topCfg) (Obj.compFind c.cfg)

end MRS.Hft
