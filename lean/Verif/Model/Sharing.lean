import Verif.Model.Copy

/-!
# What a user has to know about copies and moves

A discipline for programs with several bitmaps: for every object its value, whether its index may be
relied on, which index it uses, and which index it owns.  No definition of the model is used.
-/

set_option autoImplicit false

namespace MRS
open Spec

/-- What is known about an object: its bits; whether `rank`, `select` and `flip` may be called; the index
it uses; the index that disappears or changes with it. -/
structure Know where
  val : List Bool
  good : Bool
  uses : Nat
  owns : Nat

/-- Knowledge about all objects; the first unused name of an index. -/
structure Track where
  objs : Nat → Option Know
  next : Nat

/-- Start of the program. -/
def Track.init : Track := ⟨fun _ => none, 0⟩

/-- Index `b` changes or disappears: who uses it may not rely on it any more. -/
def Know.spoil (b : Nat) (a : Know) : Know := if a.uses = b then { a with good := false } else a

/-- The same for all objects. -/
def Track.spoil (T : Track) (b : Nat) : Track := ⟨fun x => (T.objs x).map (Know.spoil b), T.next⟩

/-- Knowledge about one object changes. -/
def Track.put (T : Track) (x : Nat) (a : Option Know) : Track := ⟨fset T.objs x a, T.next⟩

/-- A new name. -/
def Track.fresh (T : Track) : Track := ⟨T.objs, T.next + 1⟩

/-- The index owned after a vector was overwritten. -/
def Track.slot (T : Track) (owns : Nat) : Option Nat → Nat
  | some _ => T.next
  | none => owns

/-- Effect of a statement, blocks of `m` bits.  `build` gives the object an index of its own.  A copy has
the same bits but *uses the index of its source* (and owns one that nobody uses).  Flipping a bit through one
user of an index spoils it for all others; rebuilding, assigning to or destroying the owner of an index
spoils it for all users.  A moved-from object is empty and may only be rebuilt, assigned to or destroyed. -/
def Track.step (m : Nat) (T : Track) : Cmd → Track
  | .new x => (T.put x (some ⟨[], true, T.next, T.next⟩)).fresh
  | .del x =>
    match T.objs x with
    | none => T
    | some a => (T.spoil a.owns).put x none
  | .build x re ws =>
    match T.objs x with
    | none => T
    | some a => ((T.spoil a.owns).put x
        (some ⟨rebuilt m a.val ws, true, T.slot a.owns re, T.slot a.owns re⟩)).fresh
  | .flip x i =>
    match T.objs x with
    | none => T
    | some a => (T.spoil a.uses).put x (some { a with val := Spec.flip a.val i })
  | .copyNew x y _ =>
    match T.objs y with
    | none => T
    | some a => (T.put x (some { a with owns := T.next })).fresh
  | .copyAsg x y re =>
    match T.objs x, T.objs y with
    | some p, some a =>
      if x = y then T else
      ((T.spoil p.owns).put x (some { a.spoil p.owns with owns := T.slot p.owns re })).fresh
    | _, _ => T
  | .moveNew x y =>
    match T.objs y with
    | none => T
    | some a => ((T.put y (some ⟨[], false, a.uses, T.next⟩)).put x (some a)).fresh
  | .moveAsg x y =>
    match T.objs x, T.objs y with
    | some p, some a =>
      if x = y then ((T.spoil p.owns).put x (some ⟨[], false, a.uses, T.next⟩)).fresh else
      (((T.spoil p.owns).put y (some ⟨[], false, a.uses, T.next⟩)).put x
        (some (a.spoil p.owns))).fresh
    | _, _ => T

/-- A statement is meaningful: it names existing objects (new ones where one is created), `build` gets an
admissible size and `flip` a position of the bitmap. -/
def Track.Fits (c : Config) (T : Track) : Cmd → Prop
  | .new x => T.objs x = none
  | .del x => T.objs x ≠ none
  | .build x re ws => ∃ a, T.objs x = some a ∧ c.Valid (re.getD 0) ws.length ∧
      c.DebugOK (rebuilt c.blk.width.bits a.val ws)
  | .flip x i => ∃ a, T.objs x = some a ∧ i < a.val.length
  | .copyNew x y _ => T.objs x = none ∧ T.objs y ≠ none
  | .copyAsg x y _ => T.objs x ≠ none ∧ T.objs y ≠ none
  | .moveNew x y => T.objs x = none ∧ T.objs y ≠ none
  | .moveAsg x y => T.objs x ≠ none ∧ T.objs y ≠ none

/-- The index of object `x` may be relied on. -/
def Track.Good (T : Track) (x : Nat) : Prop := ∃ a, T.objs x = some a ∧ a.good = true

/-- A flip goes through an object whose index may be relied on. -/
def Track.Safe (T : Track) : Cmd → Prop
  | .flip x _ => T.Good x
  | _ => True

/-- Values alone, the way a user thinks of them: a copy has the bits of its source, a moved-from object is
empty, and no statement changes any other object.  Nothing is said about indexes. -/
def valStep (m : Nat) (V : Nat → Option (List Bool)) : Cmd → Nat → Option (List Bool)
  | .new x => fset V x (some [])
  | .del x => fset V x none
  | .build x _ ws => fset V x ((V x).map fun B => rebuilt m B ws)
  | .flip x i => fset V x ((V x).map fun B => Spec.flip B i)
  | .copyNew x y _ => fset V x (V y)
  | .copyAsg x y _ => fset V x (V y)
  | .moveNew x y => fset (fset V x (V y)) y (some [])
  | .moveAsg x y => fset (fset V x (V y)) y (some [])

/-- Values after a program that starts without objects. -/
def values (m : Nat) (cs : List Cmd) : Nat → Option (List Bool) := cs.foldl (valStep m) fun _ => none

/-- Knowledge after a program. -/
def Track.steps (m : Nat) (T : Track) (cs : List Cmd) : Track := cs.foldl (Track.step m) T

/-- All statements are meaningful. -/
def Track.AllFit (c : Config) : Track → List Cmd → Prop
  | _, [] => True
  | T, o :: os => T.Fits c o ∧ Track.AllFit c (T.step c.blk.width.bits o) os

/-- All flips respect the discipline. -/
def Track.AllSafe (m : Nat) : Track → List Cmd → Prop
  | _, [] => True
  | T, o :: os => T.Safe o ∧ Track.AllSafe m (T.step m o) os

end MRS
