import Verif.Model.Machine

/-!
# Life of the compressed structures: constructors, `build`, `load`, `free`, destructors, copies

All ten classes of include/mranisz treat their memory alike.  An object has some pointers to arrays from `new[]`,
null at first; `freeMemory` deletes those that are not null, `initialize` makes them null, `free()` is both,
`build` and `load` start with `free()`, the destructor is `freeMemory`.  No class declares a copy constructor or
an assignment, so both copy the pointers.

Here arrays are numbers; what they hold is the value of the object that allocated them.  This loses nothing, because
`build` and `load` are the only functions that write the arrays, directly after allocating them.  Failing
allocations are not modelled.
-/

set_option autoImplicit false

namespace MRS.Mran.Life
open Outcome

/-- Arrays from `new[]`: how many were made so far, and which are not deleted yet. -/
structure Heap where
  made : Nat
  live : Nat → Bool

/-- No array yet. -/
def Heap.empty : Heap := ⟨0, fun _ => false⟩

/-- `new T[n]`. -/
def Heap.new (h : Heap) : Heap := ⟨h.made + 1, fun a => a == h.made || h.live a⟩

/-- `if (p != NULL) delete[] p;`, e.g. rank.hpp line 19: undefined if the array was deleted before. -/
def Heap.del (h : Heap) : Option Nat → Outcome Heap
  | none => ok h
  | some a => if h.live a then ok ⟨h.made, fun b => b != a && h.live b⟩ else ub .oob

/-- Several `new[]`, and the pointers. -/
def Heap.news (h : Heap) : Nat → List (Option Nat) × Heap
  | 0 => ([], h)
  | n + 1 => (some h.made :: (h.new.news n).1, (h.new.news n).2)

/-- Several `delete[]`. -/
def Heap.dels (h : Heap) : List (Option Nat) → Outcome Heap
  | [] => ok h
  | p :: ps => do
    let h ← h.del p
    h.dels ps

/-- A class: what `build` and `load` make of their arguments, how a built object answers a query, and what is
allocated on the way. -/
structure Kind where
  /-- What a built object holds. -/
  V : Type
  /-- Arguments of `build`. -/
  A : Type
  /-- Arguments of `load`. -/
  F : Type
  build : A → Outcome V
  load : F → Outcome V
  ask : V → Nat → Outcome Nat
  /-- Temporary arrays of `build`, deleted at its end. -/
  temps : Nat
  /-- Arrays of an object: `ranks` or `selects`, and `bits`; `bits` only in `RankCF`. -/
  arrays : Nat
  /-- How many of them `load` allocates: those of length greater than 0. -/
  kept : V → Nat
  /-- `buffer = new unsigned char[8 + 128]` in `initialize`, select.hpp lines 1396 and 2895. -/
  buffer : Bool

/-- An object: its pointers to arrays, and what they and the other members hold if it is built. -/
structure Obj (V : Type) where
  ptrs : List (Option Nat)
  val : Option V

variable (K : Kind)

/-- `initialize`, rank.hpp lines 23-33, 534-544, 1060-1068, 1453-1461, 1813-1823, 3375-3385; select.hpp lines 23-33,
675-685, 1384-1400, 2883-2899. -/
def initObj (h : Heap) : Obj K.V × Heap :=
  if K.buffer then (⟨List.replicate K.arrays none ++ (h.news 1).1, none⟩, (h.news 1).2)
  else (⟨List.replicate K.arrays none, none⟩, h)

/-- `freeMemory`, rank.hpp lines 18-21, 529-532, 1056-1058, 1449-1451, 1808-1811, 3370-3373; select.hpp lines 18-21,
670-673, 1378-1382, 2877-2881. -/
def freeMemory (o : Obj K.V) (h : Heap) : Outcome Heap := h.dels o.ptrs

/-- `free`, rank.hpp lines 489-492, 1017-1020, 1412-1415, 1767-1770, 3329-3332, 4978-4981; select.hpp lines 628-631,
1334-1337, 2833-2836, 4472-4475. -/
def free (o : Obj K.V) (h : Heap) : Outcome (Obj K.V × Heap) := do
  let h ← freeMemory K o h
  ok (initObj K h)

/-- The pointers of an object that was just initialised, with `n` arrays allocated now.  `buffer`, if any, stays. -/
def fill (o : Obj K.V) (n : Nat) (h : Heap) (v : K.V) : Obj K.V × Heap :=
  (⟨(h.news n).1 ++ List.replicate (K.arrays - n) none ++ o.ptrs.drop K.arrays, some v⟩, (h.news n).2)

/-- `build`, rank.hpp lines 367-413, 894-940, 1118-1236, 1513-1633, 1825-2033, 2035-2341, 3387-3598, 3600-3911;
select.hpp lines 35-396, 687-1083, 1402-2202, 2901-3740: `free()`, then all arrays are allocated, whatever their
length, and the temporary ones deleted. -/
def build (a : K.A) (o : Obj K.V) (h : Heap) : Outcome (Obj K.V × Heap) := do
  let p ← free K o h
  let t := p.2.news K.temps
  let v ← K.build a
  let q := fill K p.1 K.arrays t.2 v
  let h ← q.2.dels t.1
  ok (q.1, h)

/-- `load`, rank.hpp lines 441-487, 968-1015, 1371-1410, 1725-1765, 3282-3327, 4930-4976; select.hpp lines 581-626,
1286-1332, 2786-2831, 4424-4470: `free()`, then the arrays that are not empty are allocated. -/
def load (f : K.F) (o : Obj K.V) (h : Heap) : Outcome (Obj K.V × Heap) := do
  let p ← free K o h
  let v ← K.load f
  ok (fill K p.1 (min (K.kept v) K.arrays) p.2 v)

/-- A query.  It reads through pointers, so the object must be built and its arrays must exist. -/
def ask (o : Obj K.V) (h : Heap) (i : Nat) : Outcome Nat :=
  match o.val with
  | none => ub .nullDeref
  | some v => if (o.ptrs.filterMap id).all h.live then K.ask v i else ub .oob

/-- What a program does with objects of the class; `x` and `y` are names of variables. -/
inductive Cmd
  /-- `C x;` -/
  | decl (x : Nat)
  /-- `x.build(...)` -/
  | build (x : Nat) (a : K.A)
  /-- `x.load(f)` -/
  | load (x : Nat) (f : K.F)
  /-- `x.free()` -/
  | free (x : Nat)
  /-- `x` goes out of scope: the destructor, e.g. rank.hpp line 892. -/
  | kill (x : Nat)
  /-- `C x = y;`: the copy constructor of the compiler. -/
  | copy (x y : Nat)
  /-- `x = y;`: the assignment of the compiler. -/
  | assign (x y : Nat)

/-- The variables and the arrays. -/
structure World where
  obj : Nat → Option (Obj K.V)
  heap : Heap

/-- Before the program. -/
def World.start : World K := ⟨fun _ => none, .empty⟩

variable {K}

/-- Variable `x` holds `o` from now on. -/
def World.set (w : World K) (x : Nat) (o : Option (Obj K.V)) (h : Heap) : World K :=
  ⟨fun y => if y = x then o else w.obj y, h⟩

/-- One command.  Programs that use a variable that does not exist are not C++ (`unsupported`). -/
def World.step (w : World K) : Cmd K → Outcome (World K)
  | .decl x => match w.obj x with
    | none => let p := initObj K w.heap; ok (w.set x (some p.1) p.2)
    | some _ => ub .unsupported
  | .build x a => match w.obj x with
    | none => ub .unsupported
    | some o => do let p ← Life.build K a o w.heap; ok (w.set x (some p.1) p.2)
  | .load x f => match w.obj x with
    | none => ub .unsupported
    | some o => do let p ← Life.load K f o w.heap; ok (w.set x (some p.1) p.2)
  | .free x => match w.obj x with
    | none => ub .unsupported
    | some o => do let p ← Life.free K o w.heap; ok (w.set x (some p.1) p.2)
  | .kill x => match w.obj x with
    | none => ub .unsupported
    | some o => do let h ← freeMemory K o w.heap; ok (w.set x none h)
  | .copy x y => match w.obj x, w.obj y with
    | none, some o => ok (w.set x (some o) w.heap)
    | _, _ => ub .unsupported
  | .assign x y => match w.obj x, w.obj y with
    | some _, some o => ok (w.set x (some o) w.heap)
    | _, _ => ub .unsupported

/-- A program. -/
def World.run (w : World K) : List (Cmd K) → Outcome (World K)
  | [] => ok w
  | c :: cs => do
    let w ← w.step c
    w.run cs

/-- The query `i` of variable `x`. -/
def World.ask (w : World K) (x i : Nat) : Outcome Nat :=
  match w.obj x with
  | none => ub .unsupported
  | some o => Life.ask K o w.heap i

end MRS.Mran.Life
