import Verif.Model.Usage

/-!
# Programs with several bitmap objects

Neither `mutable_bitmap` nor the segment trees declare copy or move operations
(include/mutable_bitmap.hpp lines 9-99, include/segment_tree/avx2/segment_tree.hpp lines 12-190,
avx512/segment_tree.hpp lines 12-179), so the implicit ones apply: memberwise.  `m_data` and `m_bits` are
vectors and are copied deeply or moved; `m_num_nodes_per_level` and `m_ptr` are raw pointers and are copied
as they are.  Index buffers therefore live in a heap and are named; an object knows the buffer its
`m_data` owns and the buffer its two pointers point into.
-/

set_option autoImplicit false

namespace MRS
open Outcome

/-- Data members of a `mutable_bitmap`, mutable_bitmap.hpp lines 96-98, with those of its index,
avx2/segment_tree.hpp lines 185-189, avx512/segment_tree.hpp lines 174-178.  `num` and `ptr` are offsets
into buffer `tgt`; both pointers are only ever set together. -/
structure Obj where
  size : Nat
  num : Option Nat
  ptr : Option Nat
  tgt : Nat
  own : Nat             -- the buffer of `m_data`
  bits : Vec Word

/-- No byte of it may be accessed: the buffer of an empty vector, or one that was freed. -/
def Mem.nothing : Mem := ⟨0, 0, fun _ => 0⟩

/-- Live objects, index buffers, and the first unused buffer name.  Names are not reused, so that a
dangling pointer never becomes valid again; some stay unused. -/
structure Store where
  objs : Nat → Option Obj
  heap : Nat → Mem
  next : Nat

/-- Start of the program. -/
def Store.init : Store := ⟨fun _ => none, fun _ => Mem.nothing, 0⟩

/-- Point update of a function. -/
def fset {α : Type} (f : Nat → α) (k : Nat) (v : α) : Nat → α := fun j => if j = k then v else f j

/-- The object as its member functions other than `build` see it: all of `sum`, `update` and `search` go
through `m_ptr` and `m_num_nodes_per_level`, none through `m_data`
(avx2/segment_tree_macros.hpp, avx512/segment_tree_macros.hpp). -/
def Store.view (s : Store) (o : Obj) : Bitmap := ⟨⟨o.size, o.num, o.ptr, s.heap o.tgt⟩, o.bits⟩

/-- The object as `build` sees it: it resizes `m_data` and sets both pointers anew
(avx2/segment_tree.hpp lines 58-64). -/
def Store.owned (s : Store) (o : Obj) : Bitmap := ⟨⟨o.size, o.num, o.ptr, s.heap o.own⟩, o.bits⟩

/-- Looking an object up; a well-formed program never names an object that does not exist. -/
def Store.obj (s : Store) (x : Nat) : Outcome Obj :=
  match s.objs x with | some o => ok o | none => ub .unsupported

/-- Statements of a program.  `re` is `some addr` when a vector reallocates, to `addr`, and `none` when it
stays in place; which of the two happens is up to the implementation. -/
inductive Cmd
  | new (x : Nat)                                        -- mutable_bitmap x;
  | del (x : Nat)                                        -- end of the life of x
  | build (x : Nat) (re : Option Nat) (ws : List Word)   -- x.build(ws.data(), ws.size())
  | flip (x i : Nat)                                     -- x.flip(i)
  | copyNew (x y addr : Nat)                             -- mutable_bitmap x(y);
  | copyAsg (x y : Nat) (re : Option Nat)                -- x = y;
  | moveNew (x y : Nat)                                  -- mutable_bitmap x(std::move(y));
  | moveAsg (x y : Nat)                                  -- x = std::move(y);

/-- A vector holding the bytes of `m`, at `addr`. -/
def Mem.copyTo (m : Mem) (addr : Nat) : Mem := ⟨addr, m.size, m.byte⟩

/-- One statement.  `build` and `flip` as in mutable_bitmap.hpp lines 19-37 and 70-78, the rest as
described above.  A moved-from vector is empty. -/
def Config.cmd (c : Config) (s : Store) : Cmd → Outcome Store
  | .new x => ok ⟨fset s.objs x (some ⟨0, none, none, s.next, s.next, Bitmap.empty.bits⟩), s.heap, s.next + 1⟩
  | .del x => do
    let o ← s.obj x
    ok ⟨fset s.objs x none, fset s.heap o.own Mem.nothing, s.next⟩
  | .build x re ws => do
    let o ← s.obj x
    match re with
    | some addr => do
      let bm ← bmBuild c addr (Vec.ofList ws) ws.length (s.owned o)
      ok ⟨fset s.objs x (some ⟨bm.index.size, bm.index.num, bm.index.ptr, s.next, s.next, bm.bits⟩),
        fset (fset s.heap o.own Mem.nothing) s.next bm.index.mem, s.next + 1⟩
    | none => do
      let bm ← bmBuild c (s.heap o.own).addr (Vec.ofList ws) ws.length (s.owned o)
      ok ⟨fset s.objs x (some ⟨bm.index.size, bm.index.num, bm.index.ptr, o.own, o.own, bm.bits⟩),
        fset s.heap o.own bm.index.mem, s.next + 1⟩
  | .flip x i => do
    let o ← s.obj x
    let bm ← bmFlip c (s.view o) i
    ok ⟨fset s.objs x (some ⟨bm.index.size, bm.index.num, bm.index.ptr, o.tgt, o.own, bm.bits⟩),
      fset s.heap o.tgt bm.index.mem, s.next⟩
  | .copyNew x y addr => do
    let o ← s.obj y
    ok ⟨fset s.objs x (some { o with own := s.next }), fset s.heap s.next ((s.heap o.own).copyTo addr),
      s.next + 1⟩
  | .copyAsg x y re => do
    let p ← s.obj x
    let o ← s.obj y
    if x = y then ok s else
    match re with
    | some addr =>
      ok ⟨fset s.objs x (some { o with own := s.next }),
        fset (fset s.heap p.own Mem.nothing) s.next ((s.heap o.own).copyTo addr), s.next + 1⟩
    | none =>
      ok ⟨fset s.objs x (some { o with own := p.own }),
        fset s.heap p.own ((s.heap o.own).copyTo (s.heap p.own).addr), s.next + 1⟩
  | .moveNew x y => do
    let o ← s.obj y
    ok ⟨fset (fset s.objs y (some { o with own := s.next, bits := Bitmap.empty.bits })) x (some o),
      s.heap, s.next + 1⟩
  | .moveAsg x y => do
    let p ← s.obj x
    let o ← s.obj y
    if x = y then
      ok ⟨fset s.objs x (some { o with own := s.next, bits := Bitmap.empty.bits }),
        fset s.heap p.own Mem.nothing, s.next + 1⟩
    else
      ok ⟨fset (fset s.objs y (some { o with own := s.next, bits := Bitmap.empty.bits })) x (some o),
        fset s.heap p.own Mem.nothing, s.next + 1⟩

/-- A program. -/
def Config.prog (c : Config) : Store → List Cmd → Outcome Store
  | s, [] => ok s
  | s, o :: os => do
    let s ← c.cmd s o
    c.prog s os

/-- `x.access(i)`. -/
def Config.accessOf (c : Config) (s : Store) (x i : Nat) : Outcome Bool := do
  let o ← s.obj x
  bmAccess c (s.view o) i

/-- `x.rank(i)`. -/
def Config.rankOf (c : Config) (g : Scratch) (s : Store) (x i : Nat) : Outcome Nat := do
  let o ← s.obj x
  bmRank c g (s.view o) i

/-- `x.select(i)`. -/
def Config.selectOf (c : Config) (g : Scratch) (s : Store) (x i : Nat) : Outcome Nat := do
  let o ← s.obj x
  bmSelect c g (s.view o) i

/-- `x.size()`. -/
def Store.sizeOf (s : Store) (x : Nat) : Outcome Nat := do
  let o ← s.obj x
  ok (bmSize (s.view o))

end MRS
