import Verif.Model.Hft.Hybrid

/-!
# Vendored Fenwick trees, part 4: streams and reported sizes

Sources: include/hft/common.hpp lines 387-444 (byte order), include/hft/darray.hpp lines 36-135, and
`operator<<`, `operator>>`, `bitCount` of each class of include/hft/fenwick.

The host is little-endian, as in the rest of the model: `is_little_endian()` is true and `hton` swaps.
An output stream is the list of bytes written so far; writing never fails.  An input stream is the
list of bytes left and the fail bit.  Allocation succeeds.  `operator>>` of `TypeF` and `TypeL`
assigns to a `const` member and does not compile, so no program calls it.
-/

set_option autoImplicit false

namespace MRS.Hft
open Outcome

/-! ## Byte order -/

/-- `swap_endian<uint8_t>`, common.hpp lines 413-414. -/
def swap8 (v : Nat) : Nat := v

/-- `swap_endian<uint16_t>`, common.hpp lines 415-417. -/
def swap16 (v : Nat) : Nat := (swap8 (v &&& 0xff) <<< 8) ||| swap8 (v >>> 8 % 2 ^ 8)

/-- `swap_endian<uint32_t>`, common.hpp lines 418-420. -/
def swap32 (v : Nat) : Nat := (swap16 (v &&& 0xffff) <<< 16) ||| swap16 (v >>> 16 % 2 ^ 16)

/-- `swap_endian<uint64_t>`, common.hpp lines 421-425. -/
def swap64 (v : Nat) : Nat := (swap32 (v &&& 0xffffffff) <<< 32) ||| swap32 (v >>> 32 % 2 ^ 32)

/-- `swap_endian` by the size of the type, common.hpp lines 411-430. -/
def swapEndian (w v : Nat) : Nat :=
  if w = 1 then swap8 v else if w = 2 then swap16 v else if w = 4 then swap32 v else swap64 v

/-- `hton` and `ntoh`, common.hpp lines 437 and 444. -/
def hton (w v : Nat) : Nat := swapEndian w v

/-- The `w` bytes of an object with value `v` in the memory of the host. -/
def leBytes : Nat → Nat → List Nat
  | 0, _ => []
  | w + 1, v => v % 256 :: leBytes w (v / 256)

/-- The value of an object with these bytes. -/
def ofLe : List Nat → Nat
  | [] => 0
  | b :: bs => b + 256 * ofLe bs

/-! ## Streams -/

/-- A `std::istream`: the bytes left and the fail bit. -/
structure IStream where
  data : List Nat
  fail : Bool
  deriving DecidableEq, Repr

/-- `is.read(p, len)` over an object that holds the bytes `old`: nothing on a failed stream;
otherwise as many bytes as there are, and the fail bit if they are too few. -/
def IStream.read (s : IStream) (old : List Nat) : List Nat × IStream :=
  if s.fail then (old, s)
  else
    let got := s.data.take old.length
    (got ++ old.drop got.length, ⟨s.data.drop old.length, decide (got.length < old.length)⟩)

/-- `uint64_t x; is.read((char *)&x, 8); ntoh(x)`: the variable has no value before. -/
def readU64 (s : IStream) : Outcome (Nat × IStream) :=
  let r := s.read (List.replicate 8 0)
  if r.2.fail then ub .uninit else ok (hton 8 (ofLe r.1), r.2)

/-- `const uint64_t x = hton(v); os.write((char *)&x, 8)`. -/
def writeU64 (os : List Nat) (v : Nat) : List Nat := os ++ leBytes 8 (hton 8 v)

/-! ## DArray -/

/-- `DArray<T>::operator<<`, darray.hpp lines 110-120, with `sizeof(T) = w`. -/
def daWrite (w : Nat) (t : Vec Nat) (os : List Nat) : Outcome (List Nat) :=
  forN t.len (fun i os => do
    let x ← t.get i
    ok (os ++ leBytes w (hton w x))) (writeU64 os t.len)

/-- One step of the loop of `DArray<T>::operator>>`, darray.hpp lines 129-130. -/
def daReadStep (w i : Nat) (p : Vec Nat × IStream) : Outcome (Vec Nat × IStream) := do
  let old ← p.1.get i
  let r := p.2.read (leBytes w old)
  let t ← p.1.set i (ofLe r.1)
  let x ← t.get i
  let t' ← t.set i (hton w x)
  ok (t', r.2)

/-- `DArray<T>::operator>>`, darray.hpp lines 122-134: the old array is replaced by a fresh one, which
`mmap` fills with zeros. -/
def daRead (w : Nat) (s : IStream) : Outcome (Vec Nat × IStream) := do
  let (n, s) ← readU64 s
  forN n (daReadStep w) (words n, s)

/-- The bytes of a `DArray<uint8_t>` as an array. -/
def memVec (m : Mem) : Vec Nat := ⟨m.size, m.byte⟩

/-- An array of bytes as a `DArray<uint8_t>`, page-aligned. -/
def vecMem (v : Vec Nat) : Mem := ⟨4096, v.len, v.f⟩

/-- `DArray<T>::page_aligned`, darray.hpp lines 100-106, default pages, with `sizeof(T) = w`. -/
def pageAligned (w size : Nat) : Nat := add64 (4095 ||| sub64 (mul64 size w) 1) 1

/-- `DArray<T>::bitCount`, darray.hpp lines 95-97; `sizeof(DArray<T>)` is 16. -/
def daBitCount (w : Nat) (t : Vec Nat) : Nat := 16 * 8 + pageAligned w t.len * 8

/-! ## The eight classes -/

/-- `operator<<` of the classical classes: fixedf.hpp 102-107, bytef.hpp 130-135, bitf.hpp 143-148,
typef.hpp 200-205. -/
def fWrite (w size : Nat) (t : Vec Nat) (os : List Nat) : Outcome (List Nat) :=
  daWrite w t (writeU64 os size)

/-- The part of `operator<<` of the level-ordered classes before the tree: fixedl.hpp 126-136,
bytel.hpp 138-148, bitl.hpp 132-142, typel.hpp 234-244. -/
def lWriteHead {T : Type} (t : LTree T) (os : List Nat) : Outcome (List Nat) :=
  forN t.levels (fun i os => do
    let x ← t.level.get i
    ok (writeU64 os x)) (writeU64 (writeU64 os t.size) t.levels)

/-- `operator<<`. -/
def Obj.write (os : List Nat) : Obj → Outcome (List Nat)
  | .fixedF t => fWrite 8 t.size t.tree os
  | .byteF t | .bitF t | .typeF t => fWrite 1 t.size (memVec t.tree) os
  | .fixedL t => do daWrite 8 t.tree (← lWriteHead t os)
  | .byteL t | .bitL t => do daWrite 1 (memVec t.tree) (← lWriteHead t os)
  | .typeL t => do
    daWrite 8 t.tree.t64 (← daWrite 2 t.tree.t16 (← daWrite 1 t.tree.t8 (← lWriteHead t os)))

/-- `operator>>` of the classical classes: fixedf.hpp 109-115, bytef.hpp 137-143, bitf.hpp 150-156. -/
def fRead (w : Nat) (s : IStream) : Outcome (FTree (Vec Nat) × IStream) := do
  let (size, s) ← readU64 s
  let (t, s) ← daRead w s
  ok (⟨size, t⟩, s)

/-- `operator>>` of the level-ordered classes: fixedl.hpp 141-158, bytel.hpp 153-170,
bitl.hpp 147-164.  `make_unique` gives a fresh array of zeros. -/
def lRead (w : Nat) (s : IStream) : Outcome (LTree (Vec Nat) × IStream) := do
  let (size, s) ← readU64 s
  let (levels, s) ← readU64 s
  let (level, s) ← forN levels (fun i (p : Vec Nat × IStream) => do
    let (x, s) ← readU64 p.2
    let v ← p.1.set i x
    ok (v, s)) (words levels, s)
  let (t, s) ← daRead w s
  ok (⟨size, levels, level, t⟩, s)

/-- The classes whose `operator>>` compiles. -/
def Kind.streams : Kind → Bool
  | .typeF | .typeL => false
  | _ => true

/-- `operator>>` into an object of class `k`: every member is overwritten, so the old value does not
matter.  No program has the two cases `unsupported`. -/
def Obj.read (k : Kind) (s : IStream) : Outcome (Obj × IStream) :=
  match k with
  | .fixedF => do let (t, s) ← fRead 8 s; ok (.fixedF t, s)
  | .byteF => do let (t, s) ← fRead 1 s; ok (.byteF ⟨t.size, vecMem t.tree⟩, s)
  | .bitF => do let (t, s) ← fRead 1 s; ok (.bitF ⟨t.size, vecMem t.tree⟩, s)
  | .fixedL => do let (t, s) ← lRead 8 s; ok (.fixedL t, s)
  | .byteL => do
    let (t, s) ← lRead 1 s
    ok (.byteL ⟨t.size, t.levels, t.level, vecMem t.tree⟩, s)
  | .bitL => do
    let (t, s) ← lRead 1 s
    ok (.bitL ⟨t.size, t.levels, t.level, vecMem t.tree⟩, s)
  | .typeF | .typeL => ub .unsupported

/-- `sizeof` of each class: the pointer to the virtual table, `Size`, the arrays and, for the
level-ordered classes, `Levels` and `Level`. -/
def Kind.sizeOf : Kind → Nat
  | .fixedF | .byteF | .bitF | .typeF => 32
  | .fixedL | .byteL | .bitL => 48
  | .typeL => 80

/-- `bitCount()`: fixedf.hpp 93-95, bytef.hpp 97-99, bitf.hpp 96-98, typef.hpp 189-191,
fixedl.hpp 120-123, bytel.hpp 130-133, bitl.hpp 126-129, typel.hpp 192-195. -/
def Obj.bitCount : Obj → Nat
  | .fixedF t => sub64 (32 * 8 + daBitCount 8 t.tree) 16
  | .byteF t | .bitF t | .typeF t => sub64 (32 * 8 + daBitCount 1 (memVec t.tree)) 16
  | .fixedL t => add64 (sub64 (48 * 8 + daBitCount 8 t.tree) 16) (mul64 t.levels (8 * 8))
  | .byteL t | .bitL t =>
    add64 (sub64 (48 * 8 + daBitCount 1 (memVec t.tree)) 16) (mul64 t.levels (8 * 8))
  | .typeL t =>
    add64 (sub64 (add64 (sub64 (add64 (sub64 (80 * 8 + daBitCount 1 t.tree.t8) 16)
      (daBitCount 2 t.tree.t16)) 16) (daBitCount 8 t.tree.t64)) 16) (mul64 t.levels (8 * 8))

/-! ## Hybrid -/

/-- `Hybrid::operator<<`, hybrid.hpp lines 89-101.  The bound of the loop is the swapped count. -/
def Hybrid.write (o : Hybrid) (os : List Nat) : Outcome (List Nat) := do
  let nbottom := hton 8 o.forest.len
  let os ← o.top.write (writeU64 os o.size ++ leBytes 8 nbottom)
  forN nbottom (fun i os => do
    let b ← o.forest.get i
    b.write os) os

/-- `readNextBottom`, hybrid.hpp lines 112-116: construct an empty tree and read into it. -/
def readNextBottom (c : HCfg) (s : IStream) : Outcome (Obj × IStream) := do
  let _ ← build c.cfg (words 0) 0 c.bottom
  Obj.read c.bottom s

/-- `uint64_t x; is.read((char *)&x, 8); x`: no change of byte order. -/
def readRaw64 (s : IStream) : Outcome (Nat × IStream) :=
  let r := s.read (List.replicate 8 0)
  if r.2.fail then ub .uninit else ok (ofLe r.1, r.2)

/-- `Hybrid::operator>>`, hybrid.hpp lines 103-123, into `o`.  The first number is read and
never used.  `reserve` succeeds. -/
def Hybrid.read (c : HCfg) (o : Hybrid) (s : IStream) : Outcome (Hybrid × IStream) := do
  let s := (s.read (List.replicate 8 0)).2
  let (nbottom, s) ← readRaw64 s
  let (top, s) ← Obj.read c.top s
  let (forest, s) ← forN nbottom (fun _ (p : Vec Obj × IStream) => do
    let (b, s) ← readNextBottom c p.2
    ok (vecPush p.1 b, s)) (o.forest, s)
  ok (⟨o.size, top, forest⟩, s)

/-- `Hybrid::bitCount`, hybrid.hpp lines 70-76: the size of `Hybrid<BOTTOM, TOP, …>` in bytes, which
has the small class where `Hybrid<TOP, BOTTOM, …>` has the large one; members of `Hybrid` are the
pointer to the virtual table, `BottomSize`, `Size`, `TopFenwick` and a vector of three pointers. -/
def Hybrid.bitCount (c : HCfg) (o : Hybrid) : Outcome Nat := do
  let bottomSize ← forN o.forest.len (fun i a => do
    let b ← o.forest.get i
    ok (add64 a b.bitCount)) 0
  ok (add64 (add64 bottomSize (48 + c.bottom.sizeOf)) o.top.bitCount)

end MRS.Hft
