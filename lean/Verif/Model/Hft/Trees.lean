import Verif.Model.Hft.Common

/-!
# Vendored Fenwick trees, part 2: FixedF, FixedL, ByteF, ByteL, BitF, BitL, TypeF and TypeL

Source: include/hft/fenwick/{fixedf,fixedl,bytef,bytel,bitf,bitl,typef,typel}.hpp.

Index 0 is not a node.  The position functions of ByteF, BitF and TypeF compute `idx - 1` on naturals,
so what the code does with index 0 is not described for those three classes (`idx--` wraps there).
-/

set_option autoImplicit false

namespace MRS.Hft
open Outcome

variable {T : Type}

/-- Members of the classical-layout classes: `Size` and `Tree` (fixedf.hpp 21-22, bytef.hpp 21-22,
bitf.hpp 23-24, typef.hpp 21-22). -/
structure FTree (T : Type) where
  size : Nat
  tree : T

/-- Members of the level-ordered classes: `Size`, `Levels`, `Level`, `Tree` (fixedl.hpp 21-23,
bytel.hpp 21-23, bitl.hpp 21-23). -/
structure LTree (T : Type) where
  size : Nat
  levels : Nat
  level : Vec Nat
  tree : T

/-! ## FixedF -/

/-- `FixedF::pos` and `holes`, fixedf.hpp lines 98-100. -/
def fixedFPos (idx : Nat) : Nat := idx + idx >>> 14

/-- `Tree[pos(idx)]`. -/
def fixedFGet (t : Vec Nat) (idx : Nat) : Outcome Nat := t.get (fixedFPos idx)

/-- `Tree[pos(idx)] += inc`. -/
def fixedFInc (t : Vec Nat) (idx inc : Nat) : Outcome (Vec Nat) := do
  let v ← t.get (fixedFPos idx)
  t.set (fixedFPos idx) (add64 v inc)

/-- The constructor, fixedf.hpp lines 25-33. -/
def fixedFBuild (seq : Vec Nat) (size : Nat) : Outcome (FTree (Vec Nat)) := do
  let t ← buildF seq size (fun j v t => t.set (fixedFPos j) v)
    (fun idx right t => do
      let v ← fixedFGet t right
      fixedFInc t idx v)
    (words (fixedFPos size + 1))
  ok ⟨size, t⟩

/-! ## ByteF -/

/-- `ByteF::bytesize`, bytef.hpp line 102. -/
def byteFSize (c : Cfg) (idx : Nat) : Outcome Nat := do
  let r ← rho idx
  ok ((r + c.bs - 1) >>> 3 + 1)

/-- `ByteF::holes`, bytef.hpp lines 104-115. -/
def byteFHoles (c : Cfg) (idx : Nat) : Nat :=
  if c.bs ≥ 32 then 0
  else if c.noTranshuge then idx >>> (18 + (64 - c.bs) % 8) else idx >>> (28 + (64 - c.bs) % 8)

/-- `ByteF::pos`, bytef.hpp lines 117-128.  `MULTIPLIER = 8 - SMALL - 1` wraps when `SMALL = 8`, so
the sum is taken modulo `2^64`. -/
def byteFPos (c : Cfg) (idx : Nat) : Nat :=
  let i := idx - 1
  let nextByte := ((c.bs - 1) ||| 7) + 1
  let small := (c.bs - 1) >>> 3 + 1
  let medium := nextByte - c.bs + 1
  let large := medium + 8
  let multiplier := sub64 8 (small + 1)
  (i * small + i >>> medium + i >>> large * multiplier + byteFHoles c i) % W64

/-- `byteread(&Tree[pos(idx)], bytesize(idx))`. -/
def byteFGet (c : Cfg) (t : Mem) (idx : Nat) : Outcome Nat := do
  let s ← byteFSize c idx
  byteread t (byteFPos c idx) s

/-- `bytewrite(&Tree[pos(idx)], bytesize(idx), v)`. -/
def byteFPut (c : Cfg) (t : Mem) (idx v : Nat) : Outcome Mem := do
  let s ← byteFSize c idx
  bytewrite t (byteFPos c idx) s v

/-- `bytewrite_inc(&Tree[pos(idx)], inc)`, bytef.hpp line 51. -/
def byteFInc (c : Cfg) (t : Mem) (idx inc : Nat) : Outcome Mem := bytewriteInc t (byteFPos c idx) inc

/-- The constructor, bytef.hpp lines 25-36. -/
def byteFBuild (c : Cfg) (seq : Vec Nat) (size : Nat) : Outcome (FTree Mem) := do
  let t ← buildF seq size (fun j v t => byteFPut c t j v)
    (fun idx r t => do
      let left ← byteFGet c t idx
      let right ← byteFGet c t r
      byteFPut c t idx (add64 left right))
    (bytes (byteFPos c (size + 1) + 8))
  ok ⟨size, t⟩

/-! ## BitF -/

/-- Number of ones: `popcount`, common.hpp line 315. -/
def popcount : Nat → Nat → Nat
  | 0, _ => 0
  | fuel + 1, x => x % 2 + popcount fuel (x / 2)

/-- `BitF::holes`, bitf.hpp line 102. -/
def bitFHoles (idx : Nat) : Nat := 1 + idx >>> 14 * 64

/-- `BitF::first_bit_after`, bitf.hpp lines 104-106; also `pos` of lines 111-112 and 126-127. -/
def bitFPos (c : Cfg) (idx : Nat) : Nat := (c.bs + 1) * idx - popcount 64 idx + bitFHoles idx

/-- `BitF::getPartialFrequency`, bitf.hpp lines 108-122. -/
def bitFGet (c : Cfg) (t : Mem) (idx : Nat) : Outcome Nat := do
  let r ← rho idx
  let one ← shl64 c 1 (c.bs + r)
  let mask := sub64 one 1
  let i := idx - 1
  let prod := (c.bs + 1) * i
  let pos := bitFPos c i
  if (prod + (c.bs + 1)) % 64 = 0 then
    let x ← rd8 t (8 * (pos / 64))
    ok (x >>> (pos % 64) &&& mask)
  else
    let x ← rd8 t (pos / 8)
    ok (x >>> (pos % 8) &&& mask)

/-- `BitF::addToPartialFrequency`, bitf.hpp lines 124-141. -/
def bitFInc (c : Cfg) (t : Mem) (idx value : Nat) : Outcome Mem := do
  let i := idx - 1
  let prod := (c.bs + 1) * i
  let pos := bitFPos c i
  if (prod + (c.bs + 1)) % 64 = 0 then
    let x ← rd8 t (8 * (pos / 64))
    wr8 t (8 * (pos / 64)) (add64 x (value <<< (pos % 64) % W64))
  else
    let x ← rd8 t (pos / 8)
    wr8 t (pos / 8) (add64 x (value <<< (pos % 8) % W64))

/-- The constructor, bitf.hpp lines 27-35. -/
def bitFBuild (c : Cfg) (seq : Vec Nat) (size : Nat) : Outcome (FTree Mem) := do
  let t ← buildF seq size (fun j v t => bitFInc c t j v)
    (fun idx r t => do
      let right ← bitFGet c t r
      bitFInc c t idx right)
    (bytes ((bitFPos c size + 56 + 7) >>> 3))
  ok ⟨size, t⟩

/-! ## TypeF -/

/-- Bytes of the type chosen by `switch (bits) { case 17 ... 64: uint64_t; case 9 ... 16: uint16_t;
default: uint8_t }`, e.g. typef.hpp lines 29-38. -/
def typeBytes (bits : Nat) : Nat :=
  if 17 ≤ bits ∧ bits ≤ 64 then 8 else if 9 ≤ bits ∧ bits ≤ 16 then 2 else 1

/-- `TypeF::pos`, typef.hpp lines 194-198. -/
def typeFPos (c : Cfg) (idx : Nat) : Nat :=
  let i := idx - 1
  i + i >>> (if c.bs ≤ 8 then 8 - c.bs + 1 else 0)
    + i >>> (if c.bs ≤ 16 then 16 - c.bs + 1 else 0) * 6

/-- The node as an rvalue: the switch of typef.hpp lines 87-96 (and 135-144, 48-60). -/
def typeFGet (c : Cfg) (t : Mem) (idx : Nat) : Outcome Nat := do
  let r ← rho idx
  load c.build t (typeFPos c idx) (typeBytes (c.bs + r))

/-- The node as the target of `=`: typef.hpp lines 29-38. -/
def typeFPut (c : Cfg) (t : Mem) (idx v : Nat) : Outcome Mem := do
  let r ← rho idx
  store c.build t (typeFPos c idx) (typeBytes (c.bs + r)) v

/-- The node as the target of `+=`: typef.hpp lines 108-117 (and 46-76). -/
def typeFInc (c : Cfg) (t : Mem) (idx inc : Nat) : Outcome Mem := do
  let r ← rho idx
  let v ← load c.build t (typeFPos c idx) (typeBytes (c.bs + r))
  store c.build t (typeFPos c idx) (typeBytes (c.bs + r)) (v + inc)

/-- The constructor, typef.hpp lines 25-79.  In the inner switch of lines 46-76 a node of 2 bytes is
never given a right child of 8 bytes, nor one of 1 byte a child of more, because the right child has
a smaller height; the three-by-three switch is therefore the product of the two switches. -/
def typeFBuild (c : Cfg) (seq : Vec Nat) (size : Nat) : Outcome (FTree Mem) := do
  let t ← buildF seq size (fun j v t => typeFPut c t j v)
    (fun idx r t => do
      let right ← typeFGet c t r
      typeFInc c t idx right)
    (bytes (typeFPos c (size + 1)))
  ok ⟨size, t⟩

/-! ## Level-ordered classes -/

/-- The address computation `Level[height] + k * hsize(height)`. -/
def lpos (hsize : Nat → Nat) (level : Vec Nat) (h k : Nat) : Outcome Nat := do
  let s ← level.get h
  ok (s + k * hsize h)

/-- Node `idx` of a level-ordered tree: `height = rho(idx)`, index `idx >> (1 + height)` in its
level (e.g. fixedl.hpp 52-54). -/
def byHeight {α : Type} (f : Nat → Nat → Outcome α) (idx : Nat) : Outcome α := do
  let h ← rho idx
  f h (idx >>> (1 + h))

/-- The test `pos >= Level[height + 1]` and the value (e.g. fixedl.hpp 77-84). -/
def probeL (hsize : Nat → Nat) (level : Vec Nat) (read : Nat → Nat → Outcome Nat) (h k : Nat) :
    Outcome (Option Nat) := do
  let pos ← lpos hsize level h k
  let e ← level.get (h + 1)
  if pos ≥ e then ok none
  else do
    let v ← read h k
    ok (some v)

/-- `FixedL`: `Tree[Level[h] + k]`. -/
def fixedLGet (level : Vec Nat) (t : Vec Nat) (h k : Nat) : Outcome Nat := do
  let p ← lpos (fun _ => 1) level h k
  t.get p

/-- `FixedL`: `Tree[Level[h] + k] = v`, fixedl.hpp line 43. -/
def fixedLPut (level : Vec Nat) (t : Vec Nat) (h k v : Nat) : Outcome (Vec Nat) := do
  let p ← lpos (fun _ => 1) level h k
  t.set p v

/-- `FixedL`: `Tree[Level[h] + k] += inc`, fixedl.hpp line 66. -/
def fixedLInc (level : Vec Nat) (inc : Nat) (t : Vec Nat) (h k : Nat) : Outcome (Vec Nat) := do
  let p ← lpos (fun _ => 1) level h k
  let v ← t.get p
  t.set p (add64 v inc)

/-- The constructor, fixedl.hpp lines 26-46. -/
def fixedLBuild (seq : Vec Nat) (size : Nat) : Outcome (LTree (Vec Nat)) := do
  let levels ← levelsOf size
  let level ← levelStarts (fun _ => 1) size levels
  let len ← level.get (levels - 1)
  let t ← buildL seq size levels (fixedLGet level) (fixedLPut level) (words len)
  ok ⟨size, levels, level, t⟩

/-- `ByteL::heightsize`, bytel.hpp line 136. -/
def byteLSize (c : Cfg) (h : Nat) : Nat := (h + c.bs - 1) >>> 3 + 1

/-- `ByteL`: `byteread(&Tree[pos], heightsize(h))`. -/
def byteLGet (c : Cfg) (level : Vec Nat) (t : Mem) (h k : Nat) : Outcome Nat := do
  let p ← lpos (byteLSize c) level h k
  byteread t p (byteLSize c h)

/-- `ByteL`: `bytewrite(&Tree[highpos], heightsize(l), value)`, bytel.hpp 46-47. -/
def byteLPut (c : Cfg) (level : Vec Nat) (t : Mem) (h k v : Nat) : Outcome Mem := do
  let p ← lpos (byteLSize c) level h k
  bytewrite t p (byteLSize c h) v

/-- `ByteL`: `bytewrite_inc(&Tree[pos], inc)`, bytel.hpp 69-73. -/
def byteLInc (c : Cfg) (level : Vec Nat) (inc : Nat) (t : Mem) (h k : Nat) : Outcome Mem := do
  let p ← lpos (byteLSize c) level h k
  bytewriteInc t p inc

/-- The constructor, bytel.hpp lines 26-50. -/
def byteLBuild (c : Cfg) (seq : Vec Nat) (size : Nat) : Outcome (LTree Mem) := do
  let levels ← levelsOf size
  let level ← levelStarts (byteLSize c) size levels
  let len ← level.get (levels - 1)
  let t ← buildL seq size levels (byteLGet c level) (byteLPut c level) (bytes (len + 8))
  ok ⟨size, levels, level, t⟩

/-- `BitL`: bits of a node of height `h`, bitl.hpp line 30 (`BOUNDSIZE - 1 + i` with `i = h + 1`). -/
def bitLSize (c : Cfg) (h : Nat) : Nat := c.bs + h

/-- `BitL`: `bitread(&Tree[pos / 8], pos % 8, BOUNDSIZE + h)`. -/
def bitLGet (c : Cfg) (level : Vec Nat) (t : Mem) (h k : Nat) : Outcome Nat := do
  let p ← lpos (bitLSize c) level h k
  bitread c t (p / 8) (p % 8) (bitLSize c h)

/-- `BitL`: `bitwrite_inc(&Tree[pos / 8], pos % 8, BOUNDSIZE + h, inc)`, bitl.hpp 45-46, 68-69. -/
def bitLInc (c : Cfg) (level : Vec Nat) (inc : Nat) (t : Mem) (h k : Nat) : Outcome Mem := do
  let p ← lpos (bitLSize c) level h k
  bitwriteInc c t (p / 8) (p % 8) (bitLSize c h) inc

/-- The constructor, bitl.hpp lines 26-49. -/
def bitLBuild (c : Cfg) (seq : Vec Nat) (size : Nat) : Outcome (LTree Mem) := do
  let levels ← levelsOf size
  let level ← levelStarts (bitLSize c) size levels
  let len ← level.get (levels - 1)
  let t ← buildL seq size levels (bitLGet c level)
    (fun t h k v => bitLInc c level v t h k) (bytes (len >>> 3 + 8))
  ok ⟨size, levels, level, t⟩

/-! ## TypeL -/

/-- `Tree8`, `Tree16` and `Tree64`, typel.hpp lines 24-26. -/
structure Three where
  t8 : Vec Nat
  t16 : Vec Nat
  t64 : Vec Nat

/-- The array of elements of the given number of bytes. -/
def Three.arr (t : Three) (b : Nat) : Vec Nat := if b = 8 then t.t64 else if b = 2 then t.t16 else t.t8

/-- `TreeX[p]`, the switch of typel.hpp lines 78-87. -/
def Three.get (c : Cfg) (t : Three) (h p : Nat) : Outcome Nat := (t.arr (typeBytes (c.bs + h))).get p

/-- `TreeX[p] = v`; the value is cut to the element type. -/
def Three.set (c : Cfg) (t : Three) (h p v : Nat) : Outcome Three := do
  let b := typeBytes (c.bs + h)
  let a ← (t.arr b).set p (v % 256 ^ b)
  ok (if b = 8 then { t with t64 := a } else if b = 2 then { t with t16 := a } else { t with t8 := a })

/-- The loop filling `Level` and `typeEnd`, typel.hpp lines 31-42.  `8 - BOUNDSIZE` wraps when
`BOUNDSIZE > 8`, and then never equals `i - 1`.  State: `Level`, `typeEnd`, `j`. -/
def typeLLevels (c : Cfg) (size levels : Nat) : Outcome (Vec Nat × Vec Nat × Nat) :=
  forFrom 1 (levels - 1) (fun i (p : Vec Nat × Vec Nat × Nat) => do
    let prev ← p.1.get (i - 1)
    let x := (size + 1 <<< (i - 1)) / (1 <<< i) + prev
    let ends ← p.2.1.set p.2.2 x
    if c.bs ≤ 8 ∧ i - 1 = 8 - c.bs ∨ c.bs ≤ 16 ∧ i - 1 = 16 - c.bs then
      let l ← p.1.set i 0
      ok (l, ends, p.2.2 + 1)
    else
      let l ← p.1.set i x
      ok (l, ends, p.2.2))
    (words levels, words 3, if c.bs ≤ 8 then 0 else if c.bs ≤ 16 then 1 else 2)

/-- The allocation, typel.hpp lines 44-51: the cases fall through. -/
def typeLAlloc (c : Cfg) (levels : Nat) (ends : Vec Nat) : Outcome Three := do
  let e8 ← ends.get 0
  let e16 ← ends.get 1
  let e64 ← ends.get 2
  let v := levels + c.bs - 1
  if 17 ≤ v ∧ v ≤ 64 then ok ⟨words e8, words e16, words e64⟩
  else if 9 ≤ v ∧ v ≤ 16 then ok ⟨words e8, words e16, words 0⟩
  else ok ⟨words e8, words 0, words 0⟩

/-- `TypeL`: `TreeX[Level[h] + k]`. -/
def typeLGet (c : Cfg) (level : Vec Nat) (t : Three) (h k : Nat) : Outcome Nat := do
  let p ← lpos (fun _ => 1) level h k
  t.get c h p

/-- `TypeL`: `tree[Level[l] + (node >> (l + 1))] = value`, typel.hpp line 228. -/
def typeLPut (c : Cfg) (level : Vec Nat) (t : Three) (h k v : Nat) : Outcome Three := do
  let p ← lpos (fun _ => 1) level h k
  t.set c h p v

/-- `TypeL`: `TreeX[tree_idx] += inc`, typel.hpp lines 101-110. -/
def typeLInc (c : Cfg) (level : Vec Nat) (inc : Nat) (t : Three) (h k : Nat) : Outcome Three := do
  let p ← lpos (fun _ => 1) level h k
  let v ← t.get c h p
  t.set c h p (v + inc)

/-- The constructor, typel.hpp lines 29-68 and `fillTree`, 198-231.  The calls of `fillTree` visit the
levels in order, so they are one loop; `value` has the type of the level and wraps on every `+=`,
here it is cut once when it is stored, which is the same; the four inner loops over `j` are one. -/
def typeLBuild (c : Cfg) (seq : Vec Nat) (size : Nat) : Outcome (LTree Three) := do
  let levels ← levelsOf size
  let r ← typeLLevels c size levels
  let t0 ← typeLAlloc c levels r.2.1
  let t ← buildL seq size levels (typeLGet c r.1) (typeLPut c r.1) t0
  ok ⟨size, levels, r.1, t⟩

/-- The test `tree_idx >= TreeX.size()` and the value, typel.hpp lines 126-141 and 163-178. -/
def probeT (c : Cfg) (level : Vec Nat) (t : Three) (read : Nat → Nat → Outcome Nat) (h k : Nat) :
    Outcome (Option Nat) := do
  let p ← lpos (fun _ => 1) level h k
  if p ≥ (t.arr (typeBytes (c.bs + h))).len then ok none
  else do
    let v ← read h k
    ok (some v)

/-! ## The virtual interface (fenwick_tree.hpp lines 18-80) -/

/-- A tree object of one of the eight classes. -/
inductive Obj
  | fixedF (t : FTree (Vec Nat))
  | byteF (t : FTree Mem)
  | bitF (t : FTree Mem)
  | typeF (t : FTree Mem)
  | fixedL (t : LTree (Vec Nat))
  | byteL (t : LTree Mem)
  | bitL (t : LTree Mem)
  | typeL (t : LTree Three)

/-- The class of an object. -/
inductive Kind
  | fixedF | byteF | bitF | typeF | fixedL | byteL | bitL | typeL
  deriving DecidableEq, Repr

/-- Construction `C(sequence, size)`. -/
def build (c : Cfg) (seq : Vec Nat) (size : Nat) : Kind → Outcome Obj
  | .fixedF => do ok (.fixedF (← fixedFBuild seq size))
  | .byteF => do ok (.byteF (← byteFBuild c seq size))
  | .bitF => do ok (.bitF (← bitFBuild c seq size))
  | .typeF => do ok (.typeF (← typeFBuild c seq size))
  | .fixedL => do ok (.fixedL (← fixedLBuild seq size))
  | .byteL => do ok (.byteL (← byteLBuild c seq size))
  | .bitL => do ok (.bitL (← bitLBuild c seq size))
  | .typeL => do ok (.typeL (← typeLBuild c seq size))

/-- `size()`. -/
def Obj.size : Obj → Nat
  | .fixedF t | .byteF t | .bitF t | .typeF t => t.size
  | .fixedL t | .byteL t | .bitL t => t.size
  | .typeL t => t.size

/-- The value of node `idx` as read by `prefix`. -/
def Obj.node (c : Cfg) : Obj → Nat → Outcome Nat
  | .fixedF t => fixedFGet t.tree
  | .byteF t => byteFGet c t.tree
  | .bitF t => bitFGet c t.tree
  | .typeF t => typeFGet c t.tree
  | .fixedL t => byHeight (fixedLGet t.level t.tree)
  | .byteL t => byHeight (byteLGet c t.level t.tree)
  | .bitL t => byHeight (bitLGet c t.level t.tree)
  | .typeL t => byHeight (typeLGet c t.level t.tree)

/-- `prefix(idx)`. -/
def Obj.prefix (c : Cfg) (o : Obj) (idx : Nat) : Outcome Nat := prefixLoop (o.node c) 65 idx 0

/-- `add(idx, inc)`; `inc` as `uint64_t`. -/
def Obj.add (c : Cfg) (o : Obj) (idx inc : Nat) : Outcome Obj :=
  match o with
  | .fixedF t => do
    let v ← addLoop t.size (fun v i => fixedFInc v i inc) 65 idx t.tree
    ok (.fixedF ⟨t.size, v⟩)
  | .byteF t => do
    let v ← addLoop t.size (fun v i => byteFInc c v i inc) 65 idx t.tree
    ok (.byteF ⟨t.size, v⟩)
  | .bitF t => do
    let v ← addLoop t.size (fun v i => bitFInc c v i inc) 65 idx t.tree
    ok (.bitF ⟨t.size, v⟩)
  | .typeF t => do
    let v ← addLoop t.size (fun v i => typeFInc c v i inc) 65 idx t.tree
    ok (.typeF ⟨t.size, v⟩)
  | .fixedL t => do
    let v ← addLoop t.size (fun v => byHeight (fixedLInc t.level inc v)) 65 idx t.tree
    ok (.fixedL ⟨t.size, t.levels, t.level, v⟩)
  | .byteL t => do
    let v ← addLoop t.size (fun v => byHeight (byteLInc c t.level inc v)) 65 idx t.tree
    ok (.byteL ⟨t.size, t.levels, t.level, v⟩)
  | .bitL t => do
    let v ← addLoop t.size (fun v => byHeight (bitLInc c t.level inc v)) 65 idx t.tree
    ok (.bitL ⟨t.size, t.levels, t.level, v⟩)
  | .typeL t => do
    let v ← addLoop t.size (fun v => byHeight (typeLInc c t.level inc v)) 65 idx t.tree
    ok (.typeL ⟨t.size, t.levels, t.level, v⟩)

/-- A history of `add`s. -/
def Obj.adds (c : Cfg) : List (Nat × Int) → Obj → Outcome Obj
  | [], o => ok o
  | op :: ops, o => do
    let o' ← o.add c op.1 (u64 op.2)
    Obj.adds c ops o'

/-- `find(&val)` of the classical layouts, with the value of a node given. -/
def findF (size : Nat) (value : Nat → Outcome Nat) (val : Nat) : Outcome (Nat × Nat) := do
  let m ← maskLambda size
  findLoop size value 65 m 0 val

/-- `find(&val)` of the level-ordered layouts: `return min(node, Size)`. -/
def findL (size levels : Nat) (probe : Nat → Nat → Outcome (Option Nat)) (val : Nat) :
    Outcome (Nat × Nat) := do
  let r ← findLevels probe (levels - 1) 0 0 val
  ok (min r.1 size, r.2)

/-- `find(&val)`: the index and the new `val`. -/
def Obj.find (c : Cfg) (o : Obj) (val : Nat) : Outcome (Nat × Nat) :=
  match o with
  | .fixedF t => findF t.size (o.node c) val
  | .byteF t => findF t.size (o.node c) val
  | .bitF t => findF t.size (o.node c) val
  | .typeF t => findF t.size (o.node c) val
  | .fixedL t => findL t.size t.levels (probeL (fun _ => 1) t.level (fixedLGet t.level t.tree)) val
  | .byteL t =>
    findL t.size t.levels (probeL (byteLSize c) t.level (byteLGet c t.level t.tree)) val
  | .bitL t =>
    findL t.size t.levels (probeL (bitLSize c) t.level (bitLGet c t.level t.tree)) val
  | .typeL t =>
    findL t.size t.levels (probeT c t.level t.tree (typeLGet c t.level t.tree)) val

/-- `(BOUND << height) - value`, e.g. fixedf.hpp line 80. -/
def comp (c : Cfg) (h v : Nat) : Nat := sub64 (c.bound <<< h % W64) v

/-- The value compared by `compFind` in the classical layouts. -/
def compNode (c : Cfg) (node : Nat → Outcome Nat) (idx : Nat) : Outcome Nat := do
  let h ← rho idx
  let v ← node idx
  ok (comp c h v)

/-- The value compared by `compFind` in the level-ordered layouts. -/
def compLevel (c : Cfg) (read : Nat → Nat → Outcome Nat) (h k : Nat) : Outcome Nat := do
  let v ← read h k
  ok (comp c h v)

/-- `compFind(&val)`: fixedf.hpp 73-89, bytef.hpp 76-93, bitf.hpp 75-92, typef.hpp 156-185,
fixedl.hpp 96-116, bytel.hpp 104-126, bitl.hpp 100-122, typel.hpp 154-188. -/
def Obj.compFind (c : Cfg) (o : Obj) (val : Nat) : Outcome (Nat × Nat) :=
  match o with
  | .fixedF t => findF t.size (compNode c (o.node c)) val
  | .byteF t => findF t.size (compNode c (o.node c)) val
  | .bitF t => findF t.size (compNode c (o.node c)) val
  | .typeF t => findF t.size (compNode c (o.node c)) val
  | .fixedL t =>
    findL t.size t.levels (probeL (fun _ => 1) t.level (compLevel c (fixedLGet t.level t.tree))) val
  | .byteL t => findL t.size t.levels
      (probeL (byteLSize c) t.level (compLevel c (byteLGet c t.level t.tree))) val
  | .bitL t => findL t.size t.levels
      (probeL (bitLSize c) t.level (compLevel c (bitLGet c t.level t.tree))) val
  | .typeL t => findL t.size t.levels
      (probeT c t.level t.tree (compLevel c (typeLGet c t.level t.tree))) val

end MRS.Hft
