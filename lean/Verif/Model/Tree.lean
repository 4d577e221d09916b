import Verif.Model.Node

/-!
# The two segment trees

`include/segment_tree/avx2/segment_tree.hpp`, `.../avx2/segment_tree_macros.hpp`,
`include/segment_tree/avx512/segment_tree.hpp`, `.../avx512/segment_tree_macros.hpp`.

Pointers `m_num_nodes_per_level` and `m_ptr` are offsets into `m_data` (`none` = null);
what happens when an object is copied is modelled separately in `Model/Copy.lean`.
-/

set_option autoImplicit false

namespace MRS
open Outcome

/-- What distinguishes `mrs::avx2::segment_tree` from `mrs::avx512::segment_tree` in `build`:
the leaf class, the classes of the levels above it (from the leaf up), the bound in the
debug assertion on the values (avx2 line 80, avx512 line 74). -/
structure Family where
  leaf : NodeCfg
  uppers : List NodeCfg
  maxVal : Nat

/-- avx2/segment_tree.hpp lines 35-55: node128, then twice node64, then node32. -/
def avx2Fam : Family := ⟨avx2Node128, [avx2Node64, avx2Node64, avx2Node32], 512⟩

/-- avx512/segment_tree.hpp lines 34-49: node512, node256, node128. -/
def avx512Fam : Family := ⟨avx512Node512, [avx512Node256, avx512Node128], 256⟩

/-- `segment_tree::height`, avx2/segment_tree.hpp lines 16-22. -/
def avx2Height (n : Nat) : Nat :=
  if n ≤ 2 ^ 7 then 1 else if n ≤ 2 ^ 13 then 2 else if n ≤ 2 ^ 19 then 3
  else if n ≤ 2 ^ 24 then 4 else 0

/-- `segment_tree::height`, avx512/segment_tree.hpp lines 16-21. -/
def avx512Height (n : Nat) : Nat :=
  if n ≤ 2 ^ 9 then 1 else if n ≤ 2 ^ 17 then 2 else if n ≤ 2 ^ 24 then 3 else 0

/-- Data members, avx2/segment_tree.hpp lines 185-189, avx512/segment_tree.hpp 174-178. -/
structure Tree where
  size : Nat            -- m_size (uint32_t)
  num : Option Nat      -- m_num_nodes_per_level
  ptr : Option Nat      -- m_ptr
  mem : Mem             -- m_data

/-- Default constructor, avx2/segment_tree.hpp lines 24-25, avx512 23-24. -/
def Tree.empty : Tree := ⟨0, none, none, ⟨0, 0, fun _ => 0⟩⟩

/-- `std::vector<uint8_t>::resize(total)`: old bytes are kept, new bytes are zero, the
allocator picks the address. -/
def Mem.resize (m : Mem) (addr total : Nat) : Mem :=
  ⟨addr, total, fun a => if a < m.size then m.byte a else 0⟩

/-- `std::ceil(static_cast<double>(m) / fanout)`; exact for `m < 2^53` and `fanout` a power
of two, which holds for every call. -/
def ceilDiv (m f : Nat) : Nat := (m + f - 1) / f

/-- State of the level computation: current `m`, `h`, `num_nodes_per_level`, `total_bytes`. -/
structure LevelSt where
  m : Nat
  h : Nat
  counts : Vec Nat
  total : Nat

/-- One step `m = ceil(m / fanout); num_nodes_per_level[--h] = m; total_bytes += m * bytes`,
avx2/segment_tree.hpp lines 36-38, 42-44, 49-51; avx512 lines 35-37, 39-41, 44-46.
`num_nodes_per_level[-1]` is out of bounds. -/
def levelPush (c : NodeCfg) (s : LevelSt) : Outcome LevelSt :=
  let m := ceilDiv s.m c.fanout
  if s.h = 0 then ub .oob else do
    let counts ← s.counts.set (s.h - 1) (m % 2 ^ 32)
    ok ⟨m, s.h - 1, counts, add64 s.total (mul64 m c.bytes)⟩

/-- The upper levels: `if (m > 1) { ... }` for each class, avx2 lines 40-52, avx512 38-47. -/
def levelUppers : List NodeCfg → LevelSt → Outcome LevelSt
  | [], s => ok s
  | c :: cs, s => do
    let s ← if s.m > 1 then levelPush c s else ok s
    levelUppers cs s

/-- Level sizes, avx2/segment_tree.hpp lines 30-55, avx512 lines 29-49. -/
def levels (b : Build) (fam : Family) (H n : Nat) : Outcome LevelSt := do
  let s ← levelPush fam.leaf ⟨n, H, ⟨H, fun _ => 0⟩, 0⟩
  let s ← levelUppers fam.uppers s
  massert b (decide (s.m = 1))
  ok s

/-- Copying the values of one leaf into `tmp` (which keeps its previous contents beyond the
end of the input), avx2/segment_tree.hpp lines 77-82, avx512 lines 71-76. -/
def fillLeaf (b : Build) (fam : Family) (input : Vec Nat) (n base : Nat) (tmp : Vec Nat) :
    Outcome (Vec Nat) :=
  forN (min fam.leaf.fanout (n - base)) (fun j tmp => do
    let val ← input.get (base + j)
    massert b (decide (val ≤ fam.maxVal))
    tmp.set j val) tmp

/-- The leaf level, avx2/segment_tree.hpp lines 70-87, avx512 lines 64-81. -/
def buildLeaves (b : Build) (fam : Family) (input : Vec Nat) (n begin_ nodes : Nat) (m : Mem) :
    Outcome Mem := do
  let st ← forN nodes (fun i (st : Mem × Vec Nat) => do
    let tmp ← fillLeaf b fam input n (i * fam.leaf.fanout) st.2
    let m ← nodeBuild b fam.leaf tmp (begin_ + i * fam.leaf.bytes) st.1
    ok (m, tmp)) (m, ⟨fam.leaf.fanout, fun _ => 0⟩)
  ok st.1

/-- `sum` of the values of one child, avx2/segment_tree.hpp lines 97-100; accumulated in
`key_type`. -/
def childSum (c : NodeCfg) (input : Vec Nat) (n base step : Nat) : Outcome Nat :=
  forN (min step (n - base)) (fun k s => do
    let v ← input.get (base + k)
    ok ((s + v) % 256 ^ c.keyB)) 0

/-- Values of one inner node: child sums, then shifted right by one,
avx2/segment_tree.hpp lines 96-109. -/
def fillInner (c : NodeCfg) (input : Vec Nat) (n base step : Nat) (tmp : Vec Nat) :
    Outcome (Vec Nat) := do
  let tmp ← forN c.fanout (fun k tmp => do
    let s ← childSum c input n (base + k * step) step
    tmp.set k s) tmp
  let tmp ← forN (c.fanout - 1) (fun t tmp => do
    let v ← tmp.get (c.fanout - 1 - t - 1)
    tmp.set (c.fanout - 1 - t) v) tmp
  tmp.set 0 0

/-- One inner level, avx2/segment_tree.hpp lines 91-114 and 119-141, avx512 lines 84-107,
111-133. -/
def buildInner (b : Build) (c : NodeCfg) (input : Vec Nat) (n begin_ nodes step : Nat) (m : Mem) :
    Outcome Mem := do
  let st ← forN nodes (fun i (st : Mem × Vec Nat) => do
    let tmp ← fillInner c input n (i * (c.fanout * step)) step st.2
    let m ← nodeBuild b c tmp (begin_ + i * c.bytes) st.1
    ok (m, tmp)) (m, ⟨c.fanout, fun _ => 0⟩)
  ok st.1

/-- State of the construction: memory, `begin`, `step`, `h`. -/
structure BuildSt where
  m : Mem
  begin_ : Nat
  step : Nat
  h : Nat

/-- `if (h > 0) { ... }` for each upper class, avx2/segment_tree.hpp lines 89-142,
avx512 lines 83-134. -/
def buildUppers (b : Build) (input : Vec Nat) (n : Nat) (counts : Vec Nat) :
    List NodeCfg → BuildSt → Outcome BuildSt
  | [], s => ok s
  | c :: cs, s => do
    let s ← if s.h > 0 then do
        let nodes ← counts.get (s.h - 1)
        let begin_ := sub64 s.begin_ (mul64 nodes c.bytes)
        let m ← buildInner b c input n begin_ nodes s.step s.m
        ok ⟨m, begin_, mul64 s.step c.fanout, s.h - 1⟩
      else ok s
    buildUppers b input n counts cs s

/-- `segment_tree<H>::build(input, n)`, avx2/segment_tree.hpp lines 27-145, avx512 lines
26-137.  `addr` is the address of the buffer returned by the allocator. -/
def treeBuild (b : Build) (fam : Family) (H addr : Nat) (input : Vec Nat) (n : Nat) (t : Tree) :
    Outcome Tree := do
  massert b (decide (0 < n ∧ n ≤ 2 ^ 24))
  let ls ← levels b fam H n
  let total := add64 ls.total (H * 4)
  let m := t.mem.resize addr total
  let m ← forN H (fun i m => do
    let x ← ls.counts.get i
    store b m (i * 4) 4 x) m
  if H = 0 then ub .oob else do
  let nodes ← ls.counts.get (H - 1)
  let begin_ := sub64 total (mul64 nodes fam.leaf.bytes)
  let m ← buildLeaves b fam input n begin_ nodes m
  let s ← buildUppers b input n ls.counts fam.uppers ⟨m, begin_, fam.leaf.fanout, H - 1⟩
  massert b (decide (s.h = 0))
  ok ⟨n % 2 ^ 32, some 0, some (H * 4), s.m⟩

/-! ## Queries and updates

`base t` is `m_ptr`; `nn b t l` is `m_num_nodes_per_level[l]`. -/

/-- Use of `m_ptr`. -/
def Tree.base (t : Tree) : Outcome Nat :=
  match t.ptr with | some p => ok p | none => ub .nullDeref

/-- `m_num_nodes_per_level[l]`. -/
def Tree.nn (b : Build) (t : Tree) (l : Nat) : Outcome Nat :=
  match t.num with | some p => load b t.mem (p + l * 4) 4 | none => ub .nullDeref

/-- `DYRS_AVX2_SUM_H1`, avx2/segment_tree_macros.hpp lines 3-6. -/
def avx2Sum1 (b : Build) (t : Tree) (i : Nat) : Outcome Nat := do
  let p ← t.base
  nodeSum b avx2Node128 t.mem p i

/-- `DYRS_AVX2_SUM_H2`, lines 8-15. -/
def avx2Sum2 (b : Build) (t : Tree) (i : Nat) : Outcome Nat := do
  let child1 := i / 128
  let child2 := i % 128
  let p ← t.base
  let s1 ← nodeSum b avx2Node64 t.mem p child1
  let s2 ← nodeSum b avx2Node128 t.mem (p + add64 avx2Node64.bytes (mul64 child1 avx2Node128.bytes)) child2
  ok (add64 s1 s2)

/-- `DYRS_AVX2_SUM_H3`, lines 17-29. -/
def avx2Sum3 (b : Build) (t : Tree) (i : Nat) : Outcome Nat := do
  let B1 := 128 * 64
  let child1 := i / B1
  let child2 := (i % B1) / 128
  let child3 := (i % B1) % 128
  let p ← t.base
  let n1 ← t.nn b 1
  let s1 ← nodeSum b avx2Node64 t.mem p child1
  let s2 ← nodeSum b avx2Node64 t.mem (p + mul64 (add64 child1 1) avx2Node64.bytes) child2
  let s3 ← nodeSum b avx2Node128 t.mem
    (p + add64 (mul64 ((1 + n1) % 2 ^ 32) avx2Node64.bytes)
      (mul64 (add64 child2 (mul64 child1 64)) avx2Node128.bytes)) child3
  ok (add64 (add64 s1 s2) s3)

/-- `DYRS_AVX2_SUM_H4`, lines 31-53. -/
def avx2Sum4 (b : Build) (t : Tree) (i : Nat) : Outcome Nat := do
  let B1 := 128 * 64
  let B2 := B1 * 64
  let child1 := i / B2
  let child2 := (i % B2) / B1
  let child3 := (i % B1) / 128
  let child4 := (i % B1) % 128
  let p ← t.base
  let n1 ← t.nn b 1
  let n2 ← t.nn b 2
  let s1 ← nodeSum b avx2Node32 t.mem p child1
  let s2 ← nodeSum b avx2Node64 t.mem
    (p + add64 avx2Node32.bytes (mul64 child1 avx2Node64.bytes)) child2
  let s3 ← nodeSum b avx2Node64 t.mem
    (p + add64 (add64 avx2Node32.bytes (mul64 n1 avx2Node64.bytes))
      (mul64 (add64 child2 (mul64 child1 64)) avx2Node64.bytes)) child3
  let s4 ← nodeSum b avx2Node128 t.mem
    (p + add64 (add64 avx2Node32.bytes (mul64 ((n1 + n2) % 2 ^ 32) avx2Node64.bytes))
      (mul64 (add64 (add64 child3 (mul64 child2 64)) (mul64 (mul64 child1 64) 64))
        avx2Node128.bytes)) child4
  ok (add64 (add64 (add64 s1 s2) s3) s4)

/-- `segment_tree<H>::sum`, avx2/segment_tree.hpp lines 160-166. -/
def avx2Sum (b : Build) (H : Nat) (t : Tree) (i : Nat) : Outcome Nat := do
  massert b (decide (i < t.size))
  match H with
  | 1 => avx2Sum1 b t i
  | 2 => avx2Sum2 b t i
  | 3 => avx2Sum3 b t i
  | 4 => avx2Sum4 b t i
  | _ => ub .unsupported

/-- `DYRS_AVX2_UPDATE_H1`, avx2/segment_tree_macros.hpp lines 55-57. -/
def avx2Update1 (b : Build) (t : Tree) (i : Nat) (sign : Bool) : Outcome Tree := do
  let p ← t.base
  let m ← nodeUpdate b avx2Node128 t.mem p i sign
  ok { t with mem := m }

/-- `DYRS_AVX2_UPDATE_H2`, lines 59-65. -/
def avx2Update2 (b : Build) (t : Tree) (i : Nat) (sign : Bool) : Outcome Tree := do
  let child1 := i / 128
  let child2 := i % 128
  let p ← t.base
  let m ← nodeUpdate b avx2Node64 t.mem p (add64 child1 1) sign
  let m ← nodeUpdate b avx2Node128 m
    (p + add64 avx2Node64.bytes (mul64 child1 avx2Node128.bytes)) child2 sign
  ok { t with mem := m }

/-- `DYRS_AVX2_UPDATE_H3`, lines 67-78. -/
def avx2Update3 (b : Build) (t : Tree) (i : Nat) (sign : Bool) : Outcome Tree := do
  let B1 := 128 * 64
  let child1 := i / B1
  let child2 := (i % B1) / 128
  let child3 := (i % B1) % 128
  let p ← t.base
  let n1 ← t.nn b 1
  let m ← nodeUpdate b avx2Node64 t.mem p (add64 child1 1) sign
  let m ← nodeUpdate b avx2Node64 m (p + mul64 (add64 child1 1) avx2Node64.bytes)
    (add64 child2 1) sign
  let m ← nodeUpdate b avx2Node128 m
    (p + add64 (mul64 ((1 + n1) % 2 ^ 32) avx2Node64.bytes)
      (mul64 (add64 child2 (mul64 child1 64)) avx2Node128.bytes)) child3 sign
  ok { t with mem := m }

/-- `DYRS_AVX2_UPDATE_H4`, lines 80-101. -/
def avx2Update4 (b : Build) (t : Tree) (i : Nat) (sign : Bool) : Outcome Tree := do
  let B1 := 128 * 64
  let B2 := B1 * 64
  let child1 := i / B2
  let child2 := (i % B2) / B1
  let child3 := (i % B1) / 128
  let child4 := (i % B1) % 128
  let p ← t.base
  let n1 ← t.nn b 1
  let n2 ← t.nn b 2
  let m ← nodeUpdate b avx2Node32 t.mem p (add64 child1 1) sign
  let m ← nodeUpdate b avx2Node64 m
    (p + add64 avx2Node32.bytes (mul64 child1 avx2Node64.bytes)) (add64 child2 1) sign
  let m ← nodeUpdate b avx2Node64 m
    (p + add64 (add64 avx2Node32.bytes (mul64 n1 avx2Node64.bytes))
      (mul64 (add64 child2 (mul64 child1 64)) avx2Node64.bytes)) (add64 child3 1) sign
  let m ← nodeUpdate b avx2Node128 m
    (p + add64 (add64 avx2Node32.bytes (mul64 ((n1 + n2) % 2 ^ 32) avx2Node64.bytes))
      (mul64 (add64 (add64 child3 (mul64 child2 64)) (mul64 (mul64 child1 64) 64))
        avx2Node128.bytes)) child4 sign
  ok { t with mem := m }

/-- `segment_tree<H>::update`, avx2/segment_tree.hpp lines 168-176. -/
def avx2Update (b : Build) (H : Nat) (t : Tree) (i : Nat) (sign : Bool) : Outcome Tree := do
  massert b (decide (i < t.size))
  match H with
  | 1 => avx2Update1 b t i sign
  | 2 => avx2Update2 b t i sign
  | 3 => avx2Update3 b t i sign
  | 4 => avx2Update4 b t i sign
  | _ => ub .unsupported

/-- `DYRS_AVX2_SEARCH_H1`, avx2/segment_tree_macros.hpp lines 103-106. -/
def avx2Search1 (b : Build) (t : Tree) (x : Nat) : Outcome (Nat × Nat) := do
  let p ← t.base
  nodeSearch b avx2Node128 t.mem p x

/-- `DYRS_AVX2_SEARCH_H2`, lines 108-115. -/
def avx2Search2 (b : Build) (t : Tree) (x : Nat) : Outcome (Nat × Nat) := do
  let p ← t.base
  let p1 ← nodeSearch b avx2Node64 t.mem p x
  let x := sub64 x p1.2
  let i1 := sub64 p1.1 1
  let p2 ← nodeSearch b avx2Node128 t.mem
    (p + add64 avx2Node64.bytes (mul64 i1 avx2Node128.bytes)) x
  ok (add64 (mul64 i1 128) p2.1, add64 p1.2 p2.2)

/-- `DYRS_AVX2_SEARCH_H3`, lines 117-131. -/
def avx2Search3 (b : Build) (t : Tree) (x : Nat) : Outcome (Nat × Nat) := do
  let p ← t.base
  let p1 ← nodeSearch b avx2Node64 t.mem p x
  let x := sub64 x p1.2
  let i1 := sub64 p1.1 1
  let p2 ← nodeSearch b avx2Node64 t.mem (p + mul64 (add64 i1 1) avx2Node64.bytes) x
  let x := sub64 x p2.2
  let i2 := sub64 p2.1 1
  let n1 ← t.nn b 1
  let p3 ← nodeSearch b avx2Node128 t.mem
    (p + add64 (mul64 ((1 + n1) % 2 ^ 32) avx2Node64.bytes)
      (mul64 (add64 i2 (mul64 i1 64)) avx2Node128.bytes)) x
  ok (add64 (add64 (mul64 (mul64 i1 128) 64) (mul64 i2 128)) p3.1,
      add64 (add64 p1.2 p2.2) p3.2)

/-- `DYRS_AVX2_SEARCH_H4`, lines 133-158. -/
def avx2Search4 (b : Build) (t : Tree) (x : Nat) : Outcome (Nat × Nat) := do
  let p ← t.base
  let p1 ← nodeSearch b avx2Node32 t.mem p x
  let x := sub64 x p1.2
  let i1 := sub64 p1.1 1
  let p2 ← nodeSearch b avx2Node64 t.mem
    (p + add64 avx2Node32.bytes (mul64 i1 avx2Node64.bytes)) x
  let x := sub64 x p2.2
  let i2 := sub64 p2.1 1
  let n1 ← t.nn b 1
  let p3 ← nodeSearch b avx2Node64 t.mem
    (p + add64 (add64 avx2Node32.bytes (mul64 n1 avx2Node64.bytes))
      (mul64 (add64 i2 (mul64 i1 64)) avx2Node64.bytes)) x
  let x := sub64 x p3.2
  let i3 := sub64 p3.1 1
  let n2 ← t.nn b 2
  let p4 ← nodeSearch b avx2Node128 t.mem
    (p + add64 (add64 avx2Node32.bytes (mul64 ((n1 + n2) % 2 ^ 32) avx2Node64.bytes))
      (mul64 (add64 (add64 i3 (mul64 i2 64)) (mul64 (mul64 i1 64) 64)) avx2Node128.bytes)) x
  ok (add64 (add64 (add64 (mul64 (mul64 (mul64 i1 128) 64) 64) (mul64 (mul64 i2 128) 64))
        (mul64 i3 128)) p4.1,
      add64 (add64 (add64 p1.2 p2.2) p3.2) p4.2)

/-- `segment_tree<H>::search`, avx2/segment_tree.hpp lines 178-183. -/
def avx2Search (b : Build) (H : Nat) (t : Tree) (x : Nat) : Outcome (Nat × Nat) :=
  match H with
  | 1 => avx2Search1 b t x
  | 2 => avx2Search2 b t x
  | 3 => avx2Search3 b t x
  | 4 => avx2Search4 b t x
  | _ => ub .unsupported

/-- `DYRS_AVX512_SUM_H1`, avx512/segment_tree_macros.hpp lines 3-6. -/
def avx512Sum1 (b : Build) (t : Tree) (i : Nat) : Outcome Nat := do
  let p ← t.base
  nodeSum b avx512Node512 t.mem p i

/-- `DYRS_AVX512_SUM_H2`, lines 8-15. -/
def avx512Sum2 (b : Build) (t : Tree) (i : Nat) : Outcome Nat := do
  let child1 := i / 512
  let child2 := i % 512
  let p ← t.base
  let s1 ← nodeSum b avx512Node256 t.mem p child1
  let s2 ← nodeSum b avx512Node512 t.mem
    (p + add64 avx512Node256.bytes (mul64 child1 avx512Node512.bytes)) child2
  ok (add64 s1 s2)

/-- `DYRS_AVX512_SUM_H3`, lines 17-30. -/
def avx512Sum3 (b : Build) (t : Tree) (i : Nat) : Outcome Nat := do
  let B1 := 512 * 256
  let child1 := i / B1
  let child2 := (i % B1) / 512
  let child3 := (i % B1) % 512
  let p ← t.base
  let n1 ← t.nn b 1
  let s1 ← nodeSum b avx512Node128 t.mem p child1
  let s2 ← nodeSum b avx512Node256 t.mem
    (p + add64 avx512Node128.bytes (mul64 child1 avx512Node256.bytes)) child2
  let s3 ← nodeSum b avx512Node512 t.mem
    (p + add64 (add64 avx512Node128.bytes (mul64 n1 avx512Node256.bytes))
      (mul64 (add64 child2 (mul64 child1 256)) avx512Node512.bytes)) child3
  ok (add64 (add64 s1 s2) s3)

/-- `segment_tree<H>::sum`, avx512/segment_tree.hpp lines 152-157. -/
def avx512Sum (b : Build) (H : Nat) (t : Tree) (i : Nat) : Outcome Nat := do
  massert b (decide (i < t.size))
  match H with
  | 1 => avx512Sum1 b t i
  | 2 => avx512Sum2 b t i
  | 3 => avx512Sum3 b t i
  | _ => ub .unsupported

/-- `DYRS_AVX512_UPDATE_H1`, avx512/segment_tree_macros.hpp lines 32-34. -/
def avx512Update1 (b : Build) (t : Tree) (i : Nat) (sign : Bool) : Outcome Tree := do
  let p ← t.base
  let m ← nodeUpdate b avx512Node512 t.mem p i sign
  ok { t with mem := m }

/-- `DYRS_AVX512_UPDATE_H2`, lines 36-42. -/
def avx512Update2 (b : Build) (t : Tree) (i : Nat) (sign : Bool) : Outcome Tree := do
  let child1 := i / 512
  let child2 := i % 512
  let p ← t.base
  let m ← nodeUpdate b avx512Node256 t.mem p (add64 child1 1) sign
  let m ← nodeUpdate b avx512Node512 m
    (p + add64 avx512Node256.bytes (mul64 child1 avx512Node512.bytes)) child2 sign
  ok { t with mem := m }

/-- `DYRS_AVX512_UPDATE_H3`, lines 44-56. -/
def avx512Update3 (b : Build) (t : Tree) (i : Nat) (sign : Bool) : Outcome Tree := do
  let B1 := 512 * 256
  let child1 := i / B1
  let child2 := (i % B1) / 512
  let child3 := (i % B1) % 512
  let p ← t.base
  let n1 ← t.nn b 1
  let m ← nodeUpdate b avx512Node128 t.mem p (add64 child1 1) sign
  let m ← nodeUpdate b avx512Node256 m
    (p + add64 avx512Node128.bytes (mul64 child1 avx512Node256.bytes)) (add64 child2 1) sign
  let m ← nodeUpdate b avx512Node512 m
    (p + add64 (add64 avx512Node128.bytes (mul64 n1 avx512Node256.bytes))
      (mul64 (add64 child2 (mul64 child1 256)) avx512Node512.bytes)) child3 sign
  ok { t with mem := m }

/-- `segment_tree<H>::update`, avx512/segment_tree.hpp lines 159-166. -/
def avx512Update (b : Build) (H : Nat) (t : Tree) (i : Nat) (sign : Bool) : Outcome Tree := do
  massert b (decide (i < t.size))
  match H with
  | 1 => avx512Update1 b t i sign
  | 2 => avx512Update2 b t i sign
  | 3 => avx512Update3 b t i sign
  | _ => ub .unsupported

/-- `DYRS_AVX512_SEARCH_H1`, avx512/segment_tree_macros.hpp lines 58-61. -/
def avx512Search1 (b : Build) (t : Tree) (x : Nat) : Outcome (Nat × Nat) := do
  let p ← t.base
  nodeSearch b avx512Node512 t.mem p x

/-- `DYRS_AVX512_SEARCH_H2`, lines 63-70. -/
def avx512Search2 (b : Build) (t : Tree) (x : Nat) : Outcome (Nat × Nat) := do
  let p ← t.base
  let p1 ← nodeSearch b avx512Node256 t.mem p x
  let x := sub64 x p1.2
  let i1 := sub64 p1.1 1
  let p2 ← nodeSearch b avx512Node512 t.mem
    (p + add64 avx512Node256.bytes (mul64 i1 avx512Node512.bytes)) x
  ok (add64 (mul64 i1 512) p2.1, add64 p1.2 p2.2)

/-- `DYRS_AVX512_SEARCH_H3`, lines 72-87. -/
def avx512Search3 (b : Build) (t : Tree) (x : Nat) : Outcome (Nat × Nat) := do
  let p ← t.base
  let p1 ← nodeSearch b avx512Node128 t.mem p x
  let x := sub64 x p1.2
  let i1 := sub64 p1.1 1
  let p2 ← nodeSearch b avx512Node256 t.mem
    (p + add64 avx512Node128.bytes (mul64 i1 avx512Node256.bytes)) x
  let x := sub64 x p2.2
  let i2 := sub64 p2.1 1
  let n1 ← t.nn b 1
  let p3 ← nodeSearch b avx512Node512 t.mem
    (p + add64 (add64 avx512Node128.bytes (mul64 n1 avx512Node256.bytes))
      (mul64 (add64 i2 (mul64 i1 256)) avx512Node512.bytes)) x
  ok (add64 (add64 (mul64 (mul64 i1 512) 256) (mul64 i2 512)) p3.1,
      add64 (add64 p1.2 p2.2) p3.2)

/-- `segment_tree<H>::search`, avx512/segment_tree.hpp lines 168-172. -/
def avx512Search (b : Build) (H : Nat) (t : Tree) (x : Nat) : Outcome (Nat × Nat) :=
  match H with
  | 1 => avx512Search1 b t x
  | 2 => avx512Search2 b t x
  | 3 => avx512Search3 b t x
  | _ => ub .unsupported

/-- `bytes()`, avx2/segment_tree.hpp lines 151-154, avx512 lines 143-146:
`sizeof(m_size) + 2 * sizeof(pointer) + m_data.size() * 1` plus the size field counted by
`essentials::vec_bytes` (external/essentials). -/
def treeBytes (vecOverhead : Nat) (t : Tree) : Nat := 4 + 8 + 8 + (vecOverhead + t.mem.size)

end MRS
