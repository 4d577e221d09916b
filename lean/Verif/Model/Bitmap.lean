import Verif.Model.Tree
import Verif.Model.Block

/-!
# `mutable_bitmap`

`include/mutable_bitmap.hpp`, instantiated with one of the two segment trees.
-/

set_option autoImplicit false

namespace MRS
open Outcome

/-- The two namespaces `mrs::avx2` and `mrs::avx512`. -/
inductive TreeFam
  | avx2 | avx512
  deriving DecidableEq, Repr

namespace TreeFam

/-- Node classes used by `build`. -/
def family : TreeFam → Family
  | .avx2 => avx2Fam | .avx512 => avx512Fam

/-- `segment_tree::height`, avx2/segment_tree.hpp 16-22, avx512 16-21. -/
def height : TreeFam → Nat → Nat
  | .avx2 => avx2Height | .avx512 => avx512Height

/-- `segment_tree<H>::sum`. -/
def sum : TreeFam → Build → Nat → Tree → Nat → Outcome Nat
  | .avx2 => avx2Sum | .avx512 => avx512Sum

/-- `segment_tree<H>::update`. -/
def update : TreeFam → Build → Nat → Tree → Nat → Bool → Outcome Tree
  | .avx2 => avx2Update | .avx512 => avx512Update

/-- `segment_tree<H>::search`. -/
def search : TreeFam → Build → Nat → Tree → Nat → Outcome (Nat × Nat)
  | .avx2 => avx2Search | .avx512 => avx512Search

end TreeFam

/-- An instance `mutable_bitmap<fam::segment_tree<H>, blk>` compiled with flags `b`. -/
structure Config where
  b : Build
  fam : TreeFam
  H : Nat
  blk : BlockType

/-- Data members, mutable_bitmap.hpp lines 96-98. -/
structure Bitmap where
  index : Tree
  bits : Vec Word

/-- A default-constructed bitmap, mutable_bitmap.hpp line 17. -/
def Bitmap.empty : Bitmap := ⟨Tree.empty, ⟨0, fun _ => 0#64⟩⟩

/-- `std::vector<uint64_t>::resize(n, 0)`: existing words are kept. -/
def resizeWords (v : Vec Word) (n : Nat) : Vec Word :=
  ⟨n, fun j => if j < v.len then v.f j else 0#64⟩

/-- `std::memcpy(m_bits.data(), in, nw * 8)`, mutable_bitmap.hpp line 27. -/
def copyWords (dst src : Vec Word) (nw : Nat) : Outcome (Vec Word) :=
  if nw ≤ src.len ∧ nw ≤ dst.len then
    ok ⟨dst.len, fun j => if j < nw then src.f j else dst.f j⟩
  else ub .oob

/-- One block: `val = 0; for (j ...) val += popcount(m_bits[i + j]); assert(val <= block_size)`
with `uint16_t val`, mutable_bitmap.hpp lines 29-33; `i = words_in_block * blk`. -/
def blockVal (c : Config) (v : Vec Word) (i : Nat) : Outcome Nat := do
  let val ← forN c.blk.width.words (fun j val => do
    let w ← v.get (i + j)
    ok ((val + popcnt w) % 2 ^ 16)) 0
  massert c.b (decide (val ≤ c.blk.width.bits))
  ok val

/-- The loop over the blocks, mutable_bitmap.hpp lines 28-35; `push_back` appends. -/
def blockVals (c : Config) (v : Vec Word) (numBlocks : Nat) : Outcome (Vec Nat) :=
  forN numBlocks (fun q (acc : Vec Nat) => do
    let val ← blockVal c v (c.blk.width.words * q)
    ok ⟨acc.len + 1, fun j => if j = acc.len then val else acc.f j⟩) ⟨0, fun _ => 0⟩

/-- `build(in, num_64bit_words)`, mutable_bitmap.hpp lines 19-37.  `addr` is the address at which
the index buffer ends up.  `std::ceil(double / words_in_block)` is exact below `2^53`. -/
def bmBuild (c : Config) (addr : Nat) (input : Vec Word) (nw : Nat) (bm : Bitmap) :
    Outcome Bitmap := do
  massert c.b (decide (mul64 nw 64 ≤ 2 ^ 24 * c.blk.width.bits))
  let numBlocks := ceilDiv nw c.blk.width.words
  let bits := resizeWords bm.bits (mul64 c.blk.width.words numBlocks)
  let bits ← copyWords bits input nw
  let vals ← blockVals c bits (bits.len / c.blk.width.words)
  let index ← treeBuild c.b c.fam.family c.H addr vals vals.len bm.index
  ok ⟨index, bits⟩

/-- `size()`, mutable_bitmap.hpp lines 46-48. -/
def bmSize (bm : Bitmap) : Nat := mul64 (mul64 bm.bits.len 8) 8

/-- `bytes()`, mutable_bitmap.hpp lines 50-52. -/
def bmBytes (vecOverhead : Nat) (bm : Bitmap) : Nat := treeBytes vecOverhead bm.index + bmSize bm / 8

/-- `access(i)`, mutable_bitmap.hpp lines 58-68.  `bt` on a register operand takes the bit index
modulo 64; `sbb r,r` turns the carry into 0 or -1, converted to `bool`. -/
def bmAccess (c : Config) (bm : Bitmap) (i : Nat) : Outcome Bool := do
  massert c.b (decide (i < bmSize bm))
  let w ← bm.bits.get (i / 64)
  ok (w.getLsbD (i % 64))

/-- `flip(i)`, mutable_bitmap.hpp lines 70-78. -/
def bmFlip (c : Config) (bm : Bitmap) (i : Nat) : Outcome Bitmap := do
  massert c.b (decide (i < bmSize bm))
  let bit ← bmAccess c bm i
  let w ← bm.bits.get (i / 64)
  let one ← shl64 1#64 (i % 64)
  let bits ← bm.bits.set (i / 64) (w ^^^ one)
  let index ← c.fam.update c.b c.H bm.index (i / c.blk.width.bits) bit
  ok ⟨index, bits⟩

/-- `&m_bits[j]`: indexing past the end is undefined. -/
def Vec.ptr (v : Vec Word) (j : Nat) : Outcome Ptr := do
  let _ ← v.get j
  ok ⟨v, j⟩

/-- `rank(i)`, mutable_bitmap.hpp lines 80-86; `block_size` is a power of two, so
`i & (block_size - 1)` is the remainder. -/
def bmRank (c : Config) (g : Scratch) (bm : Bitmap) (i : Nat) : Outcome Nat := do
  massert c.b (decide (i < bmSize bm))
  let block := i / c.blk.width.bits
  let offset := i % c.blk.width.bits
  let s ← (if block ≠ 0 then c.fam.sum c.b c.H bm.index (block - 1) else ok 0)
  let p ← bm.bits.ptr (mul64 c.blk.width.words block)
  let r ← c.blk.rank c.b g p offset
  ok (add64 s r)

/-- `select(i)`, mutable_bitmap.hpp lines 88-94. -/
def bmSelect (c : Config) (g : Scratch) (bm : Bitmap) (i : Nat) : Outcome Nat := do
  massert c.b (decide (i < bmSize bm))
  let q ← c.fam.search c.b c.H bm.index i
  let offset := sub64 i q.2
  let p ← bm.bits.ptr (mul64 c.blk.width.words q.1)
  let r ← c.blk.select c.b g p offset
  ok (add64 (mul64 c.blk.width.bits q.1) r)

end MRS
