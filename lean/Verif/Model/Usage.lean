import Verif.Spec
import Verif.Model.Bitmap

/-!
# Preconditions of the public interface

What a caller of `mutable_bitmap` has to respect, and the execution of sequences of calls.
-/

set_option autoImplicit false

namespace MRS
open Outcome Spec

/-- Alignment required of the first node, which lies at `data + 4 * Height`
(include/segment_tree/avx2/segment_tree.hpp line 64, avx512/segment_tree.hpp line 58): 32 for the `_mm256_load_si256` of avx2/node128.hpp line 57,
8 for the 64-bit summaries of avx2/node32.hpp and avx512/node128.hpp, else 4. -/
def TreeFam.need (fam : TreeFam) (b : Build) (H : Nat) : Nat :=
  match fam with
  | .avx2 => if b.simd2 then 32 else if H = 4 then 8 else 4
  | .avx512 => if H = 3 then 8 else 4

/-- `build(in, nw)` is a valid call on `mutable_bitmap<fam::segment_tree<H>, blk>` when the index
buffer is placed at `addr`. -/
structure Config.Valid (c : Config) (addr nw : Nat) : Prop where
  /-- the block type uses implemented modes (types.hpp) -/
  sup : c.blk.Supported
  /-- at least one word -/
  some : 0 < nw
  /-- the size assertion, mutable_bitmap.hpp line 20 -/
  fits : nw * 64 ≤ 2 ^ 24 * c.blk.width.bits
  /-- the template height is the one chosen by `height(num_blocks)` -/
  height : c.H = c.fam.height (ceilDiv nw c.blk.width.words)
  /-- only when misaligned accesses count as undefined behaviour -/
  align : c.b.strictAlign = true → (addr + 4 * c.H) % c.fam.need c.b c.H = 0

/-- In debug builds no block of the bitmap being built may hold more ones than the assertion on the
values allows: 512 (avx2/segment_tree.hpp line 80) or 256 (avx512/segment_tree.hpp line 74).  `R`
is the content that `build` leaves.  Only `avx512` trees over 512-bit blocks are concerned. -/
def Config.DebugOK (c : Config) (R : List Bool) : Prop :=
  c.b.ndebug = true ∨ ∀ q,
    ones R (c.blk.width.bits * (q + 1)) ≤ ones R (c.blk.width.bits * q) + c.fam.family.maxVal

/-- Domain of `select`: for the `avx2` tree of height 4 with SIMD code over 512-bit blocks the
number of ones must stay below `2^31`. -/
def Config.SelectSafe (c : Config) (ones : Nat) : Prop :=
  c.fam = .avx2 → c.H = 4 → c.b.simd2 = true → c.blk.width.bits ≤ 256 ∨ ones < 2 ^ 31

/-- The ranks `x` at which the signed 32-bit comparisons of avx2/node32.hpp lines 85-97 go wrong;
`P q` is the sum of the first `q` values, a child of the root covers `2^19` values.  Either the
eight children whose keys share a segment hold `2^31` together and `x` falls into the last of
them, or `x` lies `2^31` or more behind the first child of the last segment. -/
def BadRank (P : Nat → Nat) (x : Nat) : Prop :=
  (∃ s, 1 ≤ s ∧ s ≤ 3 ∧ P ((8 * s + 7) * 524288) = P ((8 * s - 1) * 524288) + 2 ^ 31 ∧
    P ((8 * s + 6) * 524288) ≤ x ∧ x < P ((8 * s + 7) * 524288)) ∨ P (23 * 524288) + 2 ^ 31 ≤ x

/-- `search(x)` goes wrong. -/
def TreeFam.SearchBad (fam : TreeFam) (b : Build) (H : Nat) (P : Nat → Nat) (x : Nat) : Prop :=
  fam = .avx2 ∧ H = 4 ∧ b.simd2 = true ∧ BadRank P x

/-- `select(k)` goes wrong on a bitmap with bits `B`. -/
def Config.SelectBad (c : Config) (B : List Bool) (k : Nat) : Prop :=
  c.fam.SearchBad c.b c.H (fun q => ones B (c.blk.width.bits * q)) k

/-- One mutating call. -/
def Config.step (c : Config) (bm : Bitmap) : Op → Outcome Bitmap
  | .build addr ws => bmBuild c addr (Vec.ofList ws) ws.length bm
  | .flip i => bmFlip c bm i

/-- A sequence of mutating calls. -/
def Config.exec (c : Config) : Bitmap → List Op → Outcome Bitmap
  | bm, [] => ok bm
  | bm, o :: os => do
    let bm ← c.step bm o
    c.exec bm os

/-- A call is valid on an object whose logical content is `B`. -/
def Config.OpOK (c : Config) (B : List Bool) : Op → Prop
  | .build addr ws => c.Valid addr ws.length ∧ c.DebugOK (rebuilt c.blk.width.bits B ws)
  | .flip i => i < B.length

/-- All calls of a sequence are valid when made. -/
def Config.OpsOK (c : Config) : List Bool → List Op → Prop
  | _, [] => True
  | B, o :: os => c.OpOK B o ∧ c.OpsOK (o.apply c.blk.width.bits B) os

/-- A valid life of one object. -/
def Config.Life (c : Config) (ops : List Op) : Prop := c.OpsOK [] ops

/-- The object after its life so far. -/
def Config.run (c : Config) (ops : List Op) : Outcome Bitmap := c.exec Bitmap.empty ops

/-- Its logical content. -/
def Config.logical (c : Config) (ops : List Op) : List Bool := history c.blk.width.bits ops

/-- `build` followed by flips. -/
def buildFlips (addr : Nat) (ws : List Word) (is : List Nat) : List Op :=
  .build addr ws :: is.map .flip

/-! ## Segment trees on their own -/

/-- `build(vals, n)` is a valid call on `fam::segment_tree<H>`; values are at most `M`. -/
structure TreeFam.Valid (fam : TreeFam) (b : Build) (H M addr : Nat) (vals : List Nat) : Prop where
  pos : 0 < vals.length
  /-- `assert(n > 0 and n <= (1ULL << 24))` -/
  le : vals.length ≤ 2 ^ 24
  height : H = fam.height vals.length
  /-- counters hold block populations -/
  cap : M ≤ 512
  vals : ∀ v ∈ vals, v ≤ M
  /-- `assert(val <= 512)` resp. `assert(val <= 256)` -/
  debug : b.ndebug = true ∨ M ≤ fam.family.maxVal
  align : b.strictAlign = true → (addr + 4 * H) % fam.need b H = 0

/-- `build` on a default-constructed tree. -/
def TreeFam.build (fam : TreeFam) (b : Build) (H addr : Nat) (vals : List Nat) : Outcome Tree :=
  treeBuild b fam.family H addr ⟨vals.length, fun j => vals.getD j 0⟩ vals.length Tree.empty

/-- A sequence of `update` calls. -/
def TreeFam.updates (fam : TreeFam) (b : Build) (H : Nat) : Tree → List (Nat × Bool) → Outcome Tree
  | t, [] => ok t
  | t, u :: us => do
    let t ← fam.update b H t u.1 u.2
    fam.updates b H t us

/-- `build` followed by updates. -/
def TreeFam.run (fam : TreeFam) (b : Build) (H addr : Nat) (vals : List Nat)
    (us : List (Nat × Bool)) : Outcome Tree := do
  let t ← fam.build b H addr vals
  fam.updates b H t us

/-! ## Node classes on their own -/

/-- The six node classes. -/
def nodeClasses : List NodeCfg :=
  [avx2Node128, avx2Node64, avx2Node32, avx512Node512, avx512Node256, avx512Node128]

/-- The values fit the node: the sum of each segment fits `key_type`, the sum of all values
fits `summary_type`. -/
structure NodeCfg.Fits (c : NodeCfg) (vals : List Nat) : Prop where
  len : vals.length = c.fanout
  seg : ∀ s, s < c.num →
    Spec.total vals ((s + 1) * c.seg) - Spec.total vals (s * c.seg) < 256 ^ c.keyB
  sum : Spec.total vals c.fanout < 256 ^ c.sumB

/-- Every update addresses an entry (or one past the last), does not go below zero and leaves
values that fit. -/
def NodeCfg.BumpsFit (c : NodeCfg) : List Nat → List (Nat × Bool) → Prop
  | _, [] => True
  | vals, u :: us => u.1 ≤ c.fanout ∧ (u.2 = true → u.1 < c.fanout → 1 ≤ vals.getD u.1 0) ∧
      c.Fits (Spec.bump vals u.1 u.2) ∧ c.BumpsFit (Spec.bump vals u.1 u.2) us

/-- `Node::build` followed by `Node::update` calls. -/
def nodeRun (b : Build) (c : NodeCfg) (vals : List Nat) (us : List (Nat × Bool)) (m : Mem)
    (off : Nat) : Outcome Mem := do
  let m ← nodeBuild b c ⟨vals.length, fun j => vals.getD j 0⟩ off m
  us.foldlM (fun m u => nodeUpdate b c m off u.1 u.2) m

/-- What a SIMD `search(x)` needs: the signed lane comparisons see nonnegative numbers.  The
scalar code needs none of this. -/
structure NodeCfg.SearchFits (c : NodeCfg) (vals : List Nat) (x : Nat) : Prop where
  arg : 2 * x < 256 ^ c.sumB
  sum : 2 * Spec.total vals c.fanout < 256 ^ c.sumB
  seg : ∀ s, s < c.num →
    2 * (Spec.total vals ((s + 1) * c.seg) - Spec.total vals (s * c.seg)) < 256 ^ c.keyB
  last : 2 * (x - Spec.total vals ((c.num - 1) * c.seg)) < 256 ^ c.keyB

end MRS
