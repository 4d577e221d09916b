import Verif.Model.Bitmap

/-!
# Threads that query bitmaps at the same time

`rank_u256`, `rank_u512`, `select_u256` and `select_u512` keep intermediate sums in function-local
`static` arrays (rank.hpp lines 98, 137, 152, 183, 209, 229, 246, 277, 299; select.hpp lines 253, 266, 282,
321, 338, 354).  There is one such array per template instance, shared by all bitmaps and all threads.  A
query is a program that reads and writes single words of these arrays; everything else it touches is its own
or is not modified by queries.  A vector load or store is one access per word.

Two simplifications, both in favour of the code: accesses are sequentially consistent and words are not
torn.  In C++ conflicting accesses of two threads are undefined behaviour already; see `St.Race`.
-/

set_option autoImplicit false

namespace MRS
open Outcome

/-- A template instance: `select_…` or `rank_…`, 4 or 8 words, mode. -/
structure Fn where
  sel : Bool
  words : Nat
  mode : Nat
  deriving DecidableEq

/-- The two arrays of an instance: `counts`/`cnts` and `sums`. -/
inductive Arr
  | counts | sums
  deriving DecidableEq

/-- Instances with static arrays: rank.hpp lines 98 and 209 (every mode whose prefix sums are unrolled, unless
specialised), 137, 152, 183, 229, 246, 277, 299; select.hpp lines 253-354. -/
def Fn.static (f : Fn) : Bool :=
  if f.sel then
    f.mode == SelectMode.builtin_avx512_pdep
      || (f.words == 4 && f.mode == SelectMode.avx2_avx512_pdep)
      || (f.words == 8 && f.mode == SelectMode.avx512_avx512_pdep)
  else
    exSecond f.mode == 1 || f.mode == RankMode.builtin_parallel
      || (f.words == 4 && f.mode == RankMode.avx2_parallel)
      || (f.words == 8 && f.mode == RankMode.avx512_parallel)

/-- One word of a static array. -/
structure Loc where
  fn : Fn
  arr : Arr
  idx : Nat
  deriving DecidableEq

/-- Contents of all static arrays. -/
abbrev Statics : Type := Loc → Nat

/-- A program that reads and writes static arrays, then ends with an outcome. -/
inductive Act (α : Type)
  | done (o : Outcome α)
  | get (l : Loc) (k : Nat → Act α)
  | put (l : Loc) (v : Nat) (k : Act α)

namespace Act
variable {α β : Type}

/-- Sequencing. -/
protected def bind : Act α → (α → Act β) → Act β
  | done (ok a), f => f a
  | done (ub e), _ => done (ub e)
  | done abort, _ => done abort
  | get l k, f => get l fun v => (k v).bind f
  | put l v k, f => put l v (k.bind f)

instance : Monad Act where
  pure a := done (ok a)
  bind := Act.bind

/-- Read a word. -/
def readW (l : Loc) : Act Nat := get l fun v => done (ok v)

/-- Write a word. -/
def writeW (l : Loc) (v : Nat) : Act Unit := put l v (done (ok ()))

/-- `for (i = a; i < a + n; ++i) s = body(i, s)`. -/
def loop (a : Nat) : Nat → (Nat → α → Act α) → α → Act α
  | 0, _, s => done (ok s)
  | n + 1, body, s => do
    let s ← body a s
    loop (a + 1) n body s

end Act

open Act

/-- `arr[i]` for an array of `len` words. -/
def readArr (fn : Fn) (a : Arr) (len i : Nat) : Act Nat :=
  if i < len then readW ⟨fn, a, i⟩ else done (ub .oob)

/-- Vector load of the first `W` words. -/
def loadArr (fn : Fn) (a : Arr) (W : Nat) : Act Lanes :=
  loop 0 W (fun j (L : Lanes) => do
    let v ← readW ⟨fn, a, j⟩
    done (ok fun l => if l = j then v else L l)) fun _ => 0

/-- Vector store of `W` lanes from word `off` on. -/
def storeArr (fn : Fn) (a : Arr) (off W : Nat) (L : Lanes) : Act Unit :=
  loop 0 W (fun j _ => writeW ⟨fn, a, off + j⟩ (L j)) ()

/-- `cnts[j] = popcount_u64<builtin>(x[j])`, rank.hpp lines 230-237, select.hpp lines 254-257, 322-329. -/
def countArr (fn : Fn) (W : Nat) (x : Ptr) : Act Unit :=
  loop 0 W (fun j _ => do
    let w ← done (x.at j)
    writeW ⟨fn, .counts, j⟩ (popcnt w)) ()

/-- `counts[0] = 0; counts[j+1] = counts[j] + C[j]`, rank.hpp lines 99-102, 138-141, 210-217, 278-285. -/
def unrolledA (fn : Fn) (W : Nat) (C : Nat → Outcome Nat) : Act Unit := do
  writeW ⟨fn, .counts, 0⟩ 0
  loop 0 (W - 1) (fun j _ => do
    let prev ← readW ⟨fn, .counts, j⟩
    let c ← done (C j)
    writeW ⟨fn, .counts, j + 1⟩ (add64 prev c)) ()

/-! ## rank -/

/-- The template `rank_u256`/`rank_u512`, rank.hpp lines 81-108, 192-223. -/
def rankGenericA (b : Build) (fn : Fn) (W mode : Nat) (x : Ptr) (i : Nat) : Act Nat := do
  done (massert b (decide (i < 64 * W)))
  let r ← done (rankInBlock b (exPopcount mode) x i)
  let C := fun j => do
    let w ← x.at j
    popcountU64 b (exPopcount mode) w
  match exSecond mode with
  | 0 => do
    let s ← done (sumLoop (i / 64) C)
    done (ok (add64 s r))
  | 1 => do
    unrolledA fn W C
    let c ← readArr fn .counts W (i / 64)
    done (ok (add64 c r))
  | _ => do
    done (massert b false)
    done (ok 0)

/-- `rank_u256<avx2_unrolled>`, `rank_u512<avx512_unrolled>`, rank.hpp lines 126-143, 266-287. -/
def rankVecUnrolledA (b : Build) (fn : Fn) (W : Nat) (x : Ptr) (i : Nat) : Act Nat := do
  done (massert b (decide (i < 64 * W)))
  let r ← done (rankInBlock b 1 x i)
  let C ← done (popcountVec W x)
  unrolledA fn W (fun j => (⟨W, C⟩ : Vec Nat).get j)
  let c ← readArr fn .counts W (i / 64)
  done (ok (add64 c r))

/-- `rank_u256<builtin_parallel>`, rank.hpp lines 147-168. -/
def rank256BuiltinParallelA (b : Build) (fn : Fn) (x : Ptr) (i : Nat) : Act Nat := do
  done (massert b (decide (i < 256)))
  writeW ⟨fn, .counts, 0⟩ 0
  let w0 ← done (x.at 0)
  writeW ⟨fn, .counts, 1⟩ (popcnt w0)
  let w1 ← done (x.at 1)
  writeW ⟨fn, .counts, 2⟩ (popcnt w1)
  let w2 ← done (x.at 2)
  writeW ⟨fn, .counts, 3⟩ (popcnt w2)
  let r ← done (rankInBlock b 1 x i)
  let C ← loadArr fn .counts 4
  storeArr fn .counts 0 4 (prefixsum256 C)
  let s ← readArr fn .counts 4 (i / 64)
  done (ok (add64 s r))

/-- `rank_u256<avx2_parallel>`, `rank_u512<avx512_parallel>`, rank.hpp lines 169-186, 288-302. -/
def rankVecParallelA (b : Build) (fn : Fn) (W : Nat) (ps : Lanes → Lanes) (x : Ptr) (i : Nat) : Act Nat := do
  done (massert b (decide (i < 64 * W)))
  let r ← done (rankInBlock b 1 x i)
  let C ← done (popcountVec W x)
  storeArr fn .sums 1 W (ps C)
  let s ← readArr fn .sums (W + 1) (i / 64)
  done (ok (add64 s r))

/-- `rank_u512<builtin_parallel>`, rank.hpp lines 225-249. -/
def rank512BuiltinParallelA (b : Build) (fn : Fn) (x : Ptr) (i : Nat) : Act Nat := do
  done (massert b (decide (i < 512)))
  countArr fn 8 x
  let r ← done (rankInBlock b 1 x i)
  let C ← loadArr fn .counts 8
  storeArr fn .sums 1 8 (prefixsum512 C)
  let s ← readArr fn .sums 9 (i / 64)
  done (ok (add64 s r))

/-- `rank_u256<Mode>`, rank.hpp 81-187. -/
def rankU256A (b : Build) (mode : Nat) (x : Ptr) (i : Nat) : Act Nat :=
  let fn : Fn := ⟨false, 4, mode⟩
  if mode = RankMode.avx2_loop then done (rankVecLoop b 4 x i)
  else if mode = RankMode.avx2_unrolled then rankVecUnrolledA b fn 4 x i
  else if mode = RankMode.builtin_parallel then rank256BuiltinParallelA b fn x i
  else if mode = RankMode.avx2_parallel then rankVecParallelA b fn 4 prefixsum256 x i
  else rankGenericA b fn 4 mode x i

/-- `rank_u512<Mode>`, rank.hpp 192-303. -/
def rankU512A (b : Build) (mode : Nat) (x : Ptr) (i : Nat) : Act Nat :=
  let fn : Fn := ⟨false, 8, mode⟩
  if mode = RankMode.builtin_parallel then rank512BuiltinParallelA b fn x i
  else if mode = RankMode.avx512_loop then done (rankVecLoop b 8 x i)
  else if mode = RankMode.avx512_unrolled then rankVecUnrolledA b fn 8 x i
  else if mode = RankMode.avx512_parallel then rankVecParallelA b fn 8 prefixsum512 x i
  else rankGenericA b fn 8 mode x i

/-! ## select -/

/-- The end of the four vector selects, select.hpp lines 262-269, 278-285, 334-341, 350-357. -/
def selectTailA (b : Build) (fn : Fn) (W : Nat) (x : Ptr) (msums : Lanes) (k : Nat) : Act Nat := do
  let i ← done (ltCntAt (cmpleMask W msums k))
  storeArr fn .sums 1 W msums
  let w ← done (x.at i)
  let s ← readArr fn .sums (W + 1) i
  let r ← done (selectU64 b 4 w (sub64 k s))
  done (ok (add64 (i * 64) r))

/-- `select_u256<builtin_avx512_pdep>`, `select_u512<builtin_avx512_pdep>`, select.hpp 248-270, 316-342. -/
def selectBuiltinVecA (b : Build) (fn : Fn) (W : Nat) (ps : Lanes → Lanes) (x : Ptr) (k : Nat) : Act Nat := do
  countArr fn W x
  let C ← loadArr fn .counts W
  selectTailA b fn W x (ps C) k

/-- `select_u256<avx2_avx512_pdep>`, `select_u512<avx512_avx512_pdep>`, select.hpp 271-286, 343-358. -/
def selectVecA (b : Build) (fn : Fn) (W : Nat) (ps : Lanes → Lanes) (x : Ptr) (k : Nat) : Act Nat := do
  let C ← done (popcountVec W x)
  selectTailA b fn W x (ps C) k

/-- `select_u256<Mode>`, select.hpp 224-287. -/
def selectU256A (b : Build) (mode : Nat) (x : Ptr) (k : Nat) : Act Nat :=
  let fn : Fn := ⟨true, 4, mode⟩
  if mode = SelectMode.builtin_avx512_pdep then selectBuiltinVecA b fn 4 prefixsum256 x k
  else if mode = SelectMode.avx2_avx512_pdep then selectVecA b fn 4 prefixsum256 x k
  else done (selectGeneric b 4 mode x k)

/-- `select_u512<Mode>`, select.hpp 292-359. -/
def selectU512A (b : Build) (mode : Nat) (x : Ptr) (k : Nat) : Act Nat :=
  let fn : Fn := ⟨true, 8, mode⟩
  if mode = SelectMode.builtin_avx512_pdep then selectBuiltinVecA b fn 8 prefixsum512 x k
  else if mode = SelectMode.avx512_avx512_pdep then selectVecA b fn 8 prefixsum512 x k
  else done (selectGeneric b 8 mode x k)

/-! ## Queries -/

/-- `BlockType::rank`, types.hpp lines 22, 38, 52. -/
def BlockType.rankA (b : Build) (t : BlockType) (x : Ptr) (i : Nat) : Act Nat :=
  match t.width with
  | .w64 => done (rankBlock64 b x i)
  | .w256 => rankU256A b t.rankMode x i
  | .w512 => rankU512A b t.rankMode x i

/-- `BlockType::select`, types.hpp lines 27, 41, 55. -/
def BlockType.selectA (b : Build) (t : BlockType) (x : Ptr) (k : Nat) : Act Nat :=
  match t.width with
  | .w64 => done (selectBlock64 b x k)
  | .w256 => selectU256A b t.selectMode x k
  | .w512 => selectU512A b t.selectMode x k

/-- `rank(i)`, mutable_bitmap.hpp lines 80-86. -/
def bmRankA (c : Config) (bm : Bitmap) (i : Nat) : Act Nat := do
  done (massert c.b (decide (i < bmSize bm)))
  let s ← done (if i / c.blk.width.bits ≠ 0 then c.fam.sum c.b c.H bm.index (i / c.blk.width.bits - 1) else ok 0)
  let p ← done (bm.bits.ptr (mul64 c.blk.width.words (i / c.blk.width.bits)))
  let r ← c.blk.rankA c.b p (i % c.blk.width.bits)
  done (ok (add64 s r))

/-- `select(i)`, mutable_bitmap.hpp lines 88-94. -/
def bmSelectA (c : Config) (bm : Bitmap) (i : Nat) : Act Nat := do
  done (massert c.b (decide (i < bmSize bm)))
  let q ← done (c.fam.search c.b c.H bm.index i)
  let p ← done (bm.bits.ptr (mul64 c.blk.width.words q.1))
  let r ← c.blk.selectA c.b p (sub64 i q.2)
  done (ok (add64 (mul64 c.blk.width.bits q.1) r))

/-- A query. -/
inductive Query
  | rank (i : Nat)
  | select (k : Nat)

/-- What one thread does: a query on a bitmap. -/
structure Job where
  c : Config
  bm : Bitmap
  q : Query

/-- The program of a thread. -/
def Job.act (j : Job) : Act Nat :=
  match j.q with
  | .rank i => bmRankA j.c j.bm i
  | .select k => bmSelectA j.c j.bm k

/-- The template instance a query calls; blocks of 64 bits need none. -/
def Job.fn (j : Job) : Option Fn :=
  match j.c.blk.width, j.q with
  | .w64, _ => none
  | w, .rank _ => some ⟨false, w.words, j.c.blk.rankMode⟩
  | w, .select _ => some ⟨true, w.words, j.c.blk.selectMode⟩

/-! ## Interleaving -/

/-- Programs of all threads and the contents of the static arrays. -/
structure St where
  thr : Nat → Act Nat
  mem : Statics

/-- Write one word. -/
def lset (m : Statics) (l : Loc) (v : Nat) : Statics := fun l' => if l' = l then v else m l'

/-- Thread `t` becomes `a`. -/
def thrSet (f : Nat → Act Nat) (t : Nat) (a : Act Nat) : Nat → Act Nat := fun u => if u = t then a else f u

/-- Thread `t` takes one step. -/
def St.step (s : St) (t : Nat) : St :=
  match s.thr t with
  | .done _ => s
  | .get l k => ⟨thrSet s.thr t (k (s.mem l)), s.mem⟩
  | .put l v k => ⟨thrSet s.thr t k, lset s.mem l v⟩

/-- A schedule: which thread takes the next step. -/
def St.run (s : St) (σ : List Nat) : St := σ.foldl St.step s

/-- All threads at their beginning. -/
def St.start (jobs : Nat → Job) (m : Statics) : St := ⟨fun t => (jobs t).act, m⟩

/-- The next step accesses `l`. -/
def Act.Uses {α : Type} (l : Loc) : Act α → Prop
  | .done _ => False
  | .get l' _ => l' = l
  | .put l' _ _ => l' = l

/-- The next step writes `l`. -/
def Act.Writes {α : Type} (l : Loc) : Act α → Prop
  | .put l' _ _ => l' = l
  | _ => False

/-- A data race: two threads are about to access the same word, one of them writes.  Undefined behaviour in
C++. -/
def St.Race (s : St) (t u : Nat) : Prop := t ≠ u ∧ ∃ l, (s.thr t).Writes l ∧ (s.thr u).Uses l

end MRS
