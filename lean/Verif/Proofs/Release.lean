import Verif.Model.Usage

/-!
# Debug and release builds

Defining `NDEBUG` only removes assertions.  `Lock x y`: the debug run `x` either stops at a failed
assertion or does exactly what the release run `y` does.  For functions whose assertions evaluate
further expressions (`search`) we have `Sub`: a result of the debug run is the result of the release
run.
-/

set_option autoImplicit false

namespace MRS
open Outcome

/-- The same build with assertions compiled out. -/
def Build.release (b : Build) : Build := { b with ndebug := true }

def Lock {α : Type} (x y : Outcome α) : Prop := x = abort ∨ x = y

def Sub {α : Type} (x y : Outcome α) : Prop := ∀ v, x = ok v → y = ok v

section
variable {α β σ : Type}

theorem Lock.refl (x : Outcome α) : Lock x x := Or.inr rfl

theorem Lock.bind {x y : Outcome α} {f g : α → Outcome β} (h : Lock x y) (hf : ∀ a, Lock (f a) (g a)) :
    Lock (x >>= f) (y >>= g) := by
  rcases h with h | h
  · left; rw [h]; rfl
  · rw [h]
    cases y with
    | ok a => exact hf a
    | ub e => exact Or.inr rfl
    | abort => exact Or.inr rfl

theorem Lock.ite {p : Prop} [Decidable p] {x y x' y' : Outcome α} (h : Lock x y) (h' : Lock x' y') :
    Lock (if p then x else x') (if p then y else y') := by
  split <;> assumption

theorem Lock.forFrom {f g : Nat → σ → Outcome σ} (h : ∀ i s, Lock (f i s) (g i s)) :
    ∀ (n a : Nat) (s : σ), Lock (forFrom a n f s) (forFrom a n g s) := by
  intro n
  induction n with
  | zero => intro a s; exact Lock.refl _
  | succ n ih => intro a s; exact Lock.bind (h a s) (fun s' => ih (a + 1) s')

theorem Lock.forN {f g : Nat → σ → Outcome σ} (h : ∀ i s, Lock (f i s) (g i s)) (n : Nat) (s : σ) :
    Lock (forN n f s) (forN n g s) := Lock.forFrom h n 0 s

theorem Lock.massert (b : Build) (c : Bool) : Lock (massert b c) (massert b.release c) := by
  unfold MRS.massert
  by_cases h : (b.ndebug || c) = true
  · right; rw [if_pos h, if_pos (by simp [Build.release])]
  · left; rw [if_neg h]

theorem Lock.sub {x y : Outcome α} (h : Lock x y) : Sub x y := by
  intro v hv
  rcases h with h | h
  · rw [h] at hv; cases hv
  · rw [← h]; exact hv

theorem Sub.refl (x : Outcome α) : Sub x x := fun _ h => h

theorem Sub.bind {x y : Outcome α} {f g : α → Outcome β} (h : Sub x y) (hf : ∀ a, Sub (f a) (g a)) :
    Sub (x >>= f) (y >>= g) := by
  intro v hv
  cases hx : x with
  | ok a =>
    rw [h a hx]
    rw [hx] at hv
    exact hf a v hv
  | ub e => rw [hx] at hv; cases hv
  | abort => rw [hx] at hv; cases hv

theorem Sub.ite {p : Prop} [Decidable p] {x y x' y' : Outcome α} (h : Sub x y) (h' : Sub x' y') :
    Sub (if p then x else x') (if p then y else y') := by
  split <;> assumption

end

/-- Functions without assertions do the same in both builds. -/
theorem load_release (b : Build) : load b.release = load b := rfl
theorem store_release (b : Build) : store b.release = store b := rfl
theorem loadVec_release (b : Build) : loadVec b.release = loadVec b := rfl
theorem storeVec_release (b : Build) : storeVec b.release = storeVec b := rfl
theorem nn_release (b : Build) (t : Tree) : t.nn b.release = t.nn b := rfl
theorem nodeBuild_release (b : Build) : nodeBuild b.release = nodeBuild b := rfl
theorem buildInner_release (b : Build) : buildInner b.release = buildInner b := rfl
theorem bumpLoop_release (b : Build) : bumpLoop b.release = bumpLoop b := rfl
theorem simd_release (b : Build) (c : NodeCfg) : c.simd b.release = c.simd b := rfl

theorem segLoop_release (b : Build) (c : NodeCfg) (m : Mem) (off x : Nat) : ∀ fuel z i,
    segLoop b.release c m off x fuel z i = segLoop b c m off x fuel z i := by
  intro fuel
  induction fuel with
  | zero => intro z i; rfl
  | succ f ih => intro z i; unfold segLoop; simp only [ih]; rfl

theorem keyLoop_release (b : Build) (c : NodeCfg) (m : Mem) (off x : Nat) : ∀ fuel i,
    keyLoop b.release c m off x fuel i = keyLoop b c m off x fuel i := by
  intro fuel
  induction fuel with
  | zero => intro i; rfl
  | succ f ih => intro i; unfold keyLoop; simp only [ih]; rfl

theorem searchSeg_release (b : Build) (c : NodeCfg) (m : Mem) (off x : Nat) :
    searchSeg b.release c m off x = searchSeg b c m off x := by
  unfold searchSeg; rw [segLoop_release, simd_release, loadVec_release]

theorem buildUppers_release (b : Build) (input : Vec Nat) (n : Nat) (counts : Vec Nat) :
    ∀ (cs : List NodeCfg) (s : BuildSt), buildUppers b.release input n counts cs s =
      buildUppers b input n counts cs s := by
  intro cs
  induction cs with
  | nil => intro s; rfl
  | cons c cs ih => intro s; unfold buildUppers; simp only [ih]; rfl

/-- Structural steps. -/
macro "lock_step" : tactic => `(tactic| first
  | with_reducible exact Lock.refl _
  | with_reducible exact Lock.massert _ _
  | with_reducible assumption
  | apply Lock.forN
  | apply Lock.forFrom
  | with_reducible apply Lock.bind
  | with_reducible apply Lock.ite
  | intro _)

syntax "lock" "[" term,* "]" : tactic
macro_rules
  | `(tactic| lock []) => `(tactic| repeat lock_step)
  | `(tactic| lock [$t]) => `(tactic| repeat first | with_reducible exact $t | lock_step)
  | `(tactic| lock [$t, $t']) => `(tactic| repeat first
      | with_reducible exact $t | with_reducible exact $t' | lock_step)
  | `(tactic| lock [$t, $t', $t'']) => `(tactic| repeat first
      | with_reducible exact $t | with_reducible exact $t' | with_reducible exact $t'' | lock_step)

/-! ## build -/

theorem fillLeaf_lock (b : Build) (fam : Family) (input : Vec Nat) (n base : Nat) (tmp : Vec Nat) :
    Lock (fillLeaf b fam input n base tmp) (fillLeaf b.release fam input n base tmp) := by
  unfold fillLeaf
  lock []

theorem buildLeaves_lock (b : Build) (fam : Family) (input : Vec Nat) (n begin_ nodes : Nat) (m : Mem) :
    Lock (buildLeaves b fam input n begin_ nodes m) (buildLeaves b.release fam input n begin_ nodes m) := by
  unfold buildLeaves
  rw [nodeBuild_release]
  lock [fillLeaf_lock _ _ _ _ _ _]

theorem levels_lock (b : Build) (fam : Family) (H n : Nat) :
    Lock (levels b fam H n) (levels b.release fam H n) := by
  unfold levels
  lock []

theorem treeBuild_lock (b : Build) (fam : Family) (H addr : Nat) (input : Vec Nat) (n : Nat) (t : Tree) :
    Lock (treeBuild b fam H addr input n t) (treeBuild b.release fam H addr input n t) := by
  unfold treeBuild
  simp only [buildUppers_release, store_release]
  lock [levels_lock _ _ _ _, buildLeaves_lock _ _ _ _ _ _ _]

/-! ## Nodes -/

theorem nodeUpdate_lock (b : Build) (c : NodeCfg) (m : Mem) (off i : Nat) (sign : Bool) :
    Lock (nodeUpdate b c m off i sign) (nodeUpdate b.release c m off i sign) := by
  unfold nodeUpdate
  exact Lock.ite (Lock.refl _) (Lock.bind (Lock.massert _ _) fun _ => Lock.refl _)

theorem nodeSum_lock (b : Build) (c : NodeCfg) (m : Mem) (off i : Nat) :
    Lock (nodeSum b c m off i) (nodeSum b.release c m off i) := by
  unfold nodeSum
  simp only [load_release]
  lock []

theorem searchKey_lock (b : Build) (c : NodeCfg) (m : Mem) (off x i : Nat) :
    Lock (searchKey b c m off x i) (searchKey b.release c m off x i) := by
  unfold searchKey
  simp only [loadVec_release, simd_release, keyLoop_release]
  lock []

theorem searchBody_lock (b : Build) (c : NodeCfg) (m : Mem) (off x : Nat) :
    Lock (searchBody b c m off x) (searchBody b.release c m off x) := by
  unfold searchBody
  simp only [load_release, searchSeg_release]
  lock [searchKey_lock _ _ _ _ _ _, nodeSum_lock _ _ _ _ _]

theorem nodeSearch_sub (b : Build) (c : NodeCfg) (m : Mem) (off x : Nat) :
    Sub (nodeSearch b c m off x) (nodeSearch b.release c m off x) := by
  unfold nodeSearch
  split
  · exact (searchBody_lock _ _ _ _ _).sub
  · show Sub (if b.ndebug = true then searchBody b c m off x else do
        let s ← nodeSum b c m off (c.fanout - 1)
        let _ ← massert b (decide (x < s))
        searchBody b c m off x) (searchBody b.release c m off x)
    split
    · exact (searchBody_lock _ _ _ _ _).sub
    · intro v hv
      cases h1 : nodeSum b c m off (c.fanout - 1) with
      | ok s =>
        rw [h1, ok_bind] at hv
        cases h2 : massert b (decide (x < s)) with
        | ok u => rw [h2, ok_bind] at hv; exact (searchBody_lock _ _ _ _ _).sub v hv
        | ub e => rw [h2] at hv; cases hv
        | abort => rw [h2] at hv; cases hv
      | ub e => rw [h1] at hv; cases hv
      | abort => rw [h1] at hv; cases hv
  · apply Lock.sub
    lock [searchBody_lock _ _ _ _ _, nodeSum_lock _ _ _ _ _]

/-! ## Trees -/

theorem treeSum_lock (fam : TreeFam) (b : Build) (H : Nat) (t : Tree) (i : Nat) :
    Lock (fam.sum b H t i) (fam.sum b.release H t i) := by
  cases fam
  · show Lock (avx2Sum b H t i) (avx2Sum b.release H t i)
    unfold avx2Sum
    refine Lock.bind (Lock.massert _ _) fun _ => ?_
    split
    · unfold avx2Sum1; lock [nodeSum_lock _ _ _ _ _]
    · unfold avx2Sum2; lock [nodeSum_lock _ _ _ _ _]
    · unfold avx2Sum3; simp only [nn_release]; lock [nodeSum_lock _ _ _ _ _]
    · unfold avx2Sum4; simp only [nn_release]; lock [nodeSum_lock _ _ _ _ _]
    · exact Lock.refl _
  · show Lock (avx512Sum b H t i) (avx512Sum b.release H t i)
    unfold avx512Sum
    refine Lock.bind (Lock.massert _ _) fun _ => ?_
    split
    · unfold avx512Sum1; lock [nodeSum_lock _ _ _ _ _]
    · unfold avx512Sum2; lock [nodeSum_lock _ _ _ _ _]
    · unfold avx512Sum3; simp only [nn_release]; lock [nodeSum_lock _ _ _ _ _]
    · exact Lock.refl _

theorem treeUpdate_lock (fam : TreeFam) (b : Build) (H : Nat) (t : Tree) (i : Nat) (sign : Bool) :
    Lock (fam.update b H t i sign) (fam.update b.release H t i sign) := by
  cases fam
  · show Lock (avx2Update b H t i sign) (avx2Update b.release H t i sign)
    unfold avx2Update
    refine Lock.bind (Lock.massert _ _) fun _ => ?_
    split
    · unfold avx2Update1; lock [nodeUpdate_lock _ _ _ _ _ _]
    · unfold avx2Update2; lock [nodeUpdate_lock _ _ _ _ _ _]
    · unfold avx2Update3; simp only [nn_release]; lock [nodeUpdate_lock _ _ _ _ _ _]
    · unfold avx2Update4; simp only [nn_release]; lock [nodeUpdate_lock _ _ _ _ _ _]
    · exact Lock.refl _
  · show Lock (avx512Update b H t i sign) (avx512Update b.release H t i sign)
    unfold avx512Update
    refine Lock.bind (Lock.massert _ _) fun _ => ?_
    split
    · unfold avx512Update1; lock [nodeUpdate_lock _ _ _ _ _ _]
    · unfold avx512Update2; lock [nodeUpdate_lock _ _ _ _ _ _]
    · unfold avx512Update3; simp only [nn_release]; lock [nodeUpdate_lock _ _ _ _ _ _]
    · exact Lock.refl _

macro "sub_nodes" : tactic => `(tactic| repeat first
  | with_reducible exact Sub.refl _
  | with_reducible exact nodeSearch_sub _ _ _ _ _
  | with_reducible apply Sub.bind
  | intro _)

theorem treeSearch_sub (fam : TreeFam) (b : Build) (H : Nat) (t : Tree) (x : Nat) :
    Sub (fam.search b H t x) (fam.search b.release H t x) := by
  cases fam
  · show Sub (avx2Search b H t x) (avx2Search b.release H t x)
    unfold avx2Search
    split
    · unfold avx2Search1; sub_nodes
    · unfold avx2Search2; sub_nodes
    · unfold avx2Search3; simp only [nn_release]; sub_nodes
    · unfold avx2Search4; simp only [nn_release]; sub_nodes
    · exact Sub.refl _
  · show Sub (avx512Search b H t x) (avx512Search b.release H t x)
    unfold avx512Search
    split
    · unfold avx512Search1; sub_nodes
    · unfold avx512Search2; sub_nodes
    · unfold avx512Search3; simp only [nn_release]; sub_nodes
    · exact Sub.refl _

/-! ## Words and blocks -/

theorem popcountU64_lock (b : Build) (mode : Nat) (x : Word) :
    Lock (popcountU64 b mode x) (popcountU64 b.release mode x) := by
  unfold popcountU64
  split
  · exact Lock.refl _
  · exact Lock.refl _
  · lock []

theorem selectU64_lock (b : Build) (mode : Nat) (x : Word) (k : Nat) :
    Lock (selectU64 b mode x k) (selectU64 b.release mode x k) := by
  unfold selectU64
  split
  · exact Lock.refl _
  · unfold selectBroadwordSuccinct; lock []
  · exact Lock.refl _
  · unfold selectSse4Succinct; lock []
  · exact Lock.refl _
  · lock []

theorem rankInBlock_lock (b : Build) (pcm : Nat) (x : Ptr) (i : Nat) :
    Lock (rankInBlock b pcm x i) (rankInBlock b.release pcm x i) := by
  unfold rankInBlock
  lock [popcountU64_lock _ _ _]

theorem rankGeneric_lock (b : Build) (W mode : Nat) (g : Scratch) (x : Ptr) (i : Nat) :
    Lock (rankGeneric b W mode g x i) (rankGeneric b.release W mode g x i) := by
  unfold rankGeneric
  refine Lock.bind (Lock.massert _ _) fun _ => Lock.bind (rankInBlock_lock _ _ _ _) fun _ => ?_
  split
  · unfold sumLoop; lock [popcountU64_lock _ _ _]
  · unfold unrolled; lock [popcountU64_lock _ _ _]
  · lock []

theorem blockRank_lock (b : Build) (t : BlockType) (g : Scratch) (x : Ptr) (i : Nat) :
    Lock (t.rank b g x i) (t.rank b.release g x i) := by
  unfold BlockType.rank
  split
  · unfold rankBlock64; lock [popcountU64_lock _ _ _]
  · unfold rankU256 rankVecLoop rankVecUnrolled rank256BuiltinParallel rankVecParallel
    lock [rankInBlock_lock _ _ _ _, rankGeneric_lock _ _ _ _ _ _]
  · unfold rankU512 rankVecLoop rankVecUnrolled rank512BuiltinParallel rankVecParallel
    lock [rankInBlock_lock _ _ _ _, rankGeneric_lock _ _ _ _ _ _]

theorem selLoop_lock (b : Build) (pcm : Nat) (x : Ptr) : ∀ fuel i k cnt,
    Lock (selLoop b pcm x fuel i k cnt) (selLoop b.release pcm x fuel i k cnt) := by
  intro fuel
  induction fuel with
  | zero => intro i k cnt; exact Lock.refl _
  | succ f ih => intro i k cnt; unfold selLoop; lock [popcountU64_lock _ _ _, ih _ _ _]

theorem selectGeneric_lock (b : Build) (W mode : Nat) (x : Ptr) (k : Nat) :
    Lock (selectGeneric b W mode x k) (selectGeneric b.release W mode x k) := by
  unfold selectGeneric
  split
  · lock [selLoop_lock _ _ _ _ _ _ _, selectU64_lock _ _ _ _]
  · lock []

theorem selectTail_lock (b : Build) (W : Nat) (g : Scratch) (x : Ptr) (msums : Lanes) (k : Nat) :
    Lock (selectTail b W g x msums k) (selectTail b.release W g x msums k) := by
  unfold selectTail
  lock [selectU64_lock _ _ _ _]

theorem blockSelect_lock (b : Build) (t : BlockType) (g : Scratch) (x : Ptr) (k : Nat) :
    Lock (t.select b g x k) (t.select b.release g x k) := by
  unfold BlockType.select
  split
  · unfold selectBlock64; lock [selectU64_lock _ _ _ _]
  · unfold selectU256 selectBuiltinVec selectVec
    lock [selectTail_lock _ _ _ _ _ _, selectGeneric_lock _ _ _ _ _]
  · unfold selectU512 selectBuiltinVec selectVec
    lock [selectTail_lock _ _ _ _ _ _, selectGeneric_lock _ _ _ _ _]

/-! ## The bitmap -/

/-- The same class compiled with assertions off. -/
def Config.release (c : Config) : Config := { c with b := c.b.release }

theorem blockVals_lock (c : Config) (v : Vec Word) (n : Nat) :
    Lock (blockVals c v n) (blockVals c.release v n) := by
  unfold blockVals blockVal
  refine Lock.forN (fun i s => ?_) _ _
  refine Lock.bind ?_ fun _ => Lock.refl _
  refine Lock.bind (Lock.refl _) fun _ => ?_
  exact Lock.bind (Lock.massert _ _) fun _ => Lock.refl _

theorem bmBuild_lock (c : Config) (addr : Nat) (input : Vec Word) (nw : Nat) (bm : Bitmap) :
    Lock (bmBuild c addr input nw bm) (bmBuild c.release addr input nw bm) := by
  unfold bmBuild
  refine Lock.bind (Lock.massert _ _) fun _ => ?_
  refine Lock.bind (Lock.refl _) fun _ => ?_
  refine Lock.bind (blockVals_lock _ _ _) fun _ => ?_
  exact Lock.bind (treeBuild_lock _ _ _ _ _ _ _) fun _ => Lock.refl _

theorem bmAccess_lock (c : Config) (bm : Bitmap) (i : Nat) :
    Lock (bmAccess c bm i) (bmAccess c.release bm i) :=
  Lock.bind (Lock.massert _ _) fun _ => Lock.refl _

theorem bmFlip_lock (c : Config) (bm : Bitmap) (i : Nat) :
    Lock (bmFlip c bm i) (bmFlip c.release bm i) := by
  unfold bmFlip
  refine Lock.bind (Lock.massert _ _) fun _ => ?_
  refine Lock.bind (bmAccess_lock _ _ _) fun _ => ?_
  refine Lock.bind (Lock.refl _) fun _ => ?_
  refine Lock.bind (Lock.refl _) fun _ => ?_
  refine Lock.bind (Lock.refl _) fun _ => ?_
  exact Lock.bind (treeUpdate_lock _ _ _ _ _ _) fun _ => Lock.refl _

theorem bmRank_lock (c : Config) (g : Scratch) (bm : Bitmap) (i : Nat) :
    Lock (bmRank c g bm i) (bmRank c.release g bm i) := by
  unfold bmRank
  refine Lock.bind (Lock.massert _ _) fun _ => ?_
  refine Lock.bind (Lock.ite (treeSum_lock _ _ _ _ _) (Lock.refl _)) fun _ => ?_
  refine Lock.bind (Lock.refl _) fun _ => ?_
  exact Lock.bind (blockRank_lock _ _ _ _ _) fun _ => Lock.refl _

theorem bmSelect_sub (c : Config) (g : Scratch) (bm : Bitmap) (i : Nat) :
    Sub (bmSelect c g bm i) (bmSelect c.release g bm i) := by
  unfold bmSelect
  refine Sub.bind (Lock.massert _ _).sub fun _ => ?_
  refine Sub.bind (treeSearch_sub _ _ _ _ _) fun _ => ?_
  refine Sub.bind (Sub.refl _) fun _ => ?_
  exact Sub.bind (blockSelect_lock _ _ _ _ _).sub fun _ => Sub.refl _

theorem exec_lock (c : Config) (ops : List Spec.Op) : ∀ bm : Bitmap,
    Lock (c.exec bm ops) (c.release.exec bm ops) := by
  induction ops with
  | nil => intro bm; exact Lock.refl _
  | cons o os ih =>
    intro bm
    refine Lock.bind ?_ fun bm' => ih bm'
    cases o with
    | build addr ws => exact bmBuild_lock _ _ _ _ _
    | flip i => exact bmFlip_lock _ _ _

end MRS
