import Verif.Proofs.Debug

/-!
# Misaligned accesses

`Slock x y`: the run `x` in which misaligned accesses count as undefined behaviour either ends with
one or does exactly what the run `y` does, in which they are tolerated.
-/

set_option autoImplicit false

namespace MRS
open Outcome Spec

/-- The same build on a machine that tolerates misaligned accesses. -/
def Build.lax (b : Build) : Build := { b with strictAlign := false }

def Slock {α : Type} (x y : Outcome α) : Prop := x = ub .misaligned ∨ x = y

section
variable {α β σ : Type}

theorem Slock.refl (x : Outcome α) : Slock x x := Or.inr rfl

theorem Slock.bind {x y : Outcome α} {f g : α → Outcome β} (h : Slock x y)
    (hf : ∀ a, Slock (f a) (g a)) : Slock (x >>= f) (y >>= g) := by
  rcases h with h | h
  · left; rw [h]; rfl
  · rw [h]
    cases y with
    | ok a => exact hf a
    | ub e => exact Or.inr rfl
    | abort => exact Or.inr rfl

theorem Slock.ite {p : Prop} {d d' : Decidable p} {x y x' y' : Outcome α} (h : Slock x y)
    (h' : Slock x' y') : Slock (@_root_.ite _ p d x x') (@_root_.ite _ p d' y y') := by
  by_cases hp : p
  · rw [if_pos hp, if_pos hp]; exact h
  · rw [if_neg hp, if_neg hp]; exact h'

theorem Slock.forFrom {f g : Nat → σ → Outcome σ} (h : ∀ i s, Slock (f i s) (g i s)) :
    ∀ (n a : Nat) (s : σ), Slock (forFrom a n f s) (forFrom a n g s) := by
  intro n
  induction n with
  | zero => intro a s; exact Slock.refl _
  | succ n ih => intro a s; exact Slock.bind (h a s) (fun s' => ih (a + 1) s')

theorem Slock.forN {f g : Nat → σ → Outcome σ} (h : ∀ i s, Slock (f i s) (g i s)) (n : Nat) (s : σ) :
    Slock (forN n f s) (forN n g s) := Slock.forFrom h n 0 s

end

theorem massert_lax (b : Build) (c : Bool) : massert b.lax c = massert b c := rfl
theorem simd_lax (b : Build) (c : NodeCfg) : c.simd b.lax = c.simd b := rfl
theorem popcountU64_lax (b : Build) (mode : Nat) (x : Word) :
    popcountU64 b.lax mode x = popcountU64 b mode x := rfl
theorem selectU64_lax (b : Build) (mode : Nat) (x : Word) (k : Nat) :
    selectU64 b.lax mode x k = selectU64 b mode x k := rfl

theorem chk_slock (b : Build) (m : Mem) (off len al : Nat) :
    Slock (chk b m off len al) (chk b.lax m off len al) := by
  unfold chk
  refine Slock.ite ?_ (Slock.refl _)
  split
  · exact Or.inl rfl
  · exact Or.inr rfl

/-- Structural steps. -/
macro "slock_step" : tactic => `(tactic| first
  | with_reducible exact Slock.refl _
  | with_reducible exact chk_slock _ _ _ _ _
  | with_reducible assumption
  | apply Slock.forN
  | apply Slock.forFrom
  | with_reducible apply Slock.bind
  | with_reducible apply Slock.ite
  | intro _)

syntax "slock" "[" term,* "]" : tactic
macro_rules
  | `(tactic| slock []) => `(tactic| repeat slock_step)
  | `(tactic| slock [$t]) => `(tactic| repeat first | with_reducible exact $t | slock_step)
  | `(tactic| slock [$t, $t']) => `(tactic| repeat first
      | with_reducible exact $t | with_reducible exact $t' | slock_step)
  | `(tactic| slock [$t, $t', $t'']) => `(tactic| repeat first
      | with_reducible exact $t | with_reducible exact $t' | with_reducible exact $t'' | slock_step)

theorem load_slock (b : Build) (m : Mem) (off w : Nat) :
    Slock (load b m off w) (load b.lax m off w) := by unfold load; slock []

theorem store_slock (b : Build) (m : Mem) (off w v : Nat) :
    Slock (store b m off w v) (store b.lax m off w v) := by unfold store; slock []

theorem loadVec_slock (b : Build) (m : Mem) (off vb al w : Nat) :
    Slock (loadVec b m off vb al w) (loadVec b.lax m off vb al w) := by unfold loadVec; slock []

theorem storeVec_slock (b : Build) (m : Mem) (off vb w : Nat) (f : Nat → Nat) :
    Slock (storeVec b m off vb w f) (storeVec b.lax m off vb w f) := by unfold storeVec; slock []

/-! ## build -/

theorem buildSeg_slock (b : Build) (c : NodeCfg) (input : Vec Nat) (off i : Nat) (m : Mem) :
    Slock (buildSeg b c input off i m) (buildSeg b.lax c input off i m) := by
  unfold buildSeg
  slock [load_slock _ _ _ _, store_slock _ _ _ _ _]

theorem nodeBuild_slock (b : Build) (c : NodeCfg) (input : Vec Nat) (off : Nat) (m : Mem) :
    Slock (nodeBuild b c input off m) (nodeBuild b.lax c input off m) := by
  unfold nodeBuild fillZero
  slock [store_slock _ _ _ _ _, buildSeg_slock _ _ _ _ _ _]

theorem buildLeaves_slock (b : Build) (fam : Family) (input : Vec Nat) (n begin_ nodes : Nat)
    (m : Mem) : Slock (buildLeaves b fam input n begin_ nodes m)
      (buildLeaves b.lax fam input n begin_ nodes m) := by
  unfold buildLeaves
  refine Slock.bind (Slock.forN (fun i st => ?_) _ _) fun _ => Slock.refl _
  refine Slock.bind (Or.inr rfl) fun _ => ?_
  slock [nodeBuild_slock _ _ _ _ _]

theorem buildInner_slock (b : Build) (c : NodeCfg) (input : Vec Nat) (n begin_ nodes step : Nat)
    (m : Mem) : Slock (buildInner b c input n begin_ nodes step m)
      (buildInner b.lax c input n begin_ nodes step m) := by
  unfold buildInner
  slock [nodeBuild_slock _ _ _ _ _]

theorem buildUppers_slock (b : Build) (input : Vec Nat) (n : Nat) (counts : Vec Nat) :
    ∀ (cs : List NodeCfg) (s : BuildSt), Slock (buildUppers b input n counts cs s)
      (buildUppers b.lax input n counts cs s) := by
  intro cs
  induction cs with
  | nil => intro s; exact Slock.refl _
  | cons c cs ih =>
    intro s
    unfold buildUppers
    slock [ih _, buildInner_slock _ _ _ _ _ _ _ _]

theorem treeBuild_slock (b : Build) (fam : Family) (H addr : Nat) (input : Vec Nat) (n : Nat)
    (t : Tree) : Slock (treeBuild b fam H addr input n t) (treeBuild b.lax fam H addr input n t) := by
  unfold treeBuild
  simp only [massert_lax]
  refine Slock.bind (Slock.refl _) fun _ => Slock.bind (Or.inr rfl) fun _ => ?_
  slock [store_slock _ _ _ _ _, buildLeaves_slock _ _ _ _ _ _ _, buildUppers_slock _ _ _ _ _ _]

/-! ## Nodes -/

theorem bumpLoop_slock (b : Build) (base w a n : Nat) (sign : Bool) (m : Mem) :
    Slock (bumpLoop b base w a n sign m) (bumpLoop b.lax base w a n sign m) := by
  unfold bumpLoop
  slock [load_slock _ _ _ _, store_slock _ _ _ _ _]

theorem nodeUpdate_slock (b : Build) (c : NodeCfg) (m : Mem) (off i : Nat) (sign : Bool) :
    Slock (nodeUpdate b c m off i sign) (nodeUpdate b.lax c m off i sign) := by
  unfold nodeUpdate
  simp only [massert_lax, simd_lax]
  refine Slock.ite (Slock.refl _) (Slock.bind (Slock.refl _) fun _ => Slock.ite ?_ ?_)
  · slock [loadVec_slock _ _ _ _ _ _, storeVec_slock _ _ _ _ _ _]
  · exact Slock.ite (Slock.bind (bumpLoop_slock _ _ _ _ _ _ _) fun _ => bumpLoop_slock _ _ _ _ _ _ _)
      (Slock.refl _)

theorem nodeSum_slock (b : Build) (c : NodeCfg) (m : Mem) (off i : Nat) :
    Slock (nodeSum b c m off i) (nodeSum b.lax c m off i) := by
  unfold nodeSum
  simp only [massert_lax]
  slock [load_slock _ _ _ _]

theorem segLoop_slock (b : Build) (c : NodeCfg) (m : Mem) (off x : Nat) : ∀ fuel z i,
    Slock (segLoop b c m off x fuel z i) (segLoop b.lax c m off x fuel z i) := by
  intro fuel
  induction fuel with
  | zero => intro z i; exact Slock.refl _
  | succ f ih => intro z i; unfold segLoop; slock [load_slock _ _ _ _, ih _ _]

theorem keyLoop_slock (b : Build) (c : NodeCfg) (m : Mem) (off x : Nat) : ∀ fuel i,
    Slock (keyLoop b c m off x fuel i) (keyLoop b.lax c m off x fuel i) := by
  intro fuel
  induction fuel with
  | zero => intro i; exact Slock.refl _
  | succ f ih => intro i; unfold keyLoop; slock [load_slock _ _ _ _, ih _]

theorem searchSeg_slock (b : Build) (c : NodeCfg) (m : Mem) (off x : Nat) :
    Slock (searchSeg b c m off x) (searchSeg b.lax c m off x) := by
  unfold searchSeg
  simp only [simd_lax]
  refine Slock.ite ?_ ?_ <;>
  slock [loadVec_slock _ _ _ _ _ _, segLoop_slock _ _ _ _ _ _ _ _]

theorem searchKey_slock (b : Build) (c : NodeCfg) (m : Mem) (off x i : Nat) :
    Slock (searchKey b c m off x i) (searchKey b.lax c m off x i) := by
  unfold searchKey
  simp only [simd_lax, massert_lax]
  refine Slock.ite ?_ ?_ <;>
  slock [loadVec_slock _ _ _ _ _ _, keyLoop_slock _ _ _ _ _ _ _]

theorem searchBody_slock (b : Build) (c : NodeCfg) (m : Mem) (off x : Nat) :
    Slock (searchBody b c m off x) (searchBody b.lax c m off x) := by
  unfold searchBody
  simp only [massert_lax]
  refine Slock.bind (searchSeg_slock _ _ _ _ _) fun _ => ?_
  refine Slock.bind (Slock.refl _) fun _ => ?_
  refine Slock.bind (load_slock _ _ _ _) fun _ => ?_
  slock [searchKey_slock _ _ _ _ _ _, nodeSum_slock _ _ _ _ _]

theorem nodeSearch_slock (b : Build) (c : NodeCfg) (m : Mem) (off x : Nat) :
    Slock (nodeSearch b c m off x) (nodeSearch b.lax c m off x) := by
  unfold nodeSearch
  simp only [massert_lax]
  split
  · exact searchBody_slock _ _ _ _ _
  · show Slock (if b.ndebug = true then searchBody b c m off x else do
        let s ← nodeSum b c m off (c.fanout - 1)
        let _ ← massert b (decide (x < s))
        searchBody b c m off x) (if b.ndebug = true then searchBody b.lax c m off x else do
        let s ← nodeSum b.lax c m off (c.fanout - 1)
        let _ ← massert b (decide (x < s))
        searchBody b.lax c m off x)
    slock [searchBody_slock _ _ _ _ _, nodeSum_slock _ _ _ _ _]
  · slock [searchBody_slock _ _ _ _ _, nodeSum_slock _ _ _ _ _]

/-! ## Trees -/

theorem nn_slock (b : Build) (t : Tree) (l : Nat) : Slock (t.nn b l) (t.nn b.lax l) := by
  unfold Tree.nn
  split
  · exact load_slock _ _ _ _
  · exact Slock.refl _

theorem treeSum_slock (fam : TreeFam) (b : Build) (H : Nat) (t : Tree) (i : Nat) :
    Slock (fam.sum b H t i) (fam.sum b.lax H t i) := by
  cases fam
  · show Slock (avx2Sum b H t i) (avx2Sum b.lax H t i)
    unfold avx2Sum
    refine Slock.bind (Slock.refl _) fun _ => ?_
    split
    · unfold avx2Sum1; slock [nodeSum_slock _ _ _ _ _]
    · unfold avx2Sum2; slock [nodeSum_slock _ _ _ _ _]
    · unfold avx2Sum3; slock [nodeSum_slock _ _ _ _ _, nn_slock _ _ _]
    · unfold avx2Sum4; slock [nodeSum_slock _ _ _ _ _, nn_slock _ _ _]
    · exact Slock.refl _
  · show Slock (avx512Sum b H t i) (avx512Sum b.lax H t i)
    unfold avx512Sum
    refine Slock.bind (Slock.refl _) fun _ => ?_
    split
    · unfold avx512Sum1; slock [nodeSum_slock _ _ _ _ _]
    · unfold avx512Sum2; slock [nodeSum_slock _ _ _ _ _]
    · unfold avx512Sum3; slock [nodeSum_slock _ _ _ _ _, nn_slock _ _ _]
    · exact Slock.refl _

theorem treeUpdate_slock (fam : TreeFam) (b : Build) (H : Nat) (t : Tree) (i : Nat) (sign : Bool) :
    Slock (fam.update b H t i sign) (fam.update b.lax H t i sign) := by
  cases fam
  · show Slock (avx2Update b H t i sign) (avx2Update b.lax H t i sign)
    unfold avx2Update
    refine Slock.bind (Slock.refl _) fun _ => ?_
    split
    · unfold avx2Update1; slock [nodeUpdate_slock _ _ _ _ _ _]
    · unfold avx2Update2; slock [nodeUpdate_slock _ _ _ _ _ _]
    · unfold avx2Update3; slock [nodeUpdate_slock _ _ _ _ _ _, nn_slock _ _ _]
    · unfold avx2Update4; slock [nodeUpdate_slock _ _ _ _ _ _, nn_slock _ _ _]
    · exact Slock.refl _
  · show Slock (avx512Update b H t i sign) (avx512Update b.lax H t i sign)
    unfold avx512Update
    refine Slock.bind (Slock.refl _) fun _ => ?_
    split
    · unfold avx512Update1; slock [nodeUpdate_slock _ _ _ _ _ _]
    · unfold avx512Update2; slock [nodeUpdate_slock _ _ _ _ _ _]
    · unfold avx512Update3; slock [nodeUpdate_slock _ _ _ _ _ _, nn_slock _ _ _]
    · exact Slock.refl _

theorem treeSearch_slock (fam : TreeFam) (b : Build) (H : Nat) (t : Tree) (x : Nat) :
    Slock (fam.search b H t x) (fam.search b.lax H t x) := by
  cases fam
  · show Slock (avx2Search b H t x) (avx2Search b.lax H t x)
    unfold avx2Search
    split
    · unfold avx2Search1; slock [nodeSearch_slock _ _ _ _ _]
    · unfold avx2Search2; slock [nodeSearch_slock _ _ _ _ _]
    · unfold avx2Search3; slock [nodeSearch_slock _ _ _ _ _, nn_slock _ _ _]
    · unfold avx2Search4; slock [nodeSearch_slock _ _ _ _ _, nn_slock _ _ _]
    · exact Slock.refl _
  · show Slock (avx512Search b H t x) (avx512Search b.lax H t x)
    unfold avx512Search
    split
    · unfold avx512Search1; slock [nodeSearch_slock _ _ _ _ _]
    · unfold avx512Search2; slock [nodeSearch_slock _ _ _ _ _]
    · unfold avx512Search3; slock [nodeSearch_slock _ _ _ _ _, nn_slock _ _ _]
    · exact Slock.refl _

/-! ## The bitmap -/

/-- The same class on a machine that tolerates misaligned accesses. -/
def Config.lax (c : Config) : Config := { c with b := c.b.lax }

theorem blockRank_lax (b : Build) (t : BlockType) (g : Scratch) (x : Ptr) (i : Nat) :
    t.rank b.lax g x i = t.rank b g x i := rfl

theorem selLoop_lax (b : Build) (pcm : Nat) (x : Ptr) : ∀ fuel i k cnt,
    selLoop b.lax pcm x fuel i k cnt = selLoop b pcm x fuel i k cnt := by
  intro fuel
  induction fuel with
  | zero => intro i k cnt; rfl
  | succ f ih => intro i k cnt; unfold selLoop; simp only [ih]; rfl

theorem selectGeneric_lax (b : Build) (W mode : Nat) (x : Ptr) (k : Nat) :
    selectGeneric b.lax W mode x k = selectGeneric b W mode x k := by
  unfold selectGeneric
  simp only [selLoop_lax]; rfl

theorem blockSelect_lax (b : Build) (t : BlockType) (g : Scratch) (x : Ptr) (k : Nat) :
    t.select b.lax g x k = t.select b g x k := by
  unfold BlockType.select
  split
  · rfl
  · unfold selectU256; simp only [selectGeneric_lax]; rfl
  · unfold selectU512; simp only [selectGeneric_lax]; rfl

theorem bmBuild_slock (c : Config) (addr : Nat) (input : Vec Word) (nw : Nat) (bm : Bitmap) :
    Slock (bmBuild c addr input nw bm) (bmBuild c.lax addr input nw bm) := by
  unfold bmBuild
  refine Slock.bind (Slock.refl _) fun _ => ?_
  refine Slock.bind (Slock.refl _) fun _ => ?_
  refine Slock.bind (Or.inr rfl) fun _ => ?_
  exact Slock.bind (treeBuild_slock _ _ _ _ _ _ _) fun _ => Slock.refl _

theorem bmFlip_slock (c : Config) (bm : Bitmap) (i : Nat) :
    Slock (bmFlip c bm i) (bmFlip c.lax bm i) := by
  unfold bmFlip
  refine Slock.bind (Slock.refl _) fun _ => ?_
  refine Slock.bind (Slock.refl _) fun _ => ?_
  refine Slock.bind (Slock.refl _) fun _ => ?_
  refine Slock.bind (Slock.refl _) fun _ => ?_
  refine Slock.bind (Slock.refl _) fun _ => ?_
  exact Slock.bind (treeUpdate_slock _ _ _ _ _ _) fun _ => Slock.refl _

theorem bmRank_slock (c : Config) (g : Scratch) (bm : Bitmap) (i : Nat) :
    Slock (bmRank c g bm i) (bmRank c.lax g bm i) := by
  unfold bmRank
  refine Slock.bind (Slock.refl _) fun _ => ?_
  refine Slock.bind (Slock.ite (treeSum_slock _ _ _ _ _) (Slock.refl _)) fun _ => ?_
  exact Slock.refl _

theorem bmSelect_slock (c : Config) (g : Scratch) (bm : Bitmap) (i : Nat) :
    Slock (bmSelect c g bm i) (bmSelect c.lax g bm i) := by
  unfold bmSelect
  refine Slock.bind (Slock.refl _) fun _ => ?_
  refine Slock.bind (treeSearch_slock _ _ _ _ _) fun _ => ?_
  refine Slock.bind (Slock.refl _) fun _ => ?_
  exact Slock.bind (Or.inr (blockSelect_lax _ _ _ _ _).symm) fun _ => Slock.refl _

theorem exec_slock (c : Config) (ops : List Op) : ∀ bm : Bitmap,
    Slock (c.exec bm ops) (c.lax.exec bm ops) := by
  induction ops with
  | nil => intro bm; exact Slock.refl _
  | cons o os ih =>
    intro bm
    refine Slock.bind ?_ fun bm' => ih bm'
    cases o with
    | build addr ws => exact bmBuild_slock _ _ _ _ _
    | flip i => exact bmFlip_slock _ _ _

end MRS
