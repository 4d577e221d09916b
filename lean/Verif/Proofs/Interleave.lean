import Verif.Proofs.Threads

/-!
# Interleavings

A thread runs as if it were alone as long as nobody else writes the words it reads.
-/

set_option autoImplicit false

namespace MRS
open Outcome Act

namespace Act
variable {α β : Type}

/-- All reads satisfy `R`, all writes satisfy `W`. -/
def Only (R W : Loc → Prop) : Act α → Prop
  | done _ => True
  | get l k => R l ∧ ∀ v, Only R W (k v)
  | put l _ k => W l ∧ Only R W k

variable {R W : Loc → Prop}

theorem Only.bind {a : Act α} {f : α → Act β} (ha : Only R W a) (hf : ∀ x, Only R W (f x)) :
    Only R W (a >>= f) := by
  show Only R W (a.bind f)
  induction a with
  | done o =>
    cases o with
    | ok a => exact hf a
    | ub e => trivial
    | abort => trivial
  | get l k ih => exact ⟨ha.1, fun v => ih v (ha.2 v)⟩
  | put l v k ih => exact ⟨ha.1, ih ha.2⟩

theorem Only.lift {o : Outcome α} {f : α → Act β} (hf : ∀ x, Only R W (f x)) : Only R W (done o >>= f) :=
  Only.bind (a := done o) trivial hf

theorem Only.loop {body : Nat → α → Act α} (hb : ∀ j s, Only R W (body j s)) :
    ∀ (n a : Nat) (s : α), Only R W (Act.loop a n body s) := by
  intro n
  induction n with
  | zero => intro a s; trivial
  | succ n ih => intro a s; exact Only.bind (hb a s) fun s => ih (a + 1) s

theorem Only.mono {R' W' : Loc → Prop} (hR : ∀ l, R l → R' l) (hW : ∀ l, W l → W' l) {a : Act α}
    (h : Only R W a) : Only R' W' a := by
  induction a with
  | done o => trivial
  | get l k ih => exact ⟨hR l h.1, fun v => ih v (h.2 v)⟩
  | put l v k ih => exact ⟨hW l h.1, ih h.2⟩

end Act

/-! ## What the queries access -/

/-- Words of the instance may be read; all but the sentinel may be written. -/
structure Perm (fn : Fn) (R W : Loc → Prop) : Prop where
  read : ∀ a j, R ⟨fn, a, j⟩
  write : ∀ a j, (a = .sums → j ≠ 0) → W ⟨fn, a, j⟩

section
variable {fn : Fn} {R W : Loc → Prop} (h : Perm fn R W)
include h

theorem only_readArr (a : Arr) (len i : Nat) : Only R W (readArr fn a len i) := by
  unfold readArr
  split
  · exact ⟨h.read _ _, fun _ => trivial⟩
  · trivial

theorem only_read (a : Arr) (j : Nat) : Only R W (readW ⟨fn, a, j⟩) := ⟨h.read _ _, fun _ => trivial⟩

theorem only_write {a : Arr} {j : Nat} (hj : a = .sums → j ≠ 0) (v : Nat) :
    Only R W (writeW ⟨fn, a, j⟩ v) := ⟨h.write _ _ hj, trivial⟩

theorem only_counts (j v : Nat) : Only R W (writeW ⟨fn, .counts, j⟩ v) :=
  only_write h (fun e => by cases e) v

theorem only_loadArr (a : Arr) (n : Nat) : Only R W (loadArr fn a n) := by
  unfold loadArr
  refine Only.loop (fun j L => ?_) _ _ _
  refine Only.bind (only_read h a j) fun v => ?_
  trivial

theorem only_storeSums (n : Nat) (L : Lanes) : Only R W (storeArr fn .sums 1 n L) :=
  Only.loop (fun j _ => only_write h (fun _ => by omega) _) _ _ _

theorem only_storeCounts (n : Nat) (L : Lanes) : Only R W (storeArr fn .counts 0 n L) :=
  Only.loop (fun _ _ => only_counts h _ _) _ _ _

theorem only_countArr (n : Nat) (x : Ptr) : Only R W (countArr fn n x) :=
  Only.loop (fun _ _ => Only.lift fun _ => only_counts h _ _) _ _ _

theorem only_unrolledA (n : Nat) (C : Nat → Outcome Nat) : Only R W (unrolledA fn n C) :=
  Only.bind (only_counts h _ _) fun _ =>
    Only.loop (fun _ _ => Only.bind (only_read h _ _) fun _ => Only.lift fun _ => only_counts h _ _) _ _ _

theorem only_rankVecUnrolledA (b : Build) (n : Nat) (x : Ptr) (i : Nat) :
    Only R W (rankVecUnrolledA b fn n x i) :=
  Only.lift fun _ => Only.lift fun _ => Only.lift fun _ => Only.bind (only_unrolledA h _ _) fun _ =>
    Only.bind (only_readArr h _ _ _) fun _ => trivial

theorem only_rankVecParallelA (b : Build) (n : Nat) (ps : Lanes → Lanes) (x : Ptr) (i : Nat) :
    Only R W (rankVecParallelA b fn n ps x i) :=
  Only.lift fun _ => Only.lift fun _ => Only.lift fun _ => Only.bind (only_storeSums h _ _) fun _ =>
    Only.bind (only_readArr h _ _ _) fun _ => trivial

theorem only_rank256BuiltinParallelA (b : Build) (x : Ptr) (i : Nat) :
    Only R W (rank256BuiltinParallelA b fn x i) :=
  Only.lift fun _ => Only.bind (only_counts h _ _) fun _ =>
  Only.lift fun _ => Only.bind (only_counts h _ _) fun _ =>
  Only.lift fun _ => Only.bind (only_counts h _ _) fun _ =>
  Only.lift fun _ => Only.bind (only_counts h _ _) fun _ =>
  Only.lift fun _ => Only.bind (only_loadArr h _ _) fun _ => Only.bind (only_storeCounts h _ _) fun _ =>
    Only.bind (only_readArr h _ _ _) fun _ => trivial

theorem only_rank512BuiltinParallelA (b : Build) (x : Ptr) (i : Nat) :
    Only R W (rank512BuiltinParallelA b fn x i) :=
  Only.lift fun _ => Only.bind (only_countArr h _ _) fun _ =>
  Only.lift fun _ => Only.bind (only_loadArr h _ _) fun _ => Only.bind (only_storeSums h _ _) fun _ =>
    Only.bind (only_readArr h _ _ _) fun _ => trivial

theorem only_selectTailA (b : Build) (n : Nat) (x : Ptr) (L : Lanes) (k : Nat) :
    Only R W (selectTailA b fn n x L k) :=
  Only.lift fun _ => Only.bind (only_storeSums h _ _) fun _ =>
  Only.lift fun _ => Only.bind (only_readArr h _ _ _) fun _ => Only.lift fun _ => trivial

theorem only_selectBuiltinVecA (b : Build) (n : Nat) (ps : Lanes → Lanes) (x : Ptr) (k : Nat) :
    Only R W (selectBuiltinVecA b fn n ps x k) :=
  Only.bind (only_countArr h _ _) fun _ => Only.bind (only_loadArr h _ _) fun _ => only_selectTailA h _ _ _ _ _

theorem only_selectVecA (b : Build) (n : Nat) (ps : Lanes → Lanes) (x : Ptr) (k : Nat) :
    Only R W (selectVecA b fn n ps x k) :=
  Only.lift fun _ => only_selectTailA h _ _ _ _ _
end

theorem only_rankGenericA {fn : Fn} {R W : Loc → Prop} {mode : Nat} (h : exSecond mode = 1 → Perm fn R W)
    (b : Build) (n : Nat) (x : Ptr) (i : Nat) : Only R W (rankGenericA b fn n mode x i) := by
  refine Only.lift fun _ => Only.lift fun r => ?_
  generalize exSecond mode = e at h
  match e with
  | 0 => exact Only.lift fun _ => trivial
  | 1 =>
    exact Only.bind (only_unrolledA (h rfl) _ _) fun _ => Only.bind (only_readArr (h rfl) _ _ _) fun _ => trivial
  | n + 2 => exact Only.lift fun _ => trivial

theorem only_rankU256A {R W : Loc → Prop} {mode : Nat}
    (h : (⟨false, 4, mode⟩ : Fn).static = true → Perm ⟨false, 4, mode⟩ R W)
    (b : Build) (x : Ptr) (i : Nat) : Only R W (rankU256A b mode x i) := by
  unfold rankU256A
  split
  · trivial
  · split
    · rename_i e; subst e; exact only_rankVecUnrolledA (h (by decide)) _ _ _ _
    · split
      · rename_i e; subst e; exact only_rank256BuiltinParallelA (h (by decide)) _ _ _
      · split
        · rename_i e; subst e; exact only_rankVecParallelA (h (by decide)) _ _ _ _ _
        · exact only_rankGenericA (fun e => h (by simp [Fn.static, e])) _ _ _ _

theorem only_rankU512A {R W : Loc → Prop} {mode : Nat}
    (h : (⟨false, 8, mode⟩ : Fn).static = true → Perm ⟨false, 8, mode⟩ R W)
    (b : Build) (x : Ptr) (i : Nat) : Only R W (rankU512A b mode x i) := by
  unfold rankU512A
  split
  · rename_i e; subst e; exact only_rank512BuiltinParallelA (h (by decide)) _ _ _
  · split
    · trivial
    · split
      · rename_i e; subst e; exact only_rankVecUnrolledA (h (by decide)) _ _ _ _
      · split
        · rename_i e; subst e; exact only_rankVecParallelA (h (by decide)) _ _ _ _ _
        · exact only_rankGenericA (fun e => h (by simp [Fn.static, e])) _ _ _ _

theorem only_selectU256A {R W : Loc → Prop} {mode : Nat}
    (h : (⟨true, 4, mode⟩ : Fn).static = true → Perm ⟨true, 4, mode⟩ R W)
    (b : Build) (x : Ptr) (k : Nat) : Only R W (selectU256A b mode x k) := by
  unfold selectU256A
  split
  · rename_i e; subst e; exact only_selectBuiltinVecA (h (by decide)) _ _ _ _ _
  · split
    · rename_i e; subst e; exact only_selectVecA (h (by decide)) _ _ _ _ _
    · trivial

theorem only_selectU512A {R W : Loc → Prop} {mode : Nat}
    (h : (⟨true, 8, mode⟩ : Fn).static = true → Perm ⟨true, 8, mode⟩ R W)
    (b : Build) (x : Ptr) (k : Nat) : Only R W (selectU512A b mode x k) := by
  unfold selectU512A
  split
  · rename_i e; subst e; exact only_selectBuiltinVecA (h (by decide)) _ _ _ _ _
  · split
    · rename_i e; subst e; exact only_selectVecA (h (by decide)) _ _ _ _ _
    · trivial

/-- Words a query may touch. -/
def Job.Touches (j : Job) (l : Loc) : Prop := j.fn = some l.fn ∧ l.fn.static = true

/-- The first word of a `sums` array; nobody ever writes it. -/
def Loc.Sentinel (l : Loc) : Prop := l.arr = .sums ∧ l.idx = 0

theorem only_act (j : Job) : Only j.Touches (fun l => j.Touches l ∧ ¬ l.Sentinel) j.act := by
  obtain ⟨c, bm, q⟩ := j
  have hp : ∀ fn : Fn, Job.fn ⟨c, bm, q⟩ = some fn → fn.static = true →
      Perm fn (Job.Touches ⟨c, bm, q⟩) (fun l => Job.Touches ⟨c, bm, q⟩ l ∧ ¬ l.Sentinel) := fun fn h1 h2 =>
    ⟨fun _ _ => ⟨h1, h2⟩, fun a j hj => ⟨⟨h1, h2⟩, fun hs => hj hs.1 hs.2⟩⟩
  cases q with
  | rank i =>
    refine Only.lift fun _ => Only.lift fun _ => Only.lift fun p => Only.bind ?_ fun _ => trivial
    unfold BlockType.rankA
    cases hw : c.blk.width with
    | w64 => trivial
    | w256 => exact only_rankU256A (hp _ (by unfold Job.fn; rw [hw]; rfl)) _ _ _
    | w512 => exact only_rankU512A (hp _ (by unfold Job.fn; rw [hw]; rfl)) _ _ _
  | select k =>
    refine Only.lift fun _ => Only.lift fun _ => Only.lift fun p => Only.bind ?_ fun _ => trivial
    unfold BlockType.selectA
    cases hw : c.blk.width with
    | w64 => trivial
    | w256 => exact only_selectU256A (hp _ (by unfold Job.fn; rw [hw]; rfl)) _ _ _
    | w512 => exact only_selectU512A (hp _ (by unfold Job.fn; rw [hw]; rfl)) _ _ _

/-! ## Running among others -/

namespace Act
variable {α β : Type}

/-- One step alone. -/
def one : Act α → Statics → Act α × Statics
  | done o, m => (done o, m)
  | get l k, m => (k (m l), m)
  | put l v k, m => (k, lset m l v)

/-- `n` steps alone. -/
def steps : Nat → Act α → Statics → Act α × Statics
  | 0, a, m => (a, m)
  | n + 1, a, m => steps n (a.one m).1 (a.one m).2

theorem steps_finished (n : Nat) (o : Outcome α) (m : Statics) : steps n (done o) m = (done o, m) := by
  induction n with
  | zero => rfl
  | succ n ih => exact ih

/-- Enough steps end the program. -/
theorem steps_end (a : Act α) : ∀ m, ∃ n, ∀ k, n ≤ k → steps k a m = (done (a.solo m).1, (a.solo m).2) := by
  induction a with
  | done o => exact fun m => ⟨0, fun k _ => steps_finished k o m⟩
  | get l f ih =>
    intro m
    obtain ⟨n, hn⟩ := ih (m l) m
    refine ⟨n + 1, fun k hk => ?_⟩
    obtain ⟨k, rfl⟩ : ∃ k', k = k' + 1 := ⟨k - 1, by omega⟩
    exact hn k (by omega)
  | put l v a ih =>
    intro m
    obtain ⟨n, hn⟩ := ih (lset m l v)
    refine ⟨n + 1, fun k hk => ?_⟩
    obtain ⟨k, rfl⟩ : ∃ k', k = k' + 1 := ⟨k - 1, by omega⟩
    exact hn k (by omega)

/-- Some number of steps gets through the first part. -/
theorem steps_bind (a : Act α) (f : α → Act β) : ∀ m x m', a.solo m = (ok x, m') →
    ∃ n, steps n (a >>= f) m = (f x, m') := by
  show ∀ m x m', a.solo m = (ok x, m') → ∃ n, steps n (a.bind f) m = (f x, m')
  induction a with
  | done o => intro m x m' h; cases h; exact ⟨0, rfl⟩
  | get l k ih =>
    intro m x m' h
    obtain ⟨n, hn⟩ := ih (m l) m x m' h
    exact ⟨n + 1, hn⟩
  | put l v k ih =>
    intro m x m' h
    obtain ⟨n, hn⟩ := ih (lset m l v) x m' h
    exact ⟨n + 1, hn⟩

theorem Only.one {R W : Loc → Prop} {a : Act α} (h : Only R W a) (m : Statics) : Only R W (a.one m).1 := by
  cases a with
  | done o => trivial
  | get l k => exact h.2 _
  | put l v k => exact h.2

end Act

theorem St.step_thr (s : St) (t : Nat) : (s.step t).thr = thrSet s.thr t ((s.thr t).one s.mem).1 := by
  unfold St.step
  cases h : s.thr t with
  | done o =>
    funext u
    show s.thr u = if u = t then done o else s.thr u
    by_cases e : u = t
    · rw [if_pos e, e, h]
    · rw [if_neg e]
  | get l k => rfl
  | put l v k => rfl

theorem St.step_mem (s : St) (t : Nat) : (s.step t).mem = ((s.thr t).one s.mem).2 := by
  unfold St.step
  cases h : s.thr t <;> rfl

theorem St.step_same (s : St) (t : Nat) : (s.step t).thr t = ((s.thr t).one s.mem).1 := by
  rw [St.step_thr]; exact if_pos rfl

theorem St.step_other (s : St) {t u : Nat} (h : u ≠ t) : (s.step t).thr u = s.thr u := by
  rw [St.step_thr]; exact if_neg h

/-- No thread but `t` writes to `F` along the schedule. -/
def St.Clear (F : Loc → Prop) (t : Nat) : St → List Nat → Prop
  | _, [] => True
  | s, u :: σ => (u ≠ t → ∀ l, (s.thr u).Writes l → ¬ F l) ∧ St.Clear F t (s.step u) σ

theorem agree_one {F : Loc → Prop} {W : Loc → Prop} {α : Type} {a : Act α} (h : Only F W a) {m m' : Statics}
    (hm : ∀ l, F l → m l = m' l) :
    (a.one m).1 = (a.one m').1 ∧ ∀ l, F l → (a.one m).2 l = (a.one m').2 l := by
  cases a with
  | done o => exact ⟨rfl, hm⟩
  | get l k => exact ⟨congrArg k (hm l h.1), hm⟩
  | put l v k =>
    refine ⟨rfl, fun l' hl' => ?_⟩
    show (if l' = l then v else m l') = if l' = l then v else m' l'
    rw [hm l' hl']

/-- The thread does what it would do alone. -/
theorem St.follow {F W : Loc → Prop} {t : Nat} (σ : List Nat) : ∀ {s : St} {m : Statics},
    Only F W (s.thr t) → (∀ l, F l → s.mem l = m l) → s.Clear F t σ →
    (s.run σ).thr t = (steps (σ.count t) (s.thr t) m).1 := by
  induction σ with
  | nil => intro s m _ _ _; rfl
  | cons u σ ih =>
    intro s m ho hm hc
    show ((s.step u).run σ).thr t = _
    by_cases h : u = t
    · subst h
      obtain ⟨h1, h2⟩ := agree_one ho hm
      rw [List.count_cons_self]
      rw [ih (s := s.step u) (m := ((s.thr u).one m).2) (by rw [St.step_same]; exact ho.one _)
        (by rw [St.step_mem]; exact h2) hc.2, St.step_same, h1]
      rfl
    · have hs := St.step_other s (t := u) (u := t) (fun e => h e.symm)
      rw [List.count_cons_of_ne (fun e => h e)]
      rw [ih (s := s.step u) (m := m) (by rw [hs]; exact ho) ?_ hc.2, hs]
      intro l hl
      rw [St.step_mem, ← hm l hl]
      cases hu : s.thr u with
      | done o => rfl
      | get l' k => rfl
      | put l' v k =>
        refine if_neg fun e => ?_
        subst e
        exact hc.1 h l (by rw [hu]; rfl) hl

/-- Properties of all programs stay. -/
theorem St.only_run {R W : Nat → Loc → Prop} (σ : List Nat) : ∀ {s : St},
    (∀ t, Only (R t) (W t) (s.thr t)) → ∀ t, Only (R t) (W t) ((s.run σ).thr t) := by
  induction σ with
  | nil => intro s h; exact h
  | cons u σ ih =>
    intro s h
    refine ih (s := s.step u) fun t => ?_
    by_cases e : t = u
    · subst e; rw [St.step_same]; exact (h t).one _
    · rw [St.step_other s e]; exact h t

theorem Act.Only.writes {R W : Loc → Prop} {α : Type} {a : Act α} (h : Only R W a) {l : Loc} (hl : a.Writes l) :
    W l := by
  cases a with
  | done o => exact hl.elim
  | get l' k => exact hl.elim
  | put l' v k => rw [← show l' = l from hl]; exact h.1

theorem Act.Only.uses {R W : Loc → Prop} {α : Type} {a : Act α} (h : Only R W a) {l : Loc} (hl : a.Uses l) :
    R l ∨ W l := by
  cases a with
  | done o => exact hl.elim
  | get l' k => rw [← show l' = l from hl]; exact Or.inl h.1
  | put l' v k => rw [← show l' = l from hl]; exact Or.inr h.1

theorem St.clear_of {F : Loc → Prop} {t : Nat} (σ : List Nat) : ∀ {s : St} {R W : Nat → Loc → Prop},
    (∀ u, Only (R u) (W u) (s.thr u)) → (∀ u ∈ σ, u ≠ t → ∀ l, W u l → ¬ F l) → s.Clear F t σ := by
  induction σ with
  | nil => intro s R W _ _; trivial
  | cons u σ ih =>
    intro s R W ho hW
    exact ⟨fun hu l hl => hW u List.mem_cons_self hu l ((ho u).writes hl),
      ih (St.only_run [u] ho) fun v hv => hW v (List.mem_cons_of_mem _ hv)⟩

/-- Words that nobody writes keep their value. -/
theorem St.keep {F : Loc → Prop} (σ : List Nat) : ∀ {s : St} {R W : Nat → Loc → Prop},
    (∀ u, Only (R u) (W u) (s.thr u)) → (∀ u, ∀ l, W u l → ¬ F l) → ∀ l, F l → (s.run σ).mem l = s.mem l := by
  induction σ with
  | nil => intro s R W _ _ l _; rfl
  | cons u σ ih =>
    intro s R W ho hW l hl
    show ((s.step u).run σ).mem l = _
    rw [ih (s := s.step u) (St.only_run [u] ho) hW l hl, St.step_mem]
    have := ho u
    cases hu : s.thr u with
    | done o => rfl
    | get l' k => rfl
    | put l' v k =>
      rw [hu] at this
      show (if l = l' then v else s.mem l) = _
      refine if_neg fun e => ?_
      subst e
      exact hW u l this.1 hl

/-- A thread that ended stays as it is. -/
theorem St.stay {t : Nat} {o : Outcome Nat} (σ : List Nat) : ∀ {s : St}, s.thr t = done o →
    (s.run σ).thr t = done o := by
  induction σ with
  | nil => intro s h; exact h
  | cons u σ ih =>
    intro s h
    refine ih (s := s.step u) ?_
    by_cases e : t = u
    · subst e; rw [St.step_same, h]; rfl
    · rw [St.step_other s e, h]

/-- A thread that was not scheduled has not moved. -/
theorem St.idle {t : Nat} (σ : List Nat) : ∀ {s : St}, t ∉ σ → (s.run σ).thr t = s.thr t := by
  induction σ with
  | nil => intro s _; rfl
  | cons u σ ih =>
    intro s h
    have h1 : t ≠ u := fun e => h (by rw [e]; exact List.mem_cons_self)
    rw [← St.step_other s h1]
    exact ih (s := s.step u) fun h' => h (List.mem_cons_of_mem _ h')

theorem St.run_append (s : St) (σ τ : List Nat) : s.run (σ ++ τ) = (s.run σ).run τ := List.foldl_append

/-- Only thread `t` runs. -/
theorem St.run_alone (t : Nat) (n : Nat) : ∀ s : St, s.run (List.replicate n t) =
    ⟨thrSet s.thr t (steps n (s.thr t) s.mem).1, (steps n (s.thr t) s.mem).2⟩ := by
  induction n with
  | zero =>
    intro s
    show s = _
    have : thrSet s.thr t (s.thr t) = s.thr := by
      funext u; unfold thrSet; split
      · rename_i e; subst e; rfl
      · rfl
    show s = ⟨thrSet s.thr t (s.thr t), s.mem⟩
    rw [this]
  | succ n ih =>
    intro s
    show (s.step t).run (List.replicate n t) = _
    rw [ih, St.step_same, St.step_mem, St.step_thr]
    congr 1
    funext u
    unfold thrSet
    split <;> rfl

end MRS
