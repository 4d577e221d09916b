import Verif.Proofs.Mranisz.Threads

/-!
# Interleavings

A thread runs as if it were alone as long as nobody else writes the members it reads.
-/

set_option autoImplicit false

namespace MRS.Mran
open Outcome Prog

namespace Prog
variable {α β : Type}

/-- All reads satisfy `R`, all writes satisfy `W`. -/
def Only (R W : Cell → Prop) : Prog α → Prop
  | done _ => True
  | get l k => R l ∧ ∀ v, Only R W (k v)
  | put l _ k => W l ∧ Only R W k

variable {R W : Cell → Prop}

theorem Only.bind {a : Prog α} {f : α → Prog β} (ha : Only R W a) (hf : ∀ x, Only R W (f x)) :
    Only R W (a >>= f) := by
  show Only R W (a.bind f)
  induction a with
  | done o =>
    cases o with
    | ok a => exact hf a
    | ub e => trivial
    | abort => trivial
  | get l k ih => exact ⟨ha.1, fun v => ih v (ha.2 v)⟩
  | put l v k ih => exact ⟨ha.1, ih ha.2⟩

theorem Only.lift {o : Outcome α} {f : α → Prog β} (hf : ∀ x, Only R W (f x)) : Only R W (done o >>= f) :=
  Only.bind (a := done o) trivial hf

theorem Only.loop {body : Nat → α → Prog α} (hb : ∀ j s, Only R W (body j s)) :
    ∀ (n a : Nat) (s : α), Only R W (Prog.loop a n body s) := by
  intro n
  induction n with
  | zero => intro a s; trivial
  | succ n ih => intro a s; exact Only.bind (hb a s) fun s => ih (a + 1) s

theorem Only.mono {R' W' : Cell → Prop} (hR : ∀ l, R l → R' l) (hW : ∀ l, W l → W' l) {a : Prog α}
    (h : Only R W a) : Only R' W' a := by
  induction a with
  | done o => trivial
  | get l k ih => exact ⟨hR l h.1, fun v => ih v (h.2 v)⟩
  | put l v k ih => exact ⟨hW l h.1, ih h.2⟩

end Prog

/-! ## What the queries access -/

/-- A query accesses its own object. -/
def Own (o : Nat) (l : Cell) : Prop := l.obj = o

section
variable {α β : Type} {o : Nat}

theorem own_getP (b : Bool) : Only (Own o) (Own o) (getP ⟨o, b⟩) := ⟨rfl, fun _ => trivial⟩
theorem own_setP (b : Bool) (v : Nat) : Only (Own o) (Own o) (setP ⟨o, b⟩ v) := ⟨rfl, trivial⟩

theorem own_ite {c : Prop} [Decidable c] {a b : Prog α} (ha : Only (Own o) (Own o) a) (hb : Only (Own o) (Own o) b) :
    Only (Own o) (Own o) (if c then a else b) := by split <;> assumption

theorem own_tail (bits : Vec (Option Word)) (i : Nat) (h : Head) : Only (Own o) (Own o) (tailA bits o i h) := by
  cases h with
  | known r => trivial
  | block rank =>
    show Only (Own o) (Own o) (inBlockA bits o rank i)
    unfold inBlockA
    refine Only.bind (Only.loop (fun j r => Only.bind (own_getP _) fun p => ?_) _ _ _) fun r => ?_
    · exact Only.lift fun w => trivial
    exact Only.bind (own_getP _) fun p => Only.lift fun w => Only.lift fun m => trivial

theorem own_at2 (r : Vec (Option Nat)) (k : Nat) : Only (Own o) (Own o) (at2 o r k) :=
  Only.bind (own_getP _) fun _ => trivial

theorem own_slot1 (r : Vec (Option Nat)) (e n : Nat) : Only (Own o) (Own o) (slot1A o r e n) :=
  Only.bind (own_getP _) fun _ => trivial

theorem own_slot2 (r : Vec (Option Nat)) (n : Nat) : Only (Own o) (Own o) (slot2A o r n) :=
  Only.bind (own_getP _) fun _ => trivial

theorem own_headStd (x : Basic) (i : Nat) : Only (Own o) (Own o) (headStd o x i) := by
  refine Only.lift fun _ => Only.lift fun _ => own_ite trivial ?_
  exact Only.lift fun _ => Only.bind (own_setP _ _) fun _ => trivial

theorem own_headCF (x : CF) (i : Nat) : Only (Own o) (Own o) (headCF o x i) := by
  refine own_ite ?_ ?_
  · refine Only.bind (own_setP _ _) fun _ => Only.bind (own_getP _) fun _ => Only.lift fun _ =>
      Only.bind (own_getP _) fun _ => Only.lift fun _ => own_ite trivial ?_
    exact Only.bind (own_getP _) fun _ => Only.bind (own_setP _ _) fun _ => trivial
  · refine Only.lift fun _ => Only.lift fun _ => own_ite trivial ?_
    exact Only.lift fun _ => Only.bind (own_setP _ _) fun _ => trivial

theorem own_headBch (x : Basic) (i : Nat) : Only (Own o) (Own o) (headBch o x i) := by
  refine Only.bind (own_setP _ _) fun _ => Only.bind (own_at2 _ _) fun _ => Only.bind ?_ fun _ =>
    Only.bind ?_ fun _ => own_ite trivial (Only.bind ?_ fun _ => Only.bind (own_setP _ _) fun _ => trivial)
  · exact own_ite (Only.bind (own_slot1 _ _ _) fun _ => trivial) trivial
  · exact own_ite (own_at2 _ _) (Only.bind (own_at2 _ _) fun _ => Only.bind (own_slot2 _ _) fun _ => trivial)
  · exact own_ite (Only.bind (own_at2 _ _) fun _ => Only.bind (own_at2 _ _) fun _ => Only.lift fun _ => trivial)
      (own_at2 _ _)

theorem own_wordLoop (strict : Bool) (bits : Vec (Option Byte)) (n : Nat) : ∀ i s,
    Only (Own o) (Own o) (wordLoopA strict bits o n i s) := by
  induction n with
  | zero => intro i s; trivial
  | succ n ih =>
    intro i s
    exact Only.bind (own_getP _) fun _ => Only.lift fun _ => own_ite trivial
      (Only.bind (own_getP _) fun _ => Only.bind (own_setP _ _) fun _ => ih _ _)

theorem own_byteLoop (bits : Vec (Option Byte)) (n : Nat) : ∀ i s,
    Only (Own o) (Own o) (byteLoopA bits o n i s) := by
  induction n with
  | zero => intro i s; trivial
  | succ n ih =>
    intro i s
    exact Only.bind (own_getP _) fun _ => Only.lift fun _ => own_ite trivial
      (Only.bind (own_getP _) fun _ => Only.bind (own_setP _ _) fun _ => ih _ _)

theorem own_bitLoop (bits : Vec (Option Byte)) (s n : Nat) : ∀ j i,
    Only (Own o) (Own o) (bitLoopA bits o s n j i) := by
  induction n with
  | zero => intro i s; trivial
  | succ n ih =>
    intro j i
    exact Only.bind (own_getP _) fun _ => Only.lift fun _ => own_ite (own_ite trivial (ih _ _)) (ih _ _)

theorem own_scan (strict : Bool) (bits : Vec (Option Byte)) (off diff i s : Nat) :
    Only (Own o) (Own o) (scanBlockA strict bits o off diff i s) :=
  Only.bind (own_setP _ _) fun _ => Only.bind (own_wordLoop _ _ _ _ _) fun _ =>
    Only.bind (own_byteLoop _ _ _ _) fun _ => own_bitLoop _ _ _ _ _

theorem own_selectStd (strict : Bool) (L TH : Nat) (x : Select) (i : Nat) :
    Only (Own o) (Own o) (selectStdA strict L TH o x i) :=
  Only.lift fun _ => own_ite trivial (Only.lift fun _ => own_ite trivial (Only.lift fun _ =>
    own_ite (Only.lift fun _ => trivial) (own_scan _ _ _ _ _ _)))

theorem own_selectBch (strict : Bool) (L TH : Nat) (x : Select) (i : Nat) :
    Only (Own o) (Own o) (selectBchA strict L TH o x i) :=
  Only.bind (own_setP _ _) fun _ => Only.bind (own_at2 _ _) fun _ => own_ite trivial
    (Only.bind (own_ite (own_at2 _ _) (own_at2 _ _)) fun _ => own_ite trivial
      (Only.bind (own_at2 _ _) fun _ => Only.bind
        (own_ite (Only.bind (own_slot1 _ _ _) fun _ => trivial) trivial) fun _ =>
          own_ite (Only.lift fun _ => trivial) (own_scan _ _ _ _ _ _)))
end

theorem own_act (o : Nat) (q : Query) : Only (Own o) (Own o) (q.act o) := by
  cases q with
  | rankStd x i => exact Only.bind (own_headStd _ _) fun _ => own_tail _ _ _
  | rankBch x i => exact Only.bind (own_headBch _ _) fun _ => own_tail _ _ _
  | rankCF x i => exact Only.bind (own_headCF _ _) fun _ => own_tail _ _ _
  | selStd L TH x i => exact own_selectStd _ _ _ _ _
  | selBch L TH x i => exact own_selectBch _ _ _ _ _

/-! ## Running among others -/

namespace Prog
variable {α β : Type}

/-- One step alone. -/
def one : Prog α → Cells → Prog α × Cells
  | done o, m => (done o, m)
  | get l k, m => (k (m l), m)
  | put l v k, m => (k, cset m l v)

/-- `n` steps alone. -/
def steps : Nat → Prog α → Cells → Prog α × Cells
  | 0, a, m => (a, m)
  | n + 1, a, m => steps n (a.one m).1 (a.one m).2

theorem steps_finished (n : Nat) (o : Outcome α) (m : Cells) : steps n (done o) m = (done o, m) := by
  induction n with
  | zero => rfl
  | succ n ih => exact ih

/-- Enough steps end the program. -/
theorem steps_end (a : Prog α) : ∀ m, ∃ n, ∀ k, n ≤ k → steps k a m = (done (a.solo m).1, (a.solo m).2) := by
  induction a with
  | done o => exact fun m => ⟨0, fun k _ => steps_finished k o m⟩
  | get l f ih =>
    intro m
    obtain ⟨n, hn⟩ := ih (m l) m
    refine ⟨n + 1, fun k hk => ?_⟩
    obtain ⟨k, rfl⟩ : ∃ k', k = k' + 1 := ⟨k - 1, by omega⟩
    exact hn k (by omega)
  | put l v a ih =>
    intro m
    obtain ⟨n, hn⟩ := ih (cset m l v)
    refine ⟨n + 1, fun k hk => ?_⟩
    obtain ⟨k, rfl⟩ : ∃ k', k = k' + 1 := ⟨k - 1, by omega⟩
    exact hn k (by omega)

/-- Some number of steps gets through the first part. -/
theorem steps_bind (a : Prog α) (f : α → Prog β) : ∀ m x m', a.solo m = (ok x, m') →
    ∃ n, steps n (a >>= f) m = (f x, m') := by
  show ∀ m x m', a.solo m = (ok x, m') → ∃ n, steps n (a.bind f) m = (f x, m')
  induction a with
  | done o => intro m x m' h; cases h; exact ⟨0, rfl⟩
  | get l k ih =>
    intro m x m' h
    obtain ⟨n, hn⟩ := ih (m l) m x m' h
    exact ⟨n + 1, hn⟩
  | put l v k ih =>
    intro m x m' h
    obtain ⟨n, hn⟩ := ih (cset m l v) x m' h
    exact ⟨n + 1, hn⟩

theorem Only.one {R W : Cell → Prop} {a : Prog α} (h : Only R W a) (m : Cells) : Only R W (a.one m).1 := by
  cases a with
  | done o => trivial
  | get l k => exact h.2 _
  | put l v k => exact h.2

end Prog

theorem Sys.step_thr (s : Sys) (t : Nat) : (s.step t).thr = pset s.thr t ((s.thr t).one s.mem).1 := by
  unfold Sys.step
  cases h : s.thr t with
  | done o =>
    funext u
    show s.thr u = if u = t then done o else s.thr u
    by_cases e : u = t
    · rw [if_pos e, e, h]
    · rw [if_neg e]
  | get l k => rfl
  | put l v k => rfl

theorem Sys.step_mem (s : Sys) (t : Nat) : (s.step t).mem = ((s.thr t).one s.mem).2 := by
  unfold Sys.step
  cases h : s.thr t <;> rfl

theorem Sys.step_same (s : Sys) (t : Nat) : (s.step t).thr t = ((s.thr t).one s.mem).1 := by
  rw [Sys.step_thr]; exact if_pos rfl

theorem Sys.step_other (s : Sys) {t u : Nat} (h : u ≠ t) : (s.step t).thr u = s.thr u := by
  rw [Sys.step_thr]; exact if_neg h

/-- No thread but `t` writes to `F` along the schedule. -/
def Sys.Clear (F : Cell → Prop) (t : Nat) : Sys → List Nat → Prop
  | _, [] => True
  | s, u :: σ => (u ≠ t → ∀ l, (s.thr u).Writes l → ¬ F l) ∧ Sys.Clear F t (s.step u) σ

theorem agree_one {F : Cell → Prop} {W : Cell → Prop} {α : Type} {a : Prog α} (h : Only F W a) {m m' : Cells}
    (hm : ∀ l, F l → m l = m' l) :
    (a.one m).1 = (a.one m').1 ∧ ∀ l, F l → (a.one m).2 l = (a.one m').2 l := by
  cases a with
  | done o => exact ⟨rfl, hm⟩
  | get l k => exact ⟨congrArg k (hm l h.1), hm⟩
  | put l v k =>
    refine ⟨rfl, fun l' hl' => ?_⟩
    show (if l' = l then v else m l') = if l' = l then v else m' l'
    rw [hm l' hl']

/-- The thread does what it would do alone. -/
theorem Sys.follow {F W : Cell → Prop} {t : Nat} (σ : List Nat) : ∀ {s : Sys} {m : Cells},
    Only F W (s.thr t) → (∀ l, F l → s.mem l = m l) → s.Clear F t σ →
    (s.run σ).thr t = (steps (σ.count t) (s.thr t) m).1 := by
  induction σ with
  | nil => intro s m _ _ _; rfl
  | cons u σ ih =>
    intro s m ho hm hc
    show ((s.step u).run σ).thr t = _
    by_cases h : u = t
    · subst h
      obtain ⟨h1, h2⟩ := agree_one ho hm
      rw [List.count_cons_self]
      rw [ih (s := s.step u) (m := ((s.thr u).one m).2) (by rw [Sys.step_same]; exact ho.one _)
        (by rw [Sys.step_mem]; exact h2) hc.2, Sys.step_same, h1]
      rfl
    · have hs := Sys.step_other s (t := u) (u := t) (fun e => h e.symm)
      rw [List.count_cons_of_ne (fun e => h e)]
      rw [ih (s := s.step u) (m := m) (by rw [hs]; exact ho) ?_ hc.2, hs]
      intro l hl
      rw [Sys.step_mem, ← hm l hl]
      cases hu : s.thr u with
      | done o => rfl
      | get l' k => rfl
      | put l' v k =>
        refine if_neg fun e => ?_
        subst e
        exact hc.1 h l (by rw [hu]; rfl) hl

/-- Properties of all programs stay. -/
theorem Sys.only_run {R W : Nat → Cell → Prop} (σ : List Nat) : ∀ {s : Sys},
    (∀ t, Only (R t) (W t) (s.thr t)) → ∀ t, Only (R t) (W t) ((s.run σ).thr t) := by
  induction σ with
  | nil => intro s h; exact h
  | cons u σ ih =>
    intro s h
    refine ih (s := s.step u) fun t => ?_
    by_cases e : t = u
    · subst e; rw [Sys.step_same]; exact (h t).one _
    · rw [Sys.step_other s e]; exact h t

theorem Prog.Only.writes {R W : Cell → Prop} {α : Type} {a : Prog α} (h : Only R W a) {l : Cell} (hl : a.Writes l) :
    W l := by
  cases a with
  | done o => exact hl.elim
  | get l' k => exact hl.elim
  | put l' v k => rw [← show l' = l from hl]; exact h.1

theorem Prog.Only.uses {R W : Cell → Prop} {α : Type} {a : Prog α} (h : Only R W a) {l : Cell} (hl : a.Uses l) :
    R l ∨ W l := by
  cases a with
  | done o => exact hl.elim
  | get l' k => rw [← show l' = l from hl]; exact Or.inl h.1
  | put l' v k => rw [← show l' = l from hl]; exact Or.inr h.1

theorem Sys.clear_of {F : Cell → Prop} {t : Nat} (σ : List Nat) : ∀ {s : Sys} {R W : Nat → Cell → Prop},
    (∀ u, Only (R u) (W u) (s.thr u)) → (∀ u ∈ σ, u ≠ t → ∀ l, W u l → ¬ F l) → s.Clear F t σ := by
  induction σ with
  | nil => intro s R W _ _; trivial
  | cons u σ ih =>
    intro s R W ho hW
    exact ⟨fun hu l hl => hW u List.mem_cons_self hu l ((ho u).writes hl),
      ih (Sys.only_run [u] ho) fun v hv => hW v (List.mem_cons_of_mem _ hv)⟩

/-- Members that nobody writes keep their value. -/
theorem Sys.keep {F : Cell → Prop} (σ : List Nat) : ∀ {s : Sys} {R W : Nat → Cell → Prop},
    (∀ u, Only (R u) (W u) (s.thr u)) → (∀ u, ∀ l, W u l → ¬ F l) → ∀ l, F l → (s.run σ).mem l = s.mem l := by
  induction σ with
  | nil => intro s R W _ _ l _; rfl
  | cons u σ ih =>
    intro s R W ho hW l hl
    show ((s.step u).run σ).mem l = _
    rw [ih (s := s.step u) (Sys.only_run [u] ho) hW l hl, Sys.step_mem]
    have := ho u
    cases hu : s.thr u with
    | done o => rfl
    | get l' k => rfl
    | put l' v k =>
      rw [hu] at this
      show (if l = l' then v else s.mem l) = _
      refine if_neg fun e => ?_
      subst e
      exact hW u l this.1 hl

/-- A thread that ended stays as it is. -/
theorem Sys.stay {t : Nat} {o : Outcome Nat} (σ : List Nat) : ∀ {s : Sys}, s.thr t = done o →
    (s.run σ).thr t = done o := by
  induction σ with
  | nil => intro s h; exact h
  | cons u σ ih =>
    intro s h
    refine ih (s := s.step u) ?_
    by_cases e : t = u
    · subst e; rw [Sys.step_same, h]; rfl
    · rw [Sys.step_other s e, h]

/-- A thread that was not scheduled has not moved. -/
theorem Sys.idle {t : Nat} (σ : List Nat) : ∀ {s : Sys}, t ∉ σ → (s.run σ).thr t = s.thr t := by
  induction σ with
  | nil => intro s _; rfl
  | cons u σ ih =>
    intro s h
    have h1 : t ≠ u := fun e => h (by rw [e]; exact List.mem_cons_self)
    rw [← Sys.step_other s h1]
    exact ih (s := s.step u) fun h' => h (List.mem_cons_of_mem _ h')

theorem Sys.run_append (s : Sys) (σ τ : List Nat) : s.run (σ ++ τ) = (s.run σ).run τ := List.foldl_append

/-- Only thread `t` runs. -/
theorem Sys.run_alone (t : Nat) (n : Nat) : ∀ s : Sys, s.run (List.replicate n t) =
    ⟨pset s.thr t (steps n (s.thr t) s.mem).1, (steps n (s.thr t) s.mem).2⟩ := by
  induction n with
  | zero =>
    intro s
    show s = _
    have : pset s.thr t (s.thr t) = s.thr := by
      funext u; unfold pset; split
      · rename_i e; subst e; rfl
      · rfl
    show s = ⟨pset s.thr t (s.thr t), s.mem⟩
    rw [this]
  | succ n ih =>
    intro s
    show (s.step t).run (List.replicate n t) = _
    rw [ih, Sys.step_same, Sys.step_mem, Sys.step_thr]
    congr 1
    funext u
    unfold pset
    split <;> rfl

end MRS.Mran
