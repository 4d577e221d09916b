import Verif.Proofs.Mranisz.Life
import Verif.Model.Mranisz.Classes
import Verif.Props.MraniszFile
import Verif.Props.MraniszSelMpe

/-!
# C101: objects of the compressed structures may be built, loaded, freed and destroyed in any order

For any class that manages its memory as the ten classes do (`Life.Kind`; they are in `Model/Mranisz/Classes`).
A program is any finite sequence of declarations, `build`, `load`, `free()`, ends of scope, copies and assignments
of any number of variables.
-/

set_option autoImplicit false
set_option maxRecDepth 8192

namespace MRS.Props
open MRS.Mran MRS.Mran.Life Outcome Spec

variable {K : Kind}

/-- The variable that a command changes. -/
def subject : Cmd K → Nat
  | .decl x => x
  | .build x _ => x
  | .load x _ => x
  | .free x => x
  | .kill x => x
  | .copy x _ => x
  | .assign x _ => x

/-- The last command that changed `x`. -/
def lastOf (x : Nat) (cs : List (Cmd K)) : Option (Cmd K) := cs.reverse.find? fun c => subject c == x

/-- The variable `x` exists after the program `cs`. -/
def Alive (cs : List (Cmd K)) (x : Nat) : Prop := ∃ c, lastOf x cs = some c ∧ ∀ y, c ≠ .kill y

/-- After the program `cs` the command makes sense: variables are declared once and exist when they are used, texts
can be built (see C66 to C99) and files can be loaded. -/
def Sensible (cs : List (Cmd K)) : Cmd K → Prop
  | .decl x => ¬ Alive cs x
  | .build x a => Alive cs x ∧ ∃ v, K.build a = ok v
  | .load x f => Alive cs x ∧ ∃ v, K.load f = ok v
  | .free x => Alive cs x
  | .kill x => Alive cs x
  | .copy x y => ¬ Alive cs x ∧ Alive cs y
  | .assign x y => Alive cs x ∧ Alive cs y

/-- Every command makes sense. -/
def Proper (cs : List (Cmd K)) : Prop := ∀ pre c post, cs = pre ++ c :: post → Sensible pre c

/-- No copies and no assignments. -/
def NoCopy (cs : List (Cmd K)) : Prop := ∀ c, c ∈ cs → (∀ x y, c ≠ .copy x y) ∧ ∀ x y, c ≠ .assign x y

/-- C101 as a user would want it: every sensible program is defined, and if it leaves no object it leaves no
array. -/
def C101_full (K : Kind) : Prop :=
  ∀ cs : List (Cmd K), Proper cs → ∃ w, (World.start K).run cs = ok w ∧
    ((∀ x, ¬ Alive cs x) → ∀ a, w.heap.live a = false)

/-! ## Lemmas -/

theorem lastOf_snoc (x : Nat) (cs : List (Cmd K)) (c : Cmd K) :
    lastOf x (cs ++ [c]) = if subject c = x then some c else lastOf x cs := by
  unfold lastOf
  rw [List.reverse_append]
  show List.find? _ (c :: cs.reverse) = _
  rw [List.find?_cons]
  by_cases h : subject c = x
  · rw [beq_iff_eq.2 h, if_pos h]
  · rw [beq_eq_false_iff_ne.2 h, if_neg h]

theorem lastOf_self {x : Nat} {c : Cmd K} (cs : List (Cmd K)) (h : subject c = x) :
    lastOf x (cs ++ [c]) = some c := by rw [lastOf_snoc, if_pos h]

theorem lastOf_other {x : Nat} {c : Cmd K} (cs : List (Cmd K)) (h : subject c ≠ x) :
    lastOf x (cs ++ [c]) = lastOf x cs := by rw [lastOf_snoc, if_neg h]

/-- The variable after its last command (no copies). -/
def Holding : Option (Cmd K) → Option (Obj K.V) → Prop
  | some (.build _ a), r => ∃ o v, r = some o ∧ K.build a = ok v ∧ o.val = some v ∧ (0 < K.arrays → ids o.ptrs ≠ [])
  | some (.load _ f), r => ∃ o v, r = some o ∧ K.load f = ok v ∧ o.val = some v
  | some (.decl _), r => ∃ o, r = some o ∧ o.val = none ∧ (ids o.ptrs).length = K.buffer.toNat
  | some (.free _), r => ∃ o, r = some o ∧ o.val = none
  | some (.copy _ _), _ => False
  | some (.assign _ _), _ => False
  | some (.kill _), r => r = none
  | none, r => r = none

theorem holding_alive {cs : List (Cmd K)} {x : Nat} {r : Option (Obj K.V)} (h : Holding (lastOf x cs) r) :
    Alive cs x ↔ ∃ o, r = some o := by
  unfold Alive
  cases e : lastOf x cs with
  | none =>
    rw [e] at h
    exact ⟨fun ⟨_, h, _⟩ => (by cases h), fun ⟨o, ho⟩ => (by rw [show r = none from h] at ho; cases ho)⟩
  | some c =>
    rw [e] at h
    cases c with
    | decl y => obtain ⟨o, ho, -⟩ := h; exact ⟨fun _ => ⟨o, ho⟩, fun _ => ⟨_, rfl, fun _ h => (by cases h)⟩⟩
    | build y a => obtain ⟨o, v, ho, -⟩ := h; exact ⟨fun _ => ⟨o, ho⟩, fun _ => ⟨_, rfl, fun _ h => (by cases h)⟩⟩
    | load y a => obtain ⟨o, v, ho, -⟩ := h; exact ⟨fun _ => ⟨o, ho⟩, fun _ => ⟨_, rfl, fun _ h => (by cases h)⟩⟩
    | free y => obtain ⟨o, ho, -⟩ := h; exact ⟨fun _ => ⟨o, ho⟩, fun _ => ⟨_, rfl, fun _ h => (by cases h)⟩⟩
    | kill y =>
      exact ⟨fun ⟨c, hc, hn⟩ => absurd (by injection hc with hc; exact hc.symm) (hn y),
        fun ⟨o, ho⟩ => (by rw [show r = none from h] at ho; cases ho)⟩
    | copy y z => exact h.elim
    | assign y z => exact h.elim

/-- The world after a program without copies. -/
structure After (cs : List (Cmd K)) (w : World K) : Prop where
  inv : Inv w
  hold : ∀ x, Holding (lastOf x cs) (w.obj x)

theorem After.alive {cs : List (Cmd K)} {w : World K} (h : After cs w) (x : Nat) :
    Alive cs x ↔ ∃ o, w.obj x = some o := holding_alive (h.hold x)

theorem After.dead {cs : List (Cmd K)} {w : World K} (h : After cs w) {x : Nat} (hx : ¬ Alive cs x) : w.obj x = none := by
  cases e : w.obj x with
  | none => rfl
  | some o => exact absurd ((h.alive x).2 ⟨o, e⟩) hx

theorem After.next {cs : List (Cmd K)} {w : World K} (h : After cs w) {c : Cmd K} {o : Option (Obj K.V)} {g : Heap}
    (hi : Inv (w.set (subject c) o g)) (hh : Holding (some c) o) : After (cs ++ [c]) (w.set (subject c) o g) := by
  refine ⟨hi, fun x => ?_⟩
  by_cases e : subject c = x
  · subst e
    rw [lastOf_self cs rfl, set_self]
    exact hh
  · rw [lastOf_other cs e, set_other _ _ (fun e' => e e'.symm)]
    exact h.hold x

theorem after_step {cs : List (Cmd K)} {w : World K} (h : After cs w) {c : Cmd K} (hs : Sensible cs c)
    (hn : (∀ x y, c ≠ .copy x y) ∧ ∀ x y, c ≠ .assign x y) : ∃ w', w.step c = ok w' ∧ After (cs ++ [c]) w' := by
  cases c with
  | decl x =>
    obtain ⟨o, g, e, i, h1, h2⟩ := step_decl h.inv (h.dead hs)
    exact ⟨_, e, h.next (c := .decl x) i ⟨o, rfl, h1, h2⟩⟩
  | build x a =>
    obtain ⟨h1, v, hv⟩ := hs
    obtain ⟨o, ho⟩ := (h.alive x).1 h1
    obtain ⟨o', g, e, i, h2, h3⟩ := step_build h.inv ho hv
    exact ⟨_, e, h.next (c := .build x a) i ⟨o', v, rfl, hv, h2, h3⟩⟩
  | load x f =>
    obtain ⟨h1, v, hv⟩ := hs
    obtain ⟨o, ho⟩ := (h.alive x).1 h1
    obtain ⟨o', g, e, i, h2⟩ := step_load h.inv ho hv
    exact ⟨_, e, h.next (c := .load x f) i ⟨o', v, rfl, hv, h2⟩⟩
  | free x =>
    obtain ⟨o, ho⟩ := (h.alive x).1 hs
    obtain ⟨o', g, e, i, h2⟩ := step_free h.inv ho
    exact ⟨_, e, h.next (c := .free x) i ⟨o', rfl, h2⟩⟩
  | kill x =>
    obtain ⟨o, ho⟩ := (h.alive x).1 hs
    obtain ⟨g, e, i, -⟩ := step_kill h.inv ho
    exact ⟨_, e, h.next (c := .kill x) i rfl⟩
  | copy x y => exact absurd rfl (hn.1 x y)
  | assign x y => exact absurd rfl (hn.2 x y)

theorem after_run {post : List (Cmd K)} : ∀ {pre : List (Cmd K)} {w : World K}, After pre w →
    Proper (pre ++ post) → NoCopy post → ∃ w', w.run post = ok w' ∧ After (pre ++ post) w' := by
  induction post with
  | nil => intro pre w h _ _; rw [List.append_nil]; exact ⟨w, rfl, h⟩
  | cons c post ih =>
    intro pre w h hp hn
    obtain ⟨w', e, h'⟩ := after_step h (hp pre c post rfl) (hn c List.mem_cons_self)
    have e2 : pre ++ c :: post = (pre ++ [c]) ++ post := by rw [List.append_assoc]; rfl
    rw [e2] at hp ⊢
    obtain ⟨w₂, e3, h2⟩ := ih h' hp (fun d hd => hn d (List.mem_cons_of_mem _ hd))
    refine ⟨w₂, ?_, h2⟩
    show (w.step c >>= fun w => w.run post) = _
    rw [e, ok_bind, e3]

theorem after_all {cs : List (Cmd K)} (hp : Proper cs) (hn : NoCopy cs) :
    ∃ w, (World.start K).run cs = ok w ∧ After cs w :=
  after_run (pre := []) ⟨inv_start, fun _ => rfl⟩ hp hn

/-! ## What holds -/

/-- The answer `r` to query `i` of a variable, given its last command: as the last `build` or `load` alone says,
whatever the object was used for before.  Objects that are not built must not be queried. -/
def Expected (c : Option (Cmd K)) (i : Nat) (r : Outcome Nat) : Prop :=
  match c with
  | some (.build _ a) => ∃ v, K.build a = ok v ∧ r = K.ask v i
  | some (.load _ f) => ∃ v, K.load f = ok v ∧ r = K.ask v i
  | some (.decl _) => r = ub .nullDeref
  | some (.free _) => r = ub .nullDeref
  | _ => True

/-- C101, what holds: every sensible program without copies and assignments is defined (no array is deleted twice);
queries answer as the last `build` or `load` of the object says; all arrays belong to objects that exist, each
object has a fixed number of pointers, so nothing is leaked.  Missing: copies. -/
theorem C101_partial {cs : List (Cmd K)} (hp : Proper cs) (hn : NoCopy cs) :
    ∃ w, (World.start K).run cs = ok w ∧ (∀ x i, Expected (lastOf x cs) i (w.ask x i)) ∧
      (∀ a, w.heap.live a = true ↔ ∃ x o, Alive cs x ∧ w.obj x = some o ∧ some a ∈ o.ptrs) ∧
      (∀ x o, w.obj x = some o → o.ptrs.length = K.arrays + K.buffer.toNat) ∧
      ((∀ x, ¬ Alive cs x) → ∀ a, w.heap.live a = false) := by
  obtain ⟨w, e, h⟩ := after_all hp hn
  have hl : ∀ a, w.heap.live a = true ↔ ∃ x o, Alive cs x ∧ w.obj x = some o ∧ some a ∈ o.ptrs := fun a => by
    constructor
    · intro ha
      obtain ⟨x, o, ho, hm⟩ := h.inv.owned a ha
      exact ⟨x, o, (h.alive x).2 ⟨o, ho⟩, ho, mem_ids.1 hm⟩
    · rintro ⟨x, o, -, ho, hm⟩
      exact (h.inv.owns x o ho).live a (mem_ids.2 hm)
  refine ⟨w, e, fun x i => ?_, hl, h.inv.slots, fun hd a => ?_⟩
  · have := h.hold x
    cases el : lastOf x cs with
    | none => exact True.intro
    | some c =>
      rw [el] at this
      cases c with
      | decl y => obtain ⟨o, ho, hv, -⟩ := this; show _ = _; rw [ask_ok h.inv ho, hv]
      | build y a => obtain ⟨o, v, ho, hb, hv, -⟩ := this; exact ⟨v, hb, by rw [ask_ok h.inv ho, hv]⟩
      | load y f => obtain ⟨o, v, ho, hb, hv⟩ := this; exact ⟨v, hb, by rw [ask_ok h.inv ho, hv]⟩
      | free y => obtain ⟨o, ho, hv⟩ := this; show _ = _; rw [ask_ok h.inv ho, hv]
      | kill y => exact True.intro
      | copy y z => exact True.intro
      | assign y z => exact True.intro
  · cases ha : w.heap.live a with
    | false => rfl
    | true => obtain ⟨x, o, hx, -⟩ := (hl a).1 ha; exact absurd hx (hd x)

/-- Sensible programs, command by command. -/
theorem proper_nil : Proper ([] : List (Cmd K)) := fun pre c post e => by
  have := congrArg List.length e
  rw [List.length_append] at this
  simp only [List.length_nil, List.length_cons] at this
  omega

theorem proper_snoc {cs : List (Cmd K)} {c : Cmd K} (h : Proper cs) (hc : Sensible cs c) : Proper (cs ++ [c]) := by
  intro pre d post e
  rcases List.eq_nil_or_concat post with h0 | ⟨post', l, h0⟩
  · subst h0
    obtain ⟨e1, e2⟩ := List.append_inj' e rfl
    injection e2 with e2
    rw [← e1, ← e2]
    exact hc
  · subst h0
    have e' : pre ++ d :: (post' ++ [l]) = (pre ++ d :: post') ++ [l] := by rw [List.append_assoc]; rfl
    rw [List.concat_eq_append, e'] at e
    exact h pre d post' (List.append_inj' e rfl).1

theorem alive_self {cs : List (Cmd K)} {c : Cmd K} {x : Nat} (hc : subject c = x) (hk : ∀ y, c ≠ .kill y) :
    Alive (cs ++ [c]) x := ⟨c, lastOf_self cs hc, hk⟩

theorem alive_other {cs : List (Cmd K)} {c : Cmd K} {x : Nat} (hc : subject c ≠ x) : Alive (cs ++ [c]) x ↔ Alive cs x := by
  unfold Alive
  rw [lastOf_other cs hc]

theorem not_alive_nil {x : Nat} : ¬ Alive ([] : List (Cmd K)) x := fun ⟨_, h, _⟩ => by cases h

theorem alive_kill {cs : List (Cmd K)} {x : Nat} : ¬ Alive (cs ++ [.kill x]) x := fun ⟨c, h, hn⟩ => by
  rw [lastOf_self (x := x) (c := .kill x) cs rfl] at h
  injection h with h
  exact hn x h.symm

/-- The answers of `C66_basic_rank_partial` after any sensible program whose last command for the object is `build`:
they are those of the last text, whatever was built, loaded and freed before. -/
theorem C101_rank_std {cs : List (Cmd rankStd64)} (hp : Proper cs) (hn : NoCopy cs) {x aB aR : Nat}
    {X : List (BitVec 8)} (hlen : X.length < 2 ^ 60) (hx : lastOf x cs = some (.build x (aB, aR, textOf X))) :
    ∃ w, (World.start rankStd64).run cs = ok w ∧
      ∀ i, i < 512 * Text.blocks X → w.ask x i = ok (ones (Text.bits X) i) := by
  obtain ⟨w, e, h, -⟩ := C101_partial hp hn
  refine ⟨w, e, fun i hi => ?_⟩
  have h := h x i
  rw [hx] at h
  obtain ⟨v, hv, hr⟩ := h
  obtain ⟨y, e', hy⟩ := C66_basic_rank_partial hlen aB aR
  have e' : rankStd64.build (aB, aR, textOf X) = ok y := e'
  rw [e'] at hv
  injection hv with hv
  subst hv
  rw [hr]
  exact hy i hi

/-- Two objects; the first is built, freed, and built again from another text; the second is never built. -/
def sampleLife : List (Cmd rankStd64) :=
  [.decl 0, .decl 1] ++ [.build 0 (64, 64, textOf [0x0f#8])] ++ [.free 0] ++ [.kill 1] ++
    [.build 0 (16, 32, textOf sampleText)]

theorem sample_proper : Proper sampleLife := by
  have b : ∀ aB aR X, ∃ v, rankStd64.build (aB, aR, textOf X) = ok v := fun aB aR X => by
    obtain ⟨v, e, -⟩ := buildStd_ok (textOf X) aB aR
    exact ⟨v, e⟩
  have al : ∀ cs : List (Cmd rankStd64), Alive cs 0 → ∀ {c}, subject c ≠ 0 → Alive (cs ++ [c]) 0 :=
    fun cs h _ hc => (alive_other hc).2 h
  refine proper_snoc (proper_snoc (proper_snoc (proper_snoc (cs := [.decl 0, .decl 1]) (c := .build 0 _)
    (proper_snoc (cs := [.decl 0]) (proper_snoc (cs := []) proper_nil not_alive_nil) ?_) ⟨?_, b _ _ _⟩) ?_) ?_) ⟨?_, b _ _ _⟩
  · exact fun h => not_alive_nil ((alive_other (cs := []) (by decide)).1 h)
  · exact al [.decl 0] (alive_self (cs := []) rfl (fun _ h => by cases h)) (c := .decl 1) (by decide)
  · exact alive_self (cs := [.decl 0, .decl 1]) (c := .build 0 _) rfl (fun _ h => by cases h)
  · exact ⟨.decl 1, rfl, fun _ h => by cases h⟩
  · exact ⟨.free 0, rfl, fun _ h => by cases h⟩

example : ∃ w, (World.start rankStd64).run sampleLife = ok w ∧ w.ask 0 1040 = ok 515 ∧ w.obj 1 = none := by
  have hn : NoCopy sampleLife := fun c hc => by
    simp only [sampleLife, List.cons_append, List.nil_append, List.mem_cons, List.not_mem_nil, or_false] at hc
    rcases hc with h | h | h | h | h | h <;> subst h <;> exact ⟨fun _ _ h => (by cases h), fun _ _ h => (by cases h)⟩
  obtain ⟨w, e, h⟩ := C101_rank_std (x := 0) (aB := 16) (aR := 32) (X := sampleText) sample_proper hn (by decide) rfl
  refine ⟨w, e, by rw [h 1040 (by decide)]; exact congrArg ok (by decide +kernel), ?_⟩
  obtain ⟨w', e', ha⟩ := after_all sample_proper hn
  rw [e] at e'
  injection e' with e'
  subst e'
  exact ha.hold 1

/-! ## Copies -/

/-- Variable `y` has an array. -/
def HasArray (cs : List (Cmd K)) (y : Nat) : Prop :=
  (∃ a, lastOf y cs = some (.build y a) ∧ 0 < K.arrays) ∨ (lastOf y cs = some (.decl y) ∧ K.buffer = true)

theorem After.array {cs : List (Cmd K)} {w : World K} (h : After cs w) {y : Nat} (hy : HasArray cs y) :
    ∃ o b, w.obj y = some o ∧ b ∈ ids o.ptrs := by
  rcases hy with ⟨a, hl, ha⟩ | ⟨hl, hb⟩
  · have := h.hold y
    rw [hl] at this
    obtain ⟨o, v, ho, -, -, hne⟩ := this
    obtain ⟨b, hb⟩ := List.exists_mem_of_ne_nil _ (hne ha)
    exact ⟨o, b, ho, hb⟩
  · have := h.hold y
    rw [hl] at this
    obtain ⟨o, ho, -, hlen⟩ := this
    rw [hb] at hlen
    obtain ⟨b, hb⟩ := List.exists_mem_of_ne_nil (ids o.ptrs) (fun e => by rw [e] at hlen; cases hlen)
    exact ⟨o, b, ho, hb⟩

/-- C101 fails (1): after `C x = y;` or `x = y;` the end of `x` deletes the arrays of both.  Queries of `y` and its
destructor are undefined.  Classes with `buffer` need not even be built. -/
theorem C101_copy {cs : List (Cmd K)} (hp : Proper cs) (hn : NoCopy cs) {x y : Nat} {c : Cmd K}
    (hc : (c = .copy x y ∧ ¬ Alive cs x) ∨ (c = .assign x y ∧ Alive cs x ∧ x ≠ y)) (hy : HasArray cs y) :
    Proper (cs ++ [c] ++ [.kill x] ++ [.kill y]) ∧
    (World.start K).run (cs ++ [c] ++ [.kill x] ++ [.kill y]) = ub .oob ∧
    ∃ w, (World.start K).run (cs ++ [c] ++ [.kill x]) = ok w ∧
      ∀ i, (∃ a, lastOf y cs = some (.build y a)) → w.ask y i = ub .oob := by
  obtain ⟨w, e, h⟩ := after_all hp hn
  obtain ⟨o, b, ho, hb⟩ := h.array hy
  have ya : Alive cs y := (h.alive y).2 ⟨o, ho⟩
  have hxy : x ≠ y := fun e => hc.elim (fun hc => hc.2 (e ▸ ya)) (fun hc => hc.2.2 e)
  have hyx : y ≠ x := fun e => hxy e.symm
  have hsub : subject c = x := by rcases hc with ⟨e, -⟩ | ⟨e, -⟩ <;> subst e <;> rfl
  have hnk : ∀ z, c ≠ .kill z := by rcases hc with ⟨e, -⟩ | ⟨e, -⟩ <;> subst e <;> exact fun _ h => by cases h
  have s1 : w.step c = ok (w.set x (some o) w.heap) := by
    rcases hc with ⟨e, hx⟩ | ⟨e, hx, -⟩
    · subst e
      show (match w.obj x, w.obj y with | none, some o => _ | _, _ => _) = _
      rw [h.dead hx, ho]
    · subst e
      obtain ⟨p, hpx⟩ := (h.alive x).1 hx
      show (match w.obj x, w.obj y with | some _, some o => _ | _, _ => _) = _
      rw [hpx, ho]
  have own := h.inv.owns y o ho
  obtain ⟨g, e2, d⟩ := change_dels own.nodup own.live
  have s2 : (w.set x (some o) w.heap).step (.kill x) = ok ((w.set x (some o) w.heap).set x none g) := by
    show (match (w.set x (some o) w.heap).obj x with | none => _ | some o => _) = _
    rw [set_self]
    show (w.heap.dels o.ptrs >>= _) = _
    rw [e2, ok_bind]
  have hob : ((w.set x (some o) w.heap).set x none g).obj y = some o := by
    rw [set_other _ _ hyx, set_other _ _ hyx, ho]
  have hdead : g.live b = false := by
    cases hg : g.live b with
    | false => rfl
    | true =>
      rcases (d.live b).1 hg with h1 | h1
      · exact absurd hb h1.2
      · exact absurd h1 List.not_mem_nil
  have s3 : ((w.set x (some o) w.heap).set x none g).step (.kill y) = ub .oob := by
    show (match ((w.set x (some o) w.heap).set x none g).obj y with | none => _ | some o => _) = _
    rw [hob]
    show (g.dels o.ptrs >>= _) = _
    rw [dels_bad own.nodup hb hdead]
    rfl
  have r2 : (World.start K).run (cs ++ [c] ++ [.kill x]) = ok ((w.set x (some o) w.heap).set x none g) := by
    rw [List.append_assoc, run_append, e, ok_bind]
    show (w.step c >>= fun w => w.step (.kill x) >>= fun w => ok w) = _
    rw [s1, ok_bind, s2, ok_bind]
  refine ⟨?_, ?_, _, r2, fun i ⟨a, ha⟩ => ?_⟩
  · refine proper_snoc (proper_snoc (proper_snoc hp ?_) (alive_self hsub hnk)) ?_
    · rcases hc with ⟨e, hx⟩ | ⟨e, hx, -⟩ <;> subst e <;> exact ⟨hx, ya⟩
    · exact (alive_other (c := .kill x) hxy).2 ((alive_other (by rw [hsub]; exact hxy)).2 ya)
  · rw [run_append, r2, ok_bind]
    show (_ >>= fun w => ok w) = _
    rw [s3]
    rfl
  · have hh := h.hold y
    rw [ha] at hh
    obtain ⟨o', v, ho', -, hv, -⟩ := hh
    rw [ho] at ho'
    injection ho' with ho'
    subst ho'
    show (match ((w.set x (some o) w.heap).set x none g).obj y with | none => _ | some o => ask K o g i) = _
    rw [hob]
    show ask K o g i = _
    unfold ask
    rw [hv]
    refine if_neg fun hall => ?_
    have := List.all_eq_true.1 hall b hb
    rw [hdead] at this
    cases this

/-- C101 fails (2): `x = y;` loses the arrays of `x`.  Here `y` is not built, so both can be destroyed; the arrays
are still allocated then, and nothing points to them. -/
theorem C101_assign_leak {cs : List (Cmd K)} (hp : Proper cs) (hn : NoCopy cs) {x y : Nat} (hxy : x ≠ y)
    (hx : HasArray cs x) (hy : lastOf y cs = some (.decl y)) (hb : K.buffer = false) :
    Proper (cs ++ [.assign x y] ++ [.kill x] ++ [.kill y]) ∧
    ∃ w, (World.start K).run (cs ++ [.assign x y] ++ [.kill x] ++ [.kill y]) = ok w ∧ w.obj x = none ∧ w.obj y = none ∧
      ∃ b, w.heap.live b = true ∧ ∀ z o, w.obj z = some o → some b ∉ o.ptrs := by
  obtain ⟨w, e, h⟩ := after_all hp hn
  obtain ⟨o, b, ho, hbm⟩ := h.array hx
  have hyh := h.hold y
  rw [hy] at hyh
  obtain ⟨p, hpo, -, hpl⟩ := hyh
  rw [hb] at hpl
  have hp0 : ids p.ptrs = [] := List.length_eq_zero_iff.1 hpl
  have xa : Alive cs x := (h.alive x).2 ⟨o, ho⟩
  have ya : Alive cs y := (h.alive y).2 ⟨p, hpo⟩
  have hyx : y ≠ x := fun e => hxy e.symm
  have s1 : w.step (.assign x y) = ok (w.set x (some p) w.heap) := by
    show (match w.obj x, w.obj y with | some _, some o => _ | _, _ => _) = _
    rw [ho, hpo]
  have del : ∀ g : Heap, ∃ g', g.dels p.ptrs = ok g' ∧ ∀ a, g'.live a = true ↔ g.live a = true := fun g => by
    obtain ⟨g', e', -, e3⟩ := dels_ok p.ptrs g (by rw [hp0]; exact List.nodup_nil)
      (fun a ha => by rw [hp0] at ha; exact absurd ha List.not_mem_nil)
    exact ⟨g', e', fun a => by rw [e3, hp0]; exact ⟨(·.1), fun h => ⟨h, List.not_mem_nil⟩⟩⟩
  obtain ⟨g, e2, l2⟩ := del w.heap
  obtain ⟨g', e3, l3⟩ := del g
  have s2 : (w.set x (some p) w.heap).step (.kill x) = ok ((w.set x (some p) w.heap).set x none g) := by
    show (match (w.set x (some p) w.heap).obj x with | none => _ | some o => _) = _
    rw [set_self]
    show (w.heap.dels p.ptrs >>= _) = _
    rw [e2, ok_bind]
  have s3 : ((w.set x (some p) w.heap).set x none g).step (.kill y) =
      ok (((w.set x (some p) w.heap).set x none g).set y none g') := by
    show (match ((w.set x (some p) w.heap).set x none g).obj y with | none => _ | some o => _) = _
    rw [set_other _ _ hyx, set_other _ _ hyx, hpo]
    show (g.dels p.ptrs >>= _) = _
    rw [e3, ok_bind]
  refine ⟨?_, ((w.set x (some p) w.heap).set x none g).set y none g', ?_, ?_, set_self _ _ _ _, b, ?_, fun z q hz => ?_⟩
  · refine proper_snoc (proper_snoc (proper_snoc hp ⟨xa, ya⟩) (alive_self rfl (fun _ h => by cases h))) ?_
    exact (alive_other (c := .kill x) hxy).2 ((alive_other (c := .assign x y) hxy).2 ya)
  · rw [List.append_assoc, List.append_assoc, run_append, e, ok_bind]
    show (w.step (.assign x y) >>= fun w => w.step (.kill x) >>= fun w => w.step (.kill y) >>= fun w => ok w) = _
    rw [s1, ok_bind, s2, ok_bind, s3, ok_bind]
  · rw [set_other _ _ hxy, set_self]
  · exact (l3 b).2 ((l2 b).2 ((h.inv.owns x o ho).live b hbm))
  · by_cases h1 : z = y
    · subst h1; rw [set_self] at hz; cases hz
    · rw [set_other _ _ h1] at hz
      by_cases h2 : z = x
      · subst h2; rw [set_self] at hz; cases hz
      · rw [set_other _ _ h2, set_other _ _ h2] at hz
        exact fun hm => h2 (h.inv.apart z x q o b hz ho (mem_ids.2 hm) hbm)

/-- One built object. -/
def oneBuilt : List (Cmd rankStd64) := [.decl 0] ++ [.build 0 (64, 64, textOf [0x0f#8])]

theorem one_proper : Proper oneBuilt := by
  obtain ⟨v, e, -⟩ := buildStd_ok (textOf [0x0f#8]) 64 64
  exact proper_snoc (proper_snoc (cs := []) proper_nil not_alive_nil) ⟨⟨.decl 0, rfl, fun _ h => by cases h⟩, v, e⟩

theorem one_nocopy : NoCopy oneBuilt := fun c hc => by
  simp only [oneBuilt, List.cons_append, List.nil_append, List.mem_cons, List.not_mem_nil, or_false] at hc
  rcases hc with h | h <;> subst h <;> exact ⟨fun _ _ h => (by cases h), fun _ _ h => (by cases h)⟩

theorem one_array : HasArray oneBuilt 0 := Or.inl ⟨_, rfl, by decide⟩

theorem one_dead : ¬ Alive oneBuilt 1 := fun ⟨_, h, _⟩ => by
  have : lastOf 1 oneBuilt = none := rfl
  rw [this] at h
  cases h

example : (World.start rankStd64).run (oneBuilt ++ [.copy 1 0] ++ [.kill 1] ++ [.kill 0]) = ub .oob :=
  (C101_copy one_proper one_nocopy (Or.inl ⟨rfl, one_dead⟩) one_array).2.1

/-- So the full claim is false, for `RankBasic64`. -/
theorem C101_false : ¬ C101_full rankStd64 := by
  intro h
  obtain ⟨h1, h2, -⟩ := C101_copy one_proper one_nocopy (c := .copy 1 0) (Or.inl ⟨rfl, one_dead⟩) one_array
  obtain ⟨w, e, -⟩ := h _ h1
  rw [h2] at e
  cases e

/-- And for `SelectMPE64` (and so `SelectMPE32`) it takes no more than `C y; C x = y;`. -/
theorem C101_unbuilt (ty : MpeType) (s : Bool) (L TH : Nat) :
    (World.start (selMpe64 ty s L TH)).run [.decl 0, .copy 1 0, .kill 1, .kill 0] = ub .oob ∧
    (World.start (selMpe32 ty s L TH)).run [.decl 0, .copy 1 0, .kill 1, .kill 0] = ub .oob ∧
    ¬ C101_full (selMpe64 ty s L TH) ∧ ¬ C101_full (selMpe32 ty s L TH) := by
  have key : ∀ K : Kind, K.buffer = true → Proper [.decl 0, .copy 1 0, .kill 1, (.kill 0 : Cmd K)] ∧
      (World.start K).run [.decl 0, .copy 1 0, .kill 1, .kill 0] = ub .oob := fun K hb => by
    have := C101_copy (K := K) (cs := [.decl 0]) (x := 1) (y := 0) (proper_snoc (cs := []) proper_nil not_alive_nil)
      (fun c hc => by
        rw [List.mem_singleton] at hc; subst hc; exact ⟨fun _ _ h => (by cases h), fun _ _ h => (by cases h)⟩)
      (c := .copy 1 0)
      (Or.inl ⟨rfl, fun h => not_alive_nil ((alive_other (cs := []) (c := .decl 0) (x := 1) (Nat.zero_ne_one)).1 h)⟩) (Or.inr ⟨rfl, hb⟩)
    exact ⟨this.1, this.2.1⟩
  have no : ∀ K : Kind, K.buffer = true → ¬ C101_full K := fun K hb h => by
    obtain ⟨w, e, -⟩ := h _ (key K hb).1
    rw [(key K hb).2] at e
    cases e
  exact ⟨(key _ rfl).2, (key _ rfl).2, no _ rfl, no _ rfl⟩

/-- A leak: a built object is assigned an unbuilt one. -/
example : ∃ w, (World.start rankStd64).run
    ((oneBuilt ++ [.decl 1]) ++ [.assign 0 1] ++ [.kill 0] ++ [.kill 1]) = ok w ∧ ∃ b, w.heap.live b = true := by
  obtain ⟨-, w, e, -, -, b, hb, -⟩ := C101_assign_leak (cs := oneBuilt ++ [.decl 1]) (x := 0) (y := 1)
    (proper_snoc (c := .decl 1) one_proper one_dead) (fun c hc => by
      rcases List.mem_append.1 hc with h | h
      · exact one_nocopy c h
      · rw [List.mem_singleton] at h; subst h; exact ⟨fun _ _ h => (by cases h), fun _ _ h => (by cases h)⟩)
    (by decide) (Or.inl ⟨_, rfl, by decide⟩) rfl rfl
  exact ⟨w, e, b, hb⟩

end MRS.Props
