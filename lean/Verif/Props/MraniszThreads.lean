import Verif.Proofs.Mranisz.Collide
import Verif.Props.Mranisz
import Verif.Props.MraniszSelect

/-!
# C100: queries of compressed structures in several threads

Any number of threads, one query each; the objects are built and not modified otherwise.  `Sys.run` interleaves
the accesses to the members `pointer` and `pointer2` in the order given by a schedule.
-/

set_option autoImplicit false
set_option maxRecDepth 8192

namespace MRS.Props
open MRS.Mran Outcome Spec

variable {X : List (BitVec 8)}

/-- A one of the text that select finds (see C70). -/
def Findable (X : List (BitVec 8)) (L i : Nat) : Prop :=
  1 ≤ i ∧ i ≤ (Text.bits X).count true ∧
    ¬ (Text.LastWide (Text.bits X) L ∧ (Text.bits X).count true / L * L < i)

/-- The object was built from the text `X`, and the query is one that has an answer (see C66-C68, C70, C71). -/
def Fits (X : List (BitVec 8)) : Mran.Query → Prop
  | .rankStd x i => X.length < 2 ^ 60 ∧ i < 512 * Text.blocks X ∧ ∃ aB aR, buildStd aB aR (textOf X) = ok x
  | .rankBch x i => X.length < 2 ^ 60 ∧ i < 512 * Text.blocks X ∧ ∃ g aB aR, buildBch (some g) aB aR (textOf X) = ok x
  | .rankCF x i => X.length < 2 ^ 60 ∧ i < 512 * Text.blocks X ∧ ∃ aB, buildCF aB (textOf X) = ok x
  | .selStd L TH x i => 1 ≤ L ∧ X.length < 2 ^ 57 ∧ Findable X L i ∧
      ∃ aS aB, ¬ Overflow X L TH aB ∧ buildSel L TH aS aB (textOf X) = ok x
  | .selBch L TH x i => BchOk X L TH ∧ Findable X L i ∧
      ∃ aS aB, ¬ Overflow X L TH aB ∧ buildSelBch L TH aS aB (textOf X) = ok x

/-- The outcome is the right answer. -/
def Correct (X : List (BitVec 8)) : Mran.Query → Outcome Nat → Prop
  | .rankStd _ i, o => o = ok (ones (Text.bits X) i)
  | .rankBch _ i, o => o = ok (ones (Text.bits X) i)
  | .rankCF _ i, o => o = ok (ones (Text.bits X) i)
  | .selStd _ _ _ i, o => ∃ p, o = ok p ∧ IsSelect (Text.bits X) (i - 1) p
  | .selBch _ _ _ i, o => ∃ p, o = ok p ∧ IsSelect (Text.bits X) (i - 1) p

/-- C100 as a user would want it: however the threads are scheduled, a thread that ends has the right answer. -/
def C100_full : Prop :=
  ∀ (work : Nat → Work) (m : Cells) (t : Nat) (X : List (BitVec 8)), Fits X (work t).q →
    ∀ σ o, ((Sys.start work m).run σ).thr t = .done o → Correct X (work t).q o

theorem cf_of_built (hlen : X.length < 2 ^ 60) {aB : Nat} {x : CF} (e : buildCF aB (textOf X) = ok x) :
    CFOK (textOf X) aB x := by
  have h' : 0 < ne (textOf X) (nblk (textOf X)) ∨ nblk (textOf X) = 0 := by
    by_cases h0 : X = []
    · subst h0; exact Or.inr rfl
    · by_cases h : ∀ q, q < Text.blocks X → Text.Homog X q
      · rw [C68_cf_homogeneous hlen aB h0 h] at e; cases e
      · left
        obtain ⟨q, hq⟩ := Classical.not_forall.1 h
        have h1 : q < Text.blocks X := Classical.byContradiction fun h1 => hq fun h2 => absurd h2 h1
        have := stored_lt (t := textOf X) (q := q) (by rw [nblk_blocks]; exact h1)
          (fun hh => hq fun _ => (homog_iff X q).2 hh)
        omega
  obtain ⟨y, e', hy⟩ := buildCF_ok (t := textOf X) aB hlen h'
  rw [e'] at e
  cases e
  exact hy

theorem value_correct {q : Mran.Query} (h : Fits X q) : Correct X q q.value := by
  cases q with
  | rankStd x i =>
    obtain ⟨h1, h2, aB, aR, e⟩ := h
    obtain ⟨y, e', hy⟩ := C66_basic_rank_partial h1 aB aR
    rw [e'] at e; cases e
    exact hy i h2
  | rankBch x i =>
    obtain ⟨h1, h2, g, aB, aR, e⟩ := h
    obtain ⟨y, e', hy⟩ := C67_bch_rank_partial h1 aB aR g
    rw [e'] at e; cases e
    exact hy i h2
  | rankCF x i =>
    obtain ⟨h1, h2, aB, e⟩ := h
    have hx := cf_of_built h1 e
    show Mran.rankCF x i = _
    rw [rankCF_ok hx h1 (by rw [nblk_blocks]; exact h2), ones_T]
  | selStd L TH x i =>
    obtain ⟨h1, h2, ⟨h3, h4, h5⟩, aS, aB, ho, e⟩ := h
    obtain ⟨y, e', hy⟩ := C70_std_select_partial (TH := TH) h1 h2 aS aB (by omega) ho
    rw [e'] at e; cases e
    exact hy i h3 h4 h5
  | selBch L TH x i =>
    obtain ⟨h1, ⟨h3, h4, h5⟩, aS, aB, ho, e⟩ := h
    obtain ⟨y, e', hy⟩ := C71_bch_select_partial h1 aS aB (by omega) ho
    rw [e'] at e; cases e
    exact hy i h3 h4 h5

theorem system_only (work : Nat → Work) (m : Cells) : ∀ t,
    Prog.Only (Own (work t).obj) (Own (work t).obj) ((Sys.start work m).thr t) :=
  fun t => own_act (work t).obj (work t).q

/-- One thread: whatever earlier queries left in the members, the answer is right.  (The members are no part of
the model of C66-C74; this is why they can be left out.) -/
theorem C100_alone {q : Mran.Query} (h : Fits X q) (o : Nat) (m : Cells) : Correct X q ((q.act o).val m) := by
  rw [Query.act_val]
  exact value_correct h

/-- C100, what holds (1): while a thread runs its query, only threads with queries of *other objects* run.  Then
its answer is right, whatever happened before (`σ₁`, any interleaving) and happens afterwards (`σ₃`).  In
particular queries of one object that are serialised by a lock are right, and so are threads with an object each.
Missing: overlapping queries of one object. -/
theorem C100_partial {work : Nat → Work} {m : Cells} {t : Nat} (h : Fits X (work t).q) {σ₁ : List Nat}
    (h₁ : t ∉ σ₁) : ∃ n, ∀ σ₂ σ₃ : List Nat, n ≤ σ₂.count t →
      (∀ u ∈ σ₂, u ≠ t → (work u).obj ≠ (work t).obj) →
      ∃ o, ((Sys.start work m).run (σ₁ ++ σ₂ ++ σ₃)).thr t = .done o ∧ Correct X (work t).q o := by
  have ho := Sys.only_run σ₁ (system_only work m)
  have hi : ((Sys.start work m).run σ₁).thr t = (work t).act := Sys.idle σ₁ h₁
  obtain ⟨n, hn⟩ := (work t).act.steps_end ((Sys.start work m).run σ₁).mem
  refine ⟨n, fun σ₂ σ₃ hc hσ => ⟨(work t).act.val ((Sys.start work m).run σ₁).mem, ?_, C100_alone h _ _⟩⟩
  rw [Sys.run_append, Sys.run_append]
  refine Sys.stay σ₃ ?_
  rw [Sys.follow (F := Own (work t).obj) σ₂ (m := ((Sys.start work m).run σ₁).mem) (ho t) (fun _ _ => rfl)
    (Sys.clear_of σ₂ ho fun u hu hne l hl ht => ?_), hi, hn _ hc]
  · rfl
  · exact hσ u hu hne (hl.symm.trans ht)

/-- C100, what holds (2): if no other thread queries the same object, the thread ends with the right answer under
every schedule that lets it run and takes part in no data race. -/
theorem C100_disjoint_partial {work : Nat → Work} {m : Cells} {t : Nat} (h : Fits X (work t).q)
    (hd : ∀ u, u ≠ t → (work u).obj ≠ (work t).obj) :
    (∃ n, ∀ σ, n ≤ σ.count t → ∃ o, ((Sys.start work m).run σ).thr t = .done o) ∧
    (∀ σ o, ((Sys.start work m).run σ).thr t = .done o → Correct X (work t).q o) ∧
    ∀ σ u, ¬ ((Sys.start work m).run σ).Race t u ∧ ¬ ((Sys.start work m).run σ).Race u t := by
  obtain ⟨n, hn⟩ := C100_partial (m := m) h (σ₁ := []) List.not_mem_nil
  have hall : ∀ σ, n ≤ σ.count t → ∃ o, ((Sys.start work m).run σ).thr t = .done o ∧ Correct X (work t).q o := by
    intro σ hc
    obtain ⟨o, h1, h2⟩ := hn σ [] hc (fun u _ => hd u)
    rw [List.nil_append, List.append_nil] at h1
    exact ⟨o, h1, h2⟩
  refine ⟨⟨n, fun σ hc => ?_⟩, fun σ o e => ?_, fun σ u => ?_⟩
  · obtain ⟨o, h, _⟩ := hall σ hc; exact ⟨o, h⟩
  · obtain ⟨o', h1, h2⟩ := hall (σ ++ List.replicate n t) (by rw [List.count_append, List.count_replicate_self]; omega)
    rw [Sys.run_append, Sys.stay _ e] at h1
    cases h1
    exact h2
  · have ho := Sys.only_run σ (system_only work m)
    have hu : ∀ {l : Cell} (v : Nat), (((Sys.start work m).run σ).thr v).Uses l → l.obj = (work v).obj := fun v h => by
      rcases (ho v).uses h with h | h <;> exact h
    have hw : ∀ {l : Cell} (v : Nat), (((Sys.start work m).run σ).thr v).Writes l → l.obj = (work v).obj :=
      fun v h => (ho v).writes h
    exact ⟨fun ⟨hne, l, a, b⟩ => hd u (fun e => hne e.symm) ((hu u b).symm.trans (hw t a)),
      fun ⟨hne, l, a, b⟩ => hd u hne ((hw u a).symm.trans (hu t b))⟩

/-! ## Queries of one object at the same time -/

/-- Block `q` has a zero and a one. -/
def Uneven (X : List (BitVec 8)) (q : Nat) : Prop :=
  0 < ones ((Text.bits X).drop (512 * q)) 512 ∧ ones ((Text.bits X).drop (512 * q)) 512 < 512

instance (X : List (BitVec 8)) (q : Nat) : Decidable (Uneven X q) := inferInstanceAs (Decidable (_ ∧ _))

theorem ones_drop (B : List Bool) (a r : Nat) : ones B (a + r) = ones B a + ones (B.drop a) r := by
  unfold ones
  rw [List.take_add, List.count_append]

theorem uneven_mix (X : List (BitVec 8)) (q : Nat) : Uneven X q ↔ Mix (textOf X) q := by
  unfold Uneven Mix
  rw [← ones_T, ← ones_T, ones_drop]
  omega

/-- C100, what holds (3): `RankBasic64<RANK_BASIC_STANDARD>` in a block of equal bits touches no member: right
under every schedule, whatever the other threads do, and no data race.  (Bits beyond the text count
as zeros.) -/
theorem C100_even_partial {work : Nat → Work} {m : Cells} {t : Nat} {x : Basic} {i : Nat}
    (hq : (work t).q = .rankStd x i) (h : Fits X (work t).q) (he : ¬ Uneven X (i / 512)) (σ : List Nat) :
    ((Sys.start work m).run σ).thr t = .done (ok (ones (Text.bits X) i)) ∧
    ∀ u, ¬ ((Sys.start work m).run σ).Race t u ∧ ¬ ((Sys.start work m).run σ).Race u t := by
  rw [hq] at h
  obtain ⟨h1, h2, aB, aR, e⟩ := h
  obtain ⟨y, e', hy⟩ := buildStd_ok (textOf X) aB aR
  rw [e'] at e; cases e
  have hk := rankStdA_known hy h1 (work t).obj (i := i) (by rw [nblk_blocks]; exact h2)
    (fun hm => he ((uneven_mix X _).2 hm))
  have hr : ((Sys.start work m).run σ).thr t = .done (ok (ones (Text.bits X) i)) := by
    refine Sys.stay σ ?_
    show (work t).q.act (work t).obj = _
    rw [hq, ones_T]
    exact hk
  refine ⟨hr, fun u => ⟨fun ⟨_, l, a, _⟩ => ?_, fun ⟨_, l, _, b⟩ => ?_⟩⟩
  · rw [hr] at a; exact a
  · rw [hr] at b; exact b

/-- A compressed rank object. -/
inductive Ranker
  | std (x : Basic)
  | bch (x : Basic)
  | cf (x : CF)

/-- `rank(i)` of the object. -/
def Ranker.ask : Ranker → Nat → Mran.Query
  | .std x, i => .rankStd x i
  | .bch x, i => .rankBch x i
  | .cf x, i => .rankCF x i

/-- C100 fails (1): any two `rank` queries of one object in uneven blocks race with their very first accesses; with
compressed headers any two queries do.  In C++ this is undefined behaviour. -/
theorem C100_race {work : Nat → Work} {m : Cells} {t u : Nat} (htu : t ≠ u) (ho : (work t).obj = (work u).obj)
    {r : Ranker} {i j : Nat} (hi : (work t).q = r.ask i) (hj : (work u).q = r.ask j)
    (hfi : Fits X (r.ask i)) (hfj : Fits X (r.ask j))
    (hu : (∃ x, r = .bch x) ∨ Uneven X (i / 512) ∧ Uneven X (j / 512)) : (Sys.start work m).Race t u := by
  have key : ∃ l, ((r.ask i).act (work t).obj).Writes l ∧ ((r.ask j).act (work t).obj).Writes l := by
    cases r with
    | bch x => exact ⟨_, headBch_writes _ _ _, headBch_writes _ _ _⟩
    | std x =>
      obtain ⟨a, b⟩ : Uneven X (i / 512) ∧ Uneven X (j / 512) := by
        rcases hu with ⟨x, h⟩ | h
        · cases h
        · exact h
      obtain ⟨h1, h2, aB, aR, e⟩ := hfi
      obtain ⟨-, h3, -⟩ := hfj
      obtain ⟨y, e', hy⟩ := buildStd_ok (textOf X) aB aR
      rw [e'] at e; cases e
      exact ⟨_, headStd_writes hy h1 _ (by rw [nblk_blocks]; exact h2) ((uneven_mix X _).1 a),
        headStd_writes hy h1 _ (by rw [nblk_blocks]; exact h3) ((uneven_mix X _).1 b)⟩
    | cf x =>
      obtain ⟨a, b⟩ : Uneven X (i / 512) ∧ Uneven X (j / 512) := by
        rcases hu with ⟨x, h⟩ | h
        · cases h
        · exact h
      obtain ⟨h1, h2, aB, e⟩ := hfi
      obtain ⟨-, h3, -⟩ := hfj
      have hy := cf_of_built h1 e
      exact ⟨_, headCF_writes hy h1 _ (by rw [nblk_blocks]; exact h2) ((uneven_mix X _).1 a),
        headCF_writes hy h1 _ (by rw [nblk_blocks]; exact h3) ((uneven_mix X _).1 b)⟩
  obtain ⟨l, a, b⟩ := key
  refine ⟨htu, l, ?_, ?_⟩
  · show ((work t).q.act (work t).obj).Writes l
    rw [hi]; exact a
  · show ((work u).q.act (work u).obj).Uses l
    rw [hj, ← ho]
    revert b
    cases (r.ask j).act (work t).obj with
    | done o => exact fun h => h.elim
    | get l' k => exact fun h => h.elim
    | put l' v k => exact fun h => h

/-- Any two `select` queries of one object with compressed headers race with their very first accesses. -/
theorem C100_select_race {work : Nat → Work} {m : Cells} {t u : Nat} (htu : t ≠ u) (ho : (work t).obj = (work u).obj)
    {L TH i j : Nat} {x : Select} (hi : (work t).q = .selBch L TH x i) (hj : (work u).q = .selBch L TH x j) :
    (Sys.start work m).Race t u := by
  refine ⟨htu, ⟨(work t).obj, true⟩, ?_, ?_⟩
  · show ((work t).q.act (work t).obj).Writes _
    rw [hi]; rfl
  · show ((work u).q.act (work u).obj).Uses _
    rw [hj, ho]; rfl

/-- C100 fails (2), even if racing accesses are harmless and pointers are never torn: two `rank` queries of one
object in uneven blocks.  Under some schedule the first thread gets the rank in front of its block plus the ones
among as many bits as it asked for of the *other* thread's block. -/
theorem C100_wrong {work : Nat → Work} {m : Cells} {t u : Nat} (htu : t ≠ u) (ho : (work t).obj = (work u).obj)
    {r : Ranker} {i j : Nat} (hi : (work t).q = r.ask i) (hj : (work u).q = r.ask j)
    (hfi : Fits X (r.ask i)) (hfj : Fits X (r.ask j)) (hui : Uneven X (i / 512)) (huj : Uneven X (j / 512)) :
    ∃ σ, ((Sys.start work m).run σ).thr t = .done (ok (ones (Text.bits X) (512 * (i / 512)) +
      ones ((Text.bits X).drop (512 * (j / 512))) (i % 512))) := by
  have mi := (uneven_mix X _).1 hui
  have mj := (uneven_mix X _).1 huj
  have hmod : i % 512 < 512 := Nat.mod_lt _ (by decide)
  have key : ∃ σ, ((Sys.start work m).run σ).thr t = .done (ok (T (textOf X) (512 * (i / 512)) +
      (T (textOf X) (512 * (j / 512) + i % 512) - T (textOf X) (512 * (j / 512))))) := by
    have ea : (work t).act = (r.ask i).act (work t).obj := by unfold Work.act; rw [hi]
    have eb : (work u).act = (r.ask j).act (work t).obj := by unfold Work.act; rw [hj, ho]
    cases r with
    | std x =>
      obtain ⟨h1, h2, aB, aR, e⟩ := hfi
      obtain ⟨-, h3, -⟩ := hfj
      obtain ⟨y, e', hy⟩ := buildStd_ok (textOf X) aB aR
      rw [e'] at e; cases e
      exact collide htu hmod ea eb (headStd_ready hy h1 _ (by rw [nblk_blocks]; exact h2) mi)
        (headStd_ready hy h1 _ (by rw [nblk_blocks]; exact h3) mj)
    | bch x =>
      obtain ⟨h1, h2, g, aB, aR, e⟩ := hfi
      obtain ⟨-, h3, -⟩ := hfj
      obtain ⟨y, e', hy⟩ := buildBch_ok (textOf X) aB aR (g := g) (beyond := some g) (Or.inr rfl)
      rw [e'] at e; cases e
      exact collide htu hmod ea eb (headBch_ready hy h1 _ (by rw [nblk_blocks]; exact h2) mi)
        (headBch_ready hy h1 _ (by rw [nblk_blocks]; exact h3) mj)
    | cf x =>
      obtain ⟨h1, h2, aB, e⟩ := hfi
      obtain ⟨-, h3, -⟩ := hfj
      have hy := cf_of_built h1 e
      exact collide htu hmod ea eb (headCF_ready hy h1 _ (by rw [nblk_blocks]; exact h2) mi)
        (headCF_ready hy h1 _ (by rw [nblk_blocks]; exact h3) mj)
  obtain ⟨σ, e⟩ := key
  refine ⟨σ, ?_⟩
  rw [e, ones_T, ← ones_T X (512 * (j / 512) + _), ← ones_T X (512 * (j / 512)), ones_drop]
  congr 2
  omega

/-! ## One object, two readers -/

/-- Two blocks: one of eight bits is a one, then two of eight. -/
def twoBlocks : List (BitVec 8) := List.replicate 64 0x01#8 ++ List.replicate 64 0x03#8

/-- Thread 0 asks `rank(256)`, all others ask `rank(768)` of one object. -/
def readers (r : Ranker) : Nat → Work := fun t => ⟨7, r.ask (if t = 0 then 256 else 768)⟩

theorem twoBlocks_std {x : Basic} (e : buildStd 64 64 (textOf twoBlocks) = ok x) {i : Nat} (hi : i < 1024) :
    Fits twoBlocks (Ranker.ask (.std x) i) :=
  ⟨by decide, by rw [show 512 * Text.blocks twoBlocks = 1024 by decide]; exact hi, 64, 64, e⟩

/-- C100 fails: two threads that only query one and the same object. -/
theorem C100_false : ¬ C100_full := by
  intro h
  obtain ⟨x, e, _⟩ := C66_basic_rank_partial (X := twoBlocks) (by decide) 64 64
  obtain ⟨σ, h1⟩ := C100_wrong (work := readers (.std x)) (m := fun _ => 0) (t := 0) (u := 1) (by decide) rfl
    (r := .std x) (i := 256) (j := 768) rfl rfl (twoBlocks_std e (by decide)) (twoBlocks_std e (by decide))
    (by decide +kernel) (by decide +kernel)
  have h2 := h (readers (.std x)) (fun _ => 0) 0 twoBlocks (twoBlocks_std e (by decide)) σ _ h1
  change ok _ = ok (ones (Text.bits twoBlocks) 256) at h2
  injection h2 with h2
  revert h2
  decide +kernel

/-- The hypotheses of `C100_race`, `C100_wrong` and `C100_partial` hold of these threads: `rank(256)` is 32, and
comes out as 64 when the other thread interferes. -/
example : ∃ x, buildStd 64 64 (textOf twoBlocks) = ok x ∧ (Sys.start (readers (.std x)) fun _ => 0).Race 0 1 ∧
    (∃ σ, ((Sys.start (readers (.std x)) fun _ => 0).run σ).thr 0 = .done (ok 64)) ∧
    ∃ n, ∀ σ₃, ∃ o, ((Sys.start (readers (.std x)) fun _ => 0).run
      (List.replicate 1 1 ++ List.replicate n 0 ++ σ₃)).thr 0 = .done o ∧ o = ok 32 := by
  obtain ⟨x, e, _⟩ := C66_basic_rank_partial (X := twoBlocks) (by decide) 64 64
  refine ⟨x, e, C100_race (X := twoBlocks) (by decide) rfl (r := .std x) (i := 256) (j := 768) rfl rfl
    (twoBlocks_std e (by decide)) (twoBlocks_std e (by decide)) (Or.inr ⟨by decide +kernel, by decide +kernel⟩), ?_, ?_⟩
  · obtain ⟨σ, h1⟩ := C100_wrong (work := readers (.std x)) (m := fun _ => 0) (t := 0) (u := 1) (by decide) rfl
      (r := .std x) (i := 256) (j := 768) rfl rfl (twoBlocks_std e (by decide)) (twoBlocks_std e (by decide))
      (by decide +kernel) (by decide +kernel)
    exact ⟨σ, h1.trans (congrArg (fun n => Prog.done (ok n)) (by decide +kernel))⟩
  · obtain ⟨n, hn⟩ := C100_partial (work := readers (.std x)) (m := fun _ => 0) (t := 0) (X := twoBlocks)
      (twoBlocks_std e (by decide)) (σ₁ := List.replicate 1 1) (by decide)
    refine ⟨n, fun σ₃ => ?_⟩
    obtain ⟨o, h1, h2⟩ := hn (List.replicate n 0) σ₃ (by rw [List.count_replicate_self]; omega)
      (fun u hu hne => absurd (List.eq_of_mem_replicate hu) hne)
    have h3 : o = ok (ones (Text.bits twoBlocks) 256) := h2
    exact ⟨o, h1, h3.trans (congrArg ok (by decide +kernel))⟩

/-- The same for `RankCF64`, whose left part moves `pointer` twice. -/
example : ∃ x, buildCF 64 (textOf twoBlocks) = ok x ∧
    ∃ σ, ((Sys.start (readers (.cf x)) fun _ => 0).run σ).thr 0 = .done (ok 64) := by
  obtain ⟨x, e, _⟩ := C68_cf_rank_partial (X := twoBlocks) (by decide) 64 (Or.inr ⟨0, by decide, by decide +kernel⟩)
  have hf : ∀ {i}, i < 1024 → Fits twoBlocks (Ranker.ask (.cf x) i) := fun hi =>
    ⟨by decide, by rw [show 512 * Text.blocks twoBlocks = 1024 by decide]; exact hi, 64, e⟩
  refine ⟨x, e, ?_⟩
  obtain ⟨σ, h1⟩ := C100_wrong (work := readers (.cf x)) (m := fun _ => 0) (t := 0) (u := 1) (by decide) rfl
    (r := .cf x) (i := 256) (j := 768) rfl rfl (hf (by decide)) (hf (by decide))
    (by decide +kernel) (by decide +kernel)
  exact ⟨σ, h1.trans (congrArg (fun n => Prog.done (ok n)) (by decide +kernel))⟩

/-- Every thread has an object of its own, all built from one text: right under every schedule. -/
example : ∃ x, buildStd 64 64 (textOf twoBlocks) = ok x ∧ ∀ σ o,
    ((Sys.start (fun t => ⟨t, .rankStd x (300 + t % 2 * 512)⟩) fun _ => 0).run σ).thr 0 = .done o → o = ok 37 := by
  obtain ⟨x, e, _⟩ := C66_basic_rank_partial (X := twoBlocks) (by decide) 64 64
  refine ⟨x, e, fun σ o h => ?_⟩
  have h2 : o = ok (ones (Text.bits twoBlocks) 300) := (C100_disjoint_partial (X := twoBlocks)
    (work := fun t => ⟨t, .rankStd x (300 + t % 2 * 512)⟩) (m := fun _ => 0) (t := 0)
    (twoBlocks_std e (show 300 < 1024 by decide)) (fun u hu => hu)).2.1 σ o h
  exact h2.trans (congrArg ok (by decide +kernel))

/-- A block of ones is right whatever the others do. -/
example : ∃ x, buildStd 64 64 (textOf sampleText) = ok x ∧ ∀ σ,
    ((Sys.start (fun t => ⟨0, .rankStd x (if t = 0 then 700 else 1030)⟩) fun _ => 0).run σ).thr 0 =
      .done (ok 188) := by
  obtain ⟨x, e, _⟩ := C66_basic_rank_partial (X := sampleText) (by decide) 64 64
  refine ⟨x, e, fun σ => ?_⟩
  rw [(C100_even_partial (X := sampleText) (work := fun t => ⟨0, .rankStd x (if t = 0 then 700 else 1030)⟩)
    (m := fun _ => 0) (t := 0) (x := x) (i := 700) rfl ⟨by decide, by decide, 64, 64, e⟩ (by decide +kernel) σ).1]
  exact congrArg (fun n => Prog.done (ok n)) (by decide +kernel)

/-- `select` goes wrong in the same way: `select(1)` is position 1, and comes out as 2 when a query of the next
group moves `pointer` before the first byte is read. -/
theorem C100_select_wrong : ∃ x, buildSel 4 64 64 64 (textOf [0x55#8, 0x33#8]) = ok x ∧
    selectStd false 4 64 x 1 = ok 1 ∧
    ((Sys.start (fun t => ⟨0, .selStd 4 64 x (if t = 0 then 1 else 5)⟩) fun _ => 0).run [0, 1, 0, 0, 0, 0]).thr 0 =
      .done (ok 2) := by
  refine ⟨_, rfl, by decide +kernel, ?_⟩
  rfl

/-- Hypotheses of `C100_select_race`. -/
example : ∃ x, buildSelBch 4 12 64 64 (textOf sampleOnes) = ok x ∧
    (Sys.start (fun t => ⟨0, .selBch 4 12 x (t + 1)⟩) fun _ => 0).Race 0 1 :=
  ⟨_, rfl, C100_select_race (by decide) rfl rfl rfl⟩

end MRS.Props
