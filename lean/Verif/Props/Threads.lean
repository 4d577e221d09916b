import Verif.Proofs.Race
import Verif.Props.Bitmap

/-!
# C31: queries in several threads

Any number of threads, one query each; bitmaps are not modified.  `St.run` interleaves their accesses to the
static arrays in the order given by a schedule.
-/

set_option autoImplicit false

namespace MRS.Props
open MRS Outcome Spec

/-- The bitmap of the thread holds the bits `B`. -/
def Holds (j : Job) (B : List Bool) : Prop :=
  ∃ ops, j.c.Life ops ∧ j.c.run ops = ok j.bm ∧ B = j.c.logical ops

/-- The query is one that has an answer (and, for select, that is not one of the ranks of C28). -/
def Asks (j : Job) (B : List Bool) : Prop :=
  match j.q with
  | .rank i => i < B.length
  | .select k => k < ones B B.length ∧ ¬ j.c.SelectBad B k

/-- The outcome is the right answer. -/
def Right (j : Job) (B : List Bool) (o : Outcome Nat) : Prop :=
  match j.q with
  | .rank i => o = ok (Spec.rank B i)
  | .select k => ∃ p, o = ok p ∧ IsSelect B k p

/-- The sentinels of the `sums` arrays are zero, as they are when the program starts. -/
def Zeroed (m : Statics) : Prop := ∀ fn, m ⟨fn, .sums, 0⟩ = 0

/-- C31 as a user would want it: however the threads are scheduled, a thread that ends has the right answer. -/
def C31_full : Prop :=
  ∀ (jobs : Nat → Job) (m : Statics) (t : Nat) (B : List Bool), Zeroed m → Holds (jobs t) B → Asks (jobs t) B →
    ∀ σ o, ((St.start jobs m).run σ).thr t = .done o → Right (jobs t) B o

theorem alone_right {j : Job} {B : List Bool} (hB : Holds j B) (hq : Asks j B) {m : Statics} (hm : Zeroed m) :
    Right j B (j.act.val m) := by
  obtain ⟨ops, hl, hr, rfl⟩ := hB
  have ha := (Config.run_alive hl hr).toHeld
  obtain ⟨c, bm, q⟩ := j
  cases q with
  | rank i =>
    show (bmRankA c bm i).val m = _
    rw [bmRankA_val]
    exact ha.rank (hm _) hq
  | select k =>
    show ∃ p, (bmSelectA c bm k).val m = ok p ∧ _
    rw [bmSelectA_val]
    exact ha.select_sharp (hm _) hq.2 hq.1

theorem alone_ok {j : Job} {B : List Bool} (hB : Holds j B) (hq : Asks j B) {m : Statics} (hm : Zeroed m) :
    ∃ p, j.act.val m = ok p := by
  have := alone_right hB hq hm
  obtain ⟨c, bm, q⟩ := j
  cases q with
  | rank i => exact ⟨_, this⟩
  | select k => obtain ⟨p, e, _⟩ := this; exact ⟨p, e⟩

theorem start_only (jobs : Nat → Job) (m : Statics) : ∀ t,
    Act.Only (jobs t).Touches (fun l => (jobs t).Touches l ∧ ¬ l.Sentinel) ((St.start jobs m).thr t) :=
  fun t => only_act (jobs t)

theorem zeroed_run {jobs : Nat → Job} {m : Statics} (hm : Zeroed m) (σ : List Nat) :
    Zeroed ((St.start jobs m).run σ).mem := fun fn =>
  (St.keep (F := Loc.Sentinel) σ (start_only jobs m) (fun _ _ h => h.2) ⟨fn, .sums, 0⟩ ⟨rfl, rfl⟩).trans (hm fn)

/-- C31, what holds (1): while a thread runs its query, only threads with queries of *other* template instances
run, or the instance has no static arrays.  Then its answer is right, whatever happened before (`σ₁`, any
interleaving) and happens afterwards (`σ₃`).  In particular queries of one instance that are serialised by a
lock are right.  Missing: overlapping queries of one instance with static arrays. -/
theorem C31_partial {jobs : Nat → Job} {m : Statics} (hm : Zeroed m) {t : Nat} {B : List Bool}
    (hB : Holds (jobs t) B) (hq : Asks (jobs t) B) {σ₁ : List Nat} (h₁ : t ∉ σ₁) :
    ∃ n, ∀ σ₂ σ₃ : List Nat, n ≤ σ₂.count t →
      (∀ u ∈ σ₂, u ≠ t → ∀ f, (jobs u).fn = some f → (jobs t).fn = some f → f.static = false) →
      ∃ o, ((St.start jobs m).run (σ₁ ++ σ₂ ++ σ₃)).thr t = .done o ∧ Right (jobs t) B o := by
  have hz := zeroed_run (jobs := jobs) hm σ₁
  have ho := St.only_run σ₁ (start_only jobs m)
  have hi : ((St.start jobs m).run σ₁).thr t = (jobs t).act := St.idle σ₁ h₁
  obtain ⟨n, hn⟩ := (jobs t).act.steps_end ((St.start jobs m).run σ₁).mem
  refine ⟨n, fun σ₂ σ₃ hc hσ => ⟨(jobs t).act.val ((St.start jobs m).run σ₁).mem, ?_, alone_right hB hq hz⟩⟩
  rw [St.run_append, St.run_append]
  refine St.stay σ₃ ?_
  rw [St.follow (F := (jobs t).Touches) σ₂ (m := ((St.start jobs m).run σ₁).mem) (ho t) (fun _ _ => rfl)
    (St.clear_of σ₂ ho fun u hu hne l hl ht => ?_), hi, hn _ hc]
  · rfl
  · have h1 := hσ u hu hne l.fn hl.1.1 ht.1
    rw [ht.2] at h1
    cases h1

/-- C31, what holds (2): if no other thread uses the same instance, or the instance has no static arrays (all
`loop` modes, all selects without AVX-512, blocks of 64 bits), the answer is right under every schedule and the
thread takes part in no data race. -/
theorem C31_disjoint_partial {jobs : Nat → Job} {m : Statics} (hm : Zeroed m) {t : Nat} {B : List Bool}
    (hB : Holds (jobs t) B) (hq : Asks (jobs t) B)
    (hd : ∀ u, u ≠ t → ∀ f, (jobs u).fn = some f → (jobs t).fn = some f → f.static = false) :
    (∃ n, ∀ σ, n ≤ σ.count t → ∃ o, ((St.start jobs m).run σ).thr t = .done o) ∧
    (∀ σ o, ((St.start jobs m).run σ).thr t = .done o → Right (jobs t) B o) ∧
    ∀ σ u, ¬ ((St.start jobs m).run σ).Race t u ∧ ¬ ((St.start jobs m).run σ).Race u t := by
  obtain ⟨n, hn⟩ := C31_partial hm hB hq (σ₁ := []) List.not_mem_nil
  have hall : ∀ σ, n ≤ σ.count t → ∃ o, ((St.start jobs m).run σ).thr t = .done o ∧ Right (jobs t) B o := by
    intro σ hc
    obtain ⟨o, h1, h2⟩ := hn σ [] hc (fun u _ => hd u)
    rw [List.nil_append, List.append_nil] at h1
    exact ⟨o, h1, h2⟩
  refine ⟨⟨n, fun σ hc => ?_⟩, fun σ o e => ?_, fun σ u => ?_⟩
  · obtain ⟨o, h, _⟩ := hall σ hc; exact ⟨o, h⟩
  · obtain ⟨o', h1, h2⟩ := hall (σ ++ List.replicate n t) (by rw [List.count_append, List.count_replicate_self]; omega)
    rw [St.run_append, St.stay _ e] at h1
    cases h1
    exact h2
  · have ho := St.only_run σ (start_only jobs m)
    have key : ∀ {l : Loc}, (jobs t).Touches l → (jobs u).Touches l → u ≠ t → False := fun h1 h2 hne => by
      have := hd u hne _ h2.1 h1.1
      rw [h1.2] at this; cases this
    have hu : ∀ {l : Loc} (v : Nat), (((St.start jobs m).run σ).thr v).Uses l → (jobs v).Touches l := fun v h => by
      rcases (ho v).uses h with h | h
      · exact h
      · exact h.1
    exact ⟨fun ⟨hne, l, hw, hl⟩ => key ((ho t).writes hw).1 (hu u hl) (fun e => hne e.symm),
      fun ⟨hne, l, hw, hl⟩ => key (hu t hl) ((ho u).writes hw).1 hne⟩

/-- C31 fails (1): any two queries of one instance with static arrays race with their very first accesses,
whatever the bitmaps and whatever is asked.  In C++ this is undefined behaviour. -/
theorem C31_race {jobs : Nat → Job} {m : Statics} (hm : Zeroed m) {t u : Nat} (htu : t ≠ u) {B B' : List Bool}
    (hB : Holds (jobs t) B) (hq : Asks (jobs t) B) (hB' : Holds (jobs u) B') (hq' : Asks (jobs u) B') {f : Fn}
    (hf : (jobs t).fn = some f) (hf' : (jobs u).fn = some f) (hs : f.static = true) :
    (St.start jobs m).Race t u := by
  obtain ⟨p, e⟩ := alone_ok hB hq hm
  obtain ⟨p', e'⟩ := alone_ok hB' hq' hm
  refine ⟨htu, f.first, Job.writes hf hs e, ?_⟩
  have := Job.writes hf' hs e'
  show ((jobs u).act).Uses f.first
  cases h : (jobs u).act with
  | done o => rw [h] at this; exact this.elim
  | get l k => rw [h] at this; exact this.elim
  | put l v k => rw [h] at this; exact this

/-- Ones in the first `k` words of the block of position `i`, blocks of `w` bits. -/
def inBlock (w : Nat) (B : List Bool) (i k : Nat) : Nat := ones B (w * (i / w) + 64 * k) - ones B (w * (i / w))

theorem fn_words {c : Config} {bm : Bitmap} {q : Query} {f : Fn} (hf : Job.fn ⟨c, bm, q⟩ = some f) :
    64 * f.words = c.blk.width.bits := by
  unfold Job.fn at hf
  rw [Width.bits_eq]
  revert hf
  cases c.blk.width <;> cases q <;> intro hf <;> cases hf <;> rfl

theorem rank_act_shape {c : Config} {bm : Bitmap} {B : List Bool} (h : Held c bm B) {i : Nat} (hi : i < B.length)
    {f : Fn} (hf : Job.fn ⟨c, bm, .rank i⟩ = some f) (hs : f.static = true) :
    ∃ (pre : Act Unit) (S R : Nat),
      bmRankA c bm i = (pre >>= fun _ => Act.get ⟨f, f.last, i % c.blk.width.bits / 64⟩ fun x =>
        Act.done (ok (add64 S (add64 x R)))) ∧
      S + inBlock c.blk.width.bits B i (i % c.blk.width.bits / 64) + R = Spec.rank B i ∧ S + R ≤ 2 ^ 40 ∧
      ∀ m : Statics, m ⟨f, .sums, 0⟩ = 0 → ∃ m', pre.solo m = (ok (), m') ∧
        ∀ k, 64 * k < c.blk.width.bits → m' ⟨f, f.last, k⟩ = inBlock c.blk.width.bits B i k ∧ inBlock c.blk.width.bits B i k ≤ 512 := by
  obtain ⟨n, hn⟩ := h.bmRep_lt hi
  have hv := hn.inv
  have hW := Width.words_pos c.blk.width
  have hb := Width.bits_eq c.blk.width
  have hW8 := Width.words_le c.blk.width
  have hnle := hv.nle
  have hwid : c.blk.width ≠ .w64 := by
    intro e; unfold Job.fn at hf; simp only [e] at hf; cases hf
  have hfn : f = c.blk.fnOf false := by
    unfold Job.fn at hf
    unfold BlockType.fnOf
    revert hf hwid
    cases c.blk.width with
    | w64 => intro _ h; exact absurd rfl h
    | w256 => intro hf _; cases hf; rfl
    | w512 => intro hf _; cases hf; rfl
  have hw : W64 = 2 ^ 64 := rfl
  have hi64 : i < 64 * bm.bits.len := by rw [← h.len]; exact hi
  have hi' : i < c.blk.width.bits * n := by rw [hb, Nat.mul_assoc, ← hv.len]; exact hi64
  have hqn : i / c.blk.width.bits < n := by
    rw [Nat.div_lt_iff_lt_mul (by omega), Nat.mul_comm]; exact hi'
  have hmod := Nat.mod_lt i (show 0 < c.blk.width.bits by omega)
  have hdm := Nat.div_add_mod i c.blk.width.bits
  unfold bmRankA inBlock
  generalize i / c.blk.width.bits = q at *
  generalize i % c.blk.width.bits = o at *
  have hs' : (if q ≠ 0 then c.fam.sum c.b c.H bm.index (q - 1) else ok 0)
      = ok (fcnt bm.bits.f (64 * (c.blk.width.words * q))) := by
    by_cases hq : q ≠ 0
    · rw [if_pos hq, tree_sum_ok hv.hlo hv.hhi hv.tree (Width.bits_le _) hv.align (by omega),
        psum_blkCnt _ (by omega), Nat.sub_add_cancel (by omega)]
    · have : q = 0 := by omega
      rw [if_neg hq, this]; rfl
  have hmul : c.blk.width.words * q ≤ 8 * 2 ^ 24 := Nat.mul_le_mul hW8 (by omega)
  obtain ⟨p, e, hp⟩ := Vec.ptr_ok hW hv.len hqn
  obtain ⟨pre, e1, hpre⟩ := (BlockType.rankA_shape c.b hv.sup hwid (by rw [← hfn]; exact hs) hp hmod).out
  rw [← hfn] at e1 hpre
  have hblk : c.blk.width.bits * q + c.blk.width.bits ≤ B.length := by
    have := Nat.mul_le_mul_left c.blk.width.bits (show q + 1 ≤ n from hqn)
    rw [Nat.mul_succ] at this
    rw [h.len, hv.len]
    rw [hb] at this ⊢
    rw [Nat.mul_assoc 64 c.blk.width.words n] at this
    exact this
  have hin : ∀ k, 64 * k ≤ c.blk.width.bits → ones B (c.blk.width.bits * q + 64 * k) - ones B (c.blk.width.bits * q) =
      psum (wones fun j => bm.bits.f (c.blk.width.words * q + j)) k := by
    intro k hk
    rw [h.rep.ones (by omega), h.rep.ones (by omega), ← fcnt_words,
      show c.blk.width.bits * q = 64 * (c.blk.width.words * q) by
        rw [← Nat.mul_assoc, ← hb], fcnt_shift]
    omega
  have hbl := Width.bits_le c.blk.width
  have hblk' := hblk
  refine ⟨pre, fcnt bm.bits.f (64 * (c.blk.width.words * q)), wcnt (bm.bits.f (c.blk.width.words * q + o / 64)) (o % 64 + 1),
    ?_, ?_, ?_, fun m hm => ?_⟩
  · rw [hn.inv.size, massert_ok (by simpa using hi64), Act.lift_ok, hs', Act.lift_ok, mul64_eq (by omega), e,
      Act.lift_ok, e1, Act.assoc]
    rfl
  · rw [hin _ (by omega)]
    have h1 := fcnt_idx (fun j => bm.bits.f (c.blk.width.words * q + j))
      o
    have h2 := fcnt_shift bm.bits.f (c.blk.width.words * q) (o + 1)
    unfold Spec.rank
    rw [h.rep.ones (by omega)]
    rw [show 64 * (c.blk.width.words * q) + (o + 1) = i + 1 by
      rw [← Nat.mul_assoc, ← hb]; omega] at h2
    omega
  · have h1 := fcnt_le bm.bits.f (64 * (c.blk.width.words * q))
    have h2 : ∀ w : Word, wcnt w (o % 64 + 1) ≤ o % 64 + 1 := fun w => ncnt_le _ _
    have h3 := h2 (bm.bits.f (c.blk.width.words * q + o / 64))
    omega
  · obtain ⟨m', es, hm'⟩ := hpre m hm
    exact ⟨m', es, fun k hk => by
      rw [hin k (by omega)]
      have h1 := fcnt_le (fun j => bm.bits.f (c.blk.width.words * q + j)) (64 * k)
      rw [fcnt_words] at h1
      exact ⟨hm' k (by omega), by omega⟩⟩

/-- C31 fails (2), even if racing accesses are harmless and words are never torn: two ranks of one instance with
static arrays, any bitmaps, any positions.  Under some schedule the first thread gets its answer with the ones
in front of its word replaced by those of the *other* thread's block. -/
theorem C31_wrong {jobs : Nat → Job} {m : Statics} (hm : Zeroed m) {t u : Nat} (htu : t ≠ u) {B B' : List Bool}
    (hB : Holds (jobs t) B) (hB' : Holds (jobs u) B') {i j : Nat} (hi : (jobs t).q = .rank i) (hil : i < B.length)
    (hj : (jobs u).q = .rank j) (hjl : j < B'.length) {f : Fn}
    (hf : (jobs t).fn = some f) (hf' : (jobs u).fn = some f) (hs : f.static = true) :
    ∃ σ r, ((St.start jobs m).run σ).thr t = .done (ok r) ∧
      r + inBlock (64 * f.words) B i (i % (64 * f.words) / 64) =
        Spec.rank B i + inBlock (64 * f.words) B' j (i % (64 * f.words) / 64) := by
  obtain ⟨ops, hl, hr, rfl⟩ := hB
  obtain ⟨ops', hl', hr', rfl⟩ := hB'
  have ha := (Config.run_alive hl hr).toHeld
  have ha' := (Config.run_alive hl' hr').toHeld
  have hact : (jobs t).act = bmRankA (jobs t).c (jobs t).bm i := by unfold Job.act; rw [hi]
  have hact' : (jobs u).act = bmRankA (jobs u).c (jobs u).bm j := by unfold Job.act; rw [hj]
  have e1 : Job.fn ⟨(jobs t).c, (jobs t).bm, .rank i⟩ = some f := by rw [← hi]; exact hf
  have e2 : Job.fn ⟨(jobs u).c, (jobs u).bm, .rank j⟩ = some f := by rw [← hj]; exact hf'
  obtain ⟨pre, S, R, ea, hsum, hle, hpre⟩ := rank_act_shape ha hil e1 hs
  obtain ⟨pre', S', R', ea', -, -, hpre'⟩ := rank_act_shape ha' hjl e2 hs
  rw [← fn_words e1] at *
  rw [← fn_words e2] at *
  obtain ⟨m₁, p₁, -⟩ := hpre m (hm _)
  obtain ⟨n₁, s₁⟩ := Act.steps_bind pre (fun _ => Act.get ⟨f, f.last, i % (64 * f.words) / 64⟩ fun x =>
        Act.done (ok (add64 S (add64 x R)))) m () m₁ p₁
  rw [← ea, ← hact] at s₁
  have r₁ := St.run_alone t n₁ (St.start jobs m)
  have z₁ := zeroed_run (jobs := jobs) hm (List.replicate n₁ t)
  rw [r₁] at z₁
  change Zeroed (Act.steps n₁ (jobs t).act m).2 at z₁
  rw [s₁] at z₁
  obtain ⟨m₂, p₂, hm₂⟩ := hpre' m₁ (z₁ _)
  obtain ⟨n₂, s₂⟩ := Act.steps_bind pre' (fun _ => Act.get ⟨f, f.last, j % (64 * f.words) / 64⟩ fun x =>
        Act.done (ok (add64 S' (add64 x R')))) m₁ () m₂ p₂
  rw [← ea', ← hact'] at s₂
  have hpos : 0 < 64 * f.words := by rw [fn_words e1]; exact Width.bits_pos _
  have hmod := Nat.mod_lt i hpos
  obtain ⟨hv, hin⟩ := hm₂ (i % (64 * f.words) / 64) (by omega)
  refine ⟨List.replicate n₁ t ++ List.replicate n₂ u ++ [t],
    S + (inBlock (64 * f.words) (Config.logical (jobs u).c ops') j (i % (64 * f.words) / 64) + R), ?_, by omega⟩
  have ht : (Act.steps n₁ (jobs t).act m).1 = Act.get ⟨f, f.last, i % (64 * f.words) / 64⟩ fun x =>
        Act.done (ok (add64 S (add64 x R))) := by rw [s₁]
  have hmem : (Act.steps n₁ (jobs t).act m).2 = m₁ := by rw [s₁]
  rw [St.run_append, St.run_append, r₁, St.run_alone]
  show (St.step _ t).thr t = _
  rw [St.step_same]
  show (Act.one (thrSet (thrSet _ t (Act.steps n₁ (jobs t).act m).1) u _ t)
    (Act.steps n₂ (thrSet (St.start jobs m).thr t _ u) (Act.steps n₁ (jobs t).act m).2).2).1 = _
  have hu : thrSet (St.start jobs m).thr t (Act.steps n₁ (jobs t).act m).1 u = (jobs u).act := if_neg fun e => htu e.symm
  have hu' : ∀ (g : Nat → Act Nat) a, thrSet g u a t = g t := fun g a => if_neg htu
  have ht' : ∀ (g : Nat → Act Nat) a, thrSet g t a t = a := fun g a => if_pos rfl
  rw [hu', ht', ht, hmem]
  have hu2 : ∀ a, thrSet (St.start jobs m).thr t a u = (jobs u).act := fun a => if_neg fun e => htu e.symm
  erw [hu2, s₂]
  show Act.done (ok (add64 S (add64 (m₂ ⟨f, f.last, i % (64 * f.words) / 64⟩) R))) = _
  rw [hv, add64_eq (b := R) (by simp only [W64]; omega), add64_eq (by simp only [W64]; omega)]

/-! ## One bitmap, two readers -/

/-- Thread 0 asks for `rank(192)`, all others for `rank(300)`, of the one bitmap `bm`. -/
def exJobs (bm : Bitmap) : Nat → Job := fun t => ⟨exCfg, bm, .rank (if t = 0 then 192 else 300)⟩

/-- C31 fails: two threads that only read one and the same bitmap of the default kind
(`avx2::segment_tree<1>`, `block256_type_a`). -/
theorem C31_false : ¬ C31_full := by
  intro h
  obtain ⟨bm, e, _⟩ := C01_access exOps_life
  have hB : ∀ t, Holds (exJobs bm t) (exCfg.logical exOps) := fun t => ⟨exOps, exOps_life, e, rfl⟩
  obtain ⟨σ, r, h1, h2⟩ := C31_wrong (jobs := exJobs bm) (m := fun _ => 0) (fun _ => rfl) (t := 0) (u := 1)
    (by decide) (hB 0) (hB 1) (i := 192) (j := 300) rfl (by decide +kernel) rfl (by decide +kernel)
    (f := ⟨false, 4, RankMode.builtin_unrolled⟩) rfl rfl (by decide)
  have h3 := h (exJobs bm) (fun _ => 0) 0 _ (fun _ => rfl) (hB 0) (show 192 < _ by decide +kernel) σ _ h1
  have h4 : (ok r : Outcome Nat) = ok (Spec.rank (exCfg.logical exOps) 192) := h3
  have h5 : inBlock 256 (exCfg.logical exOps) 192 3 = 2 := by decide +kernel
  have h6 : inBlock 256 (exCfg.logical exOps) 300 3 = 1 := by decide +kernel
  injection h4 with h4
  simp only [Nat.reduceMul, Nat.reduceMod, Nat.reduceDiv, h5, h6] at h2
  omega

/-- The hypotheses of `C31_race` and `C31_partial` hold of these threads. -/
example : ∃ bm, exCfg.run exOps = ok bm ∧ (St.start (exJobs bm) fun _ => 0).Race 0 1 ∧
    ∃ n, ∀ σ₃, ∃ o, ((St.start (exJobs bm) fun _ => 0).run (List.replicate 1 1 ++ List.replicate n 0 ++ σ₃)).thr 0 =
      .done o ∧ o = ok 2 := by
  obtain ⟨bm, e, _⟩ := C01_access exOps_life
  have hB : ∀ t, Holds (exJobs bm t) (exCfg.logical exOps) := fun t => ⟨exOps, exOps_life, e, rfl⟩
  refine ⟨bm, e, C31_race (fun _ => rfl) (by decide) (hB 0) (show 192 < _ by decide +kernel) (hB 1)
    (show 300 < _ by decide +kernel) (f := ⟨false, 4, RankMode.builtin_unrolled⟩) rfl rfl (by decide), ?_⟩
  obtain ⟨n, hn⟩ := C31_partial (jobs := exJobs bm) (m := fun _ => 0) (fun _ => rfl) (t := 0) (hB 0)
    (show 192 < _ by decide +kernel) (σ₁ := List.replicate 1 1) (by decide)
  refine ⟨n, fun σ₃ => ?_⟩
  obtain ⟨o, h1, h2⟩ := hn (List.replicate n 0) σ₃ (by rw [List.count_replicate_self]; omega)
    (fun u hu hne => absurd (List.eq_of_mem_replicate hu) hne)
  have h3 : o = ok (Spec.rank (exCfg.logical exOps) 192) := h2
  exact ⟨o, h1, h3.trans (congrArg ok (by decide +kernel))⟩

/-- Thread 0 asks `rank(192)`, the others ask `select(3)` of the same bitmap: another instance. -/
example : ∃ bm, exCfg.run exOps = ok bm ∧ ∀ σ o,
    ((St.start (fun t => ⟨exCfg, bm, if t = 0 then .rank 192 else .select 3⟩) fun _ => 0).run σ).thr 0 = .done o →
      o = ok 2 := by
  obtain ⟨bm, e, _⟩ := C01_access exOps_life
  refine ⟨bm, e, fun σ o h => ?_⟩
  have h2 : o = ok (Spec.rank (exCfg.logical exOps) 192) := (C31_disjoint_partial
    (jobs := fun t => ⟨exCfg, bm, if t = 0 then .rank 192 else .select 3⟩) (fun _ => rfl) (t := 0)
    ⟨exOps, exOps_life, e, rfl⟩ (show 192 < (exCfg.logical exOps).length by decide +kernel) (fun u hu f h1 h2 => by
      have h3 : Job.fn ⟨exCfg, bm, .select 3⟩ = some f := by
        have : (if u = 0 then Query.rank 192 else Query.select 3) = .select 3 := if_neg hu
        rw [← this]; exact h1
      cases h3; cases h2)).2.1 σ o h
  exact h2.trans (congrArg ok (by decide +kernel))

end MRS.Props
