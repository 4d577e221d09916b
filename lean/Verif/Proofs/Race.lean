import Verif.Proofs.Interleave
import Verif.Proofs.History

/-!
# How concurrent queries collide

Every query of an instance with static arrays starts by writing a fixed word, and every rank ends by reading
one word of sums that it has written before.
-/

set_option autoImplicit false

namespace MRS
open Outcome Act Spec

/-! ## The first access -/

/-- The first word an instance with static arrays writes. -/
def Fn.first (f : Fn) : Loc :=
  if f.sel then
    if f.mode = SelectMode.builtin_avx512_pdep then ⟨f, .counts, 0⟩ else ⟨f, .sums, 1⟩
  else
    if f.mode = RankMode.avx2_parallel ∨ f.mode = RankMode.avx512_parallel then ⟨f, .sums, 1⟩
    else ⟨f, .counts, 0⟩

section
variable {α β : Type} {l : Loc}

theorem writes_bind {a : Act α} {f : α → Act β} (h : a.Writes l) : (a >>= f).Writes l := by
  cases a with
  | done o => exact h.elim
  | get l' k => exact h.elim
  | put l' v k => exact h

theorem writes_lift {o : Outcome α} {f : α → Act β} {m : Statics} {p : β} (h : (done o >>= f).val m = ok p)
    (hf : ∀ x, o = ok x → (f x).val m = ok p → (f x).Writes l) : (done o >>= f).Writes l := by
  cases o with
  | ok x => exact hf x rfl h
  | ub e => cases h
  | abort => cases h
end

theorem unrolledA_writes (fn : Fn) (W : Nat) (C : Nat → Outcome Nat) :
    (unrolledA fn W C).Writes ⟨fn, .counts, 0⟩ := rfl

theorem storeArr_writes (fn : Fn) (a : Arr) (off n : Nat) (L : Lanes) :
    (storeArr fn a off (n + 1) L).Writes ⟨fn, a, off⟩ := rfl

theorem countArr_writes {β : Type} (fn : Fn) (n : Nat) (x : Ptr) (f : Unit → Act β) {m : Statics} {p : β}
    (h : (countArr fn (n + 1) x >>= f).val m = ok p) : (countArr fn (n + 1) x >>= f).Writes ⟨fn, .counts, 0⟩ := by
  unfold countArr at h ⊢
  rw [loop_bind, assoc] at h ⊢
  exact writes_lift h fun w _ _ => rfl

theorem rankGenericA_writes {b : Build} {fn : Fn} {W mode : Nat} {x : Ptr} {i : Nat} (hm : exSecond mode = 1)
    {m : Statics} {p : Nat} (h : (rankGenericA b fn W mode x i).val m = ok p) :
    (rankGenericA b fn W mode x i).Writes ⟨fn, .counts, 0⟩ := by
  unfold rankGenericA at h ⊢
  rw [hm] at h ⊢
  refine writes_lift h fun _ _ h => ?_
  refine writes_lift h fun _ _ h => ?_
  exact writes_bind (unrolledA_writes _ _ _)

theorem rankVecUnrolledA_writes {b : Build} {fn : Fn} {W : Nat} {x : Ptr} {i : Nat}
    {m : Statics} {p : Nat} (h : (rankVecUnrolledA b fn W x i).val m = ok p) :
    (rankVecUnrolledA b fn W x i).Writes ⟨fn, .counts, 0⟩ := by
  unfold rankVecUnrolledA at h ⊢
  refine writes_lift h fun _ _ h => ?_
  refine writes_lift h fun _ _ h => ?_
  refine writes_lift h fun _ _ h => ?_
  exact writes_bind (unrolledA_writes _ _ _)

theorem rankVecParallelA_writes {b : Build} {fn : Fn} {n : Nat} {ps : Lanes → Lanes} {x : Ptr} {i : Nat}
    {m : Statics} {p : Nat} (h : (rankVecParallelA b fn (n + 1) ps x i).val m = ok p) :
    (rankVecParallelA b fn (n + 1) ps x i).Writes ⟨fn, .sums, 1⟩ := by
  unfold rankVecParallelA at h ⊢
  refine writes_lift h fun _ _ h => ?_
  refine writes_lift h fun _ _ h => ?_
  refine writes_lift h fun _ _ h => ?_
  exact writes_bind (storeArr_writes _ _ _ _ _)

theorem rank256BuiltinParallelA_writes {b : Build} {fn : Fn} {x : Ptr} {i : Nat}
    {m : Statics} {p : Nat} (h : (rank256BuiltinParallelA b fn x i).val m = ok p) :
    (rank256BuiltinParallelA b fn x i).Writes ⟨fn, .counts, 0⟩ := by
  unfold rank256BuiltinParallelA at h ⊢
  exact writes_lift h fun _ _ h => rfl

theorem rank512BuiltinParallelA_writes {b : Build} {fn : Fn} {x : Ptr} {i : Nat}
    {m : Statics} {p : Nat} (h : (rank512BuiltinParallelA b fn x i).val m = ok p) :
    (rank512BuiltinParallelA b fn x i).Writes ⟨fn, .counts, 0⟩ := by
  unfold rank512BuiltinParallelA at h ⊢
  exact writes_lift h fun _ _ h => countArr_writes fn 7 x _ h

theorem selectTailA_writes {b : Build} {fn : Fn} {n : Nat} {x : Ptr} {L : Lanes} {k : Nat}
    {m : Statics} {p : Nat} (h : (selectTailA b fn (n + 1) x L k).val m = ok p) :
    (selectTailA b fn (n + 1) x L k).Writes ⟨fn, .sums, 1⟩ := by
  unfold selectTailA at h ⊢
  exact writes_lift h fun _ _ h => writes_bind (storeArr_writes _ _ _ _ _)

theorem selectVecA_writes {b : Build} {fn : Fn} {n : Nat} {ps : Lanes → Lanes} {x : Ptr} {k : Nat}
    {m : Statics} {p : Nat} (h : (selectVecA b fn (n + 1) ps x k).val m = ok p) :
    (selectVecA b fn (n + 1) ps x k).Writes ⟨fn, .sums, 1⟩ := by
  unfold selectVecA at h ⊢
  exact writes_lift h fun _ _ h => selectTailA_writes h

theorem selectBuiltinVecA_writes {b : Build} {fn : Fn} {n : Nat} {ps : Lanes → Lanes} {x : Ptr} {k : Nat}
    {m : Statics} {p : Nat} (h : (selectBuiltinVecA b fn (n + 1) ps x k).val m = ok p) :
    (selectBuiltinVecA b fn (n + 1) ps x k).Writes ⟨fn, .counts, 0⟩ := by
  unfold selectBuiltinVecA at h ⊢
  exact countArr_writes fn n x _ h

theorem rankU256A_writes {b : Build} {mode : Nat} (hs : (⟨false, 4, mode⟩ : Fn).static = true) {x : Ptr} {i : Nat}
    {m : Statics} {p : Nat} (h : (rankU256A b mode x i).val m = ok p) :
    (rankU256A b mode x i).Writes (Fn.first ⟨false, 4, mode⟩) := by
  unfold rankU256A at h ⊢
  by_cases h1 : mode = RankMode.avx2_loop
  · subst h1; exact absurd hs (by decide)
  simp only [h1, if_false] at h ⊢
  by_cases h2 : mode = RankMode.avx2_unrolled
  · subst h2; exact rankVecUnrolledA_writes h
  simp only [h2, if_false] at h ⊢
  by_cases h3 : mode = RankMode.builtin_parallel
  · subst h3; exact rank256BuiltinParallelA_writes h
  simp only [h3, if_false] at h ⊢
  by_cases h4 : mode = RankMode.avx2_parallel
  · subst h4; exact rankVecParallelA_writes h
  simp only [h4, if_false] at h ⊢
  have hs' : exSecond mode = 1 := by simpa [Fn.static, h3, h4] using hs
  have h5 : mode ≠ RankMode.avx512_parallel := by rintro rfl; exact absurd hs' (by decide)
  have : Fn.first ⟨false, 4, mode⟩ = ⟨⟨false, 4, mode⟩, .counts, 0⟩ := by
    simp [Fn.first, h4, h5]
  rw [this]
  exact rankGenericA_writes hs' h

theorem rankU512A_writes {b : Build} {mode : Nat} (hs : (⟨false, 8, mode⟩ : Fn).static = true) {x : Ptr} {i : Nat}
    {m : Statics} {p : Nat} (h : (rankU512A b mode x i).val m = ok p) :
    (rankU512A b mode x i).Writes (Fn.first ⟨false, 8, mode⟩) := by
  unfold rankU512A at h ⊢
  by_cases h1 : mode = RankMode.builtin_parallel
  · subst h1; exact rank512BuiltinParallelA_writes h
  simp only [h1, if_false] at h ⊢
  by_cases h2 : mode = RankMode.avx512_loop
  · subst h2; exact absurd hs (by decide)
  simp only [h2, if_false] at h ⊢
  by_cases h3 : mode = RankMode.avx512_unrolled
  · subst h3; exact rankVecUnrolledA_writes h
  simp only [h3, if_false] at h ⊢
  by_cases h4 : mode = RankMode.avx512_parallel
  · subst h4; exact rankVecParallelA_writes h
  simp only [h4, if_false] at h ⊢
  have hs' : exSecond mode = 1 := by simpa [Fn.static, h1, h4] using hs
  have h5 : mode ≠ RankMode.avx2_parallel := by rintro rfl; exact absurd hs' (by decide)
  have : Fn.first ⟨false, 8, mode⟩ = ⟨⟨false, 8, mode⟩, .counts, 0⟩ := by
    simp [Fn.first, h4, h5]
  rw [this]
  exact rankGenericA_writes hs' h

theorem selectU256A_writes {b : Build} {mode : Nat} (hs : (⟨true, 4, mode⟩ : Fn).static = true) {x : Ptr} {k : Nat}
    {m : Statics} {p : Nat} (h : (selectU256A b mode x k).val m = ok p) :
    (selectU256A b mode x k).Writes (Fn.first ⟨true, 4, mode⟩) := by
  unfold selectU256A at h ⊢
  by_cases h1 : mode = SelectMode.builtin_avx512_pdep
  · subst h1; exact selectBuiltinVecA_writes h
  simp only [h1, if_false] at h ⊢
  by_cases h2 : mode = SelectMode.avx2_avx512_pdep
  · subst h2; exact selectVecA_writes h
  exact absurd hs (by simp [Fn.static, h1, h2])

theorem selectU512A_writes {b : Build} {mode : Nat} (hs : (⟨true, 8, mode⟩ : Fn).static = true) {x : Ptr} {k : Nat}
    {m : Statics} {p : Nat} (h : (selectU512A b mode x k).val m = ok p) :
    (selectU512A b mode x k).Writes (Fn.first ⟨true, 8, mode⟩) := by
  unfold selectU512A at h ⊢
  by_cases h1 : mode = SelectMode.builtin_avx512_pdep
  · subst h1; exact selectBuiltinVecA_writes h
  simp only [h1, if_false] at h ⊢
  by_cases h2 : mode = SelectMode.avx512_avx512_pdep
  · subst h2; exact selectVecA_writes h
  exact absurd hs (by simp [Fn.static, h1, h2])

/-- A query that can return first writes to the static arrays. -/
theorem Job.writes {j : Job} {f : Fn} (hf : j.fn = some f) (hs : f.static = true) {m : Statics} {p : Nat}
    (h : j.act.val m = ok p) : j.act.Writes f.first := by
  obtain ⟨c, bm, q⟩ := j
  cases q with
  | rank i =>
    have h : (bmRankA c bm i).val m = ok p := h
    show (bmRankA c bm i).Writes _
    unfold bmRankA at h ⊢
    refine writes_lift h fun _ _ h => ?_
    refine writes_lift h fun _ _ h => ?_
    refine writes_lift h fun x _ h => ?_
    rw [val_bind_ret] at h
    refine writes_bind ?_
    cases hr : (c.blk.rankA c.b x (i % c.blk.width.bits)).val m with
    | ub e => rw [hr] at h; cases h
    | abort => rw [hr] at h; cases h
    | ok r =>
      unfold BlockType.rankA at hr ⊢
      unfold Job.fn at hf
      cases hw : c.blk.width with
      | w64 => rw [hw] at hf; cases hf
      | w256 => rw [hw] at hf hr; cases hf; exact rankU256A_writes hs hr
      | w512 => rw [hw] at hf hr; cases hf; exact rankU512A_writes hs hr
  | select k =>
    have h : (bmSelectA c bm k).val m = ok p := h
    show (bmSelectA c bm k).Writes _
    unfold bmSelectA at h ⊢
    refine writes_lift h fun _ _ h => ?_
    refine writes_lift h fun _ _ h => ?_
    refine writes_lift h fun x _ h => ?_
    rw [val_bind_ret] at h
    refine writes_bind ?_
    rename_i q _ _ _
    cases hr : (c.blk.selectA c.b x (sub64 k q.2)).val m with
    | ub e => rw [hr] at h; cases h
    | abort => rw [hr] at h; cases h
    | ok r =>
      unfold BlockType.selectA at hr ⊢
      unfold Job.fn at hf
      cases hw : c.blk.width with
      | w64 => rw [hw] at hf; cases hf
      | w256 => rw [hw] at hf hr; cases hf; exact selectU256A_writes hs hr
      | w512 => rw [hw] at hf hr; cases hf; exact selectU512A_writes hs hr

/-! ## The last access of rank -/

/-- The array a rank with static arrays reads in the end. -/
def Fn.last (f : Fn) : Arr :=
  if f.mode = RankMode.avx2_parallel ∨ f.mode = RankMode.avx512_parallel
    ∨ (f.words = 8 ∧ f.mode = RankMode.builtin_parallel) then .sums else .counts

/-- `a` fills array `ar` with the prefix sums of the words, then reads entry `i / 64`. -/
structure Shape (fn : Fn) (ar : Arr) (W : Nat) (ws : Nat → Word) (i : Nat) (a : Act Nat) : Prop where
  out : ∃ pre : Act Unit,
    a = pre >>= (fun _ => Act.get ⟨fn, ar, i / 64⟩ fun c =>
      done (ok (add64 c (wcnt (ws (i / 64)) (i % 64 + 1))))) ∧
    ∀ m : Statics, m ⟨fn, .sums, 0⟩ = 0 → ∃ m', pre.solo m = (ok (), m') ∧
      ∀ j, j < W → m' ⟨fn, ar, j⟩ = psum (wones ws) j

theorem val_solo {α β : Type} (a : Act α) (f : α → Act β) : ∀ m, (a >>= f).val m =
    (a.solo m).1 >>= fun x => (f x).val (a.solo m).2 := by
  show ∀ m, (a.bind f).val m = _
  induction a with
  | done o => intro m; cases o <;> rfl
  | get l k ih => intro m; exact ih (m l) m
  | put l v k ih => intro m; exact ih (lset m l v)

theorem solo_of_val {pre : Act Unit} {m m' : Statics}
    (h : ∀ f : Unit → Act Nat, (pre >>= f).val m = (f ()).val m') : pre.solo m = (ok (), m') := by
  have h0 := h fun _ => done (ok 0)
  rw [val_solo] at h0
  have hl : ∀ l, (pre.solo m).1 >>= (fun _ => ok ((pre.solo m).2 l)) = ok (m' l) := fun l => by
    have := h fun _ => readW l
    rw [val_solo] at this
    exact this
  cases hp : (pre.solo m).1 with
  | ub e => rw [hp] at h0; cases h0
  | abort => rw [hp] at h0; cases h0
  | ok u =>
    refine Prod.ext hp (funext fun l => ?_)
    have := hl l
    rw [hp] at this
    have : ok ((pre.solo m).2 l) = ok (m' l) := this
    injection this

theorem readArr_get {fn : Fn} {ar : Arr} {len i : Nat} (h : i < len) (f : Nat → Act Nat) :
    (readArr fn ar len i >>= f) = Act.get ⟨fn, ar, i⟩ f := by
  unfold readArr
  rw [if_pos h]
  rfl

section
variable {b : Build} {fn : Fn} {W : Nat} {x : Ptr} {ws : Nat → Word} {i : Nat}

theorem unrolled_shape (hW0 : 0 < W) (hW : W ≤ 8) {C : Nat → Outcome Nat}
    (hC : ∀ j, j < W → C j = ok (wones ws j)) (hi : i < 64 * W) :
    Shape fn .counts W ws i (do
      unrolledA fn W C
      let c ← readArr fn .counts W (i / 64)
      done (ok (add64 c (wcnt (ws (i / 64)) (i % 64 + 1))))) := by
  refine ⟨unrolledA fn W C, ?_, fun m _ => ?_⟩
  · rw [show (fun _ : Unit => readArr fn .counts W (i / 64) >>= fun c =>
      done (ok (add64 c (wcnt (ws (i / 64)) (i % 64 + 1))))) = _ from funext fun _ => readArr_get (by omega) _]
  · obtain ⟨v, e, hv⟩ := unrolled_ok hW0 hW (fun j => m ⟨fn, .counts, j⟩) hC
    refine ⟨setArr m fn .counts v.f, solo_of_val fun f => ?_, fun j hj => ?_⟩
    · rw [unrolledA_val hW0, e, ok_bind]
    · rw [setArr_get]
      have := hv j hj
      rw [Vec.get_ok (by rw [unrolled_len e]; exact hj)] at this
      injection this

theorem rankGenericA_shape {mode : Nat} (hW0 : 0 < W) (hW : W ≤ 8) (hp : exPopcount mode ≤ 1)
    (hs : exSecond mode = 1) (hx : PtrOK x W ws) (hi : i < 64 * W) :
    Shape fn .counts W ws i (rankGenericA b fn W mode x i) := by
  unfold rankGenericA
  rw [massert_ok (decide_eq_true hi), lift_ok, rankInBlock_ok b hp hx hi, lift_ok, hs]
  exact unrolled_shape hW0 hW (fun j hj => by rw [hx j hj, ok_bind, popcountU64_ok b hp]; rfl) hi

theorem rankVecUnrolledA_shape (hW0 : 0 < W) (hW : W ≤ 8) (hx : PtrOK x W ws) (hi : i < 64 * W) :
    Shape fn .counts W ws i (rankVecUnrolledA b fn W x i) := by
  unfold rankVecUnrolledA
  obtain ⟨C, hC, hc⟩ := popcountVec_ok hx
  rw [massert_ok (decide_eq_true hi), lift_ok, rankInBlock_ok b (Nat.le_refl _) hx hi, lift_ok, hC, lift_ok]
  exact unrolled_shape hW0 hW (lanes_get hc) hi

theorem store_solo (L : Lanes) (m : Statics) : (storeArr fn .sums 1 W L).solo m =
    (ok (), setArr m fn .sums fun i => if 1 ≤ i ∧ i < 1 + W then L (i - 1) else m ⟨fn, .sums, i⟩) :=
  solo_of_val fun f => storeArr_val f m

theorem sums_get {L : Lanes} (hl : ∀ j, j < W → L j = psum (wones ws) (j + 1)) {m : Statics}
    (h0 : m ⟨fn, .sums, 0⟩ = 0) {j : Nat} (hj : j < W) :
    setArr m fn .sums (fun i => if 1 ≤ i ∧ i < 1 + W then L (i - 1) else m ⟨fn, .sums, i⟩) ⟨fn, .sums, j⟩ =
      psum (wones ws) j := by
  rw [setArr_get]
  by_cases h : j = 0
  · subst h; rw [if_neg (by omega), h0]; rfl
  · rw [if_pos (by omega), hl _ (by omega), show j - 1 + 1 = j by omega]

theorem rankVecParallelA_shape {ps : Lanes → Lanes} (hps : PsOK W ps) (hW : W ≤ 8) (hx : PtrOK x W ws)
    (hi : i < 64 * W) : Shape fn .sums W ws i (rankVecParallelA b fn W ps x i) := by
  unfold rankVecParallelA
  obtain ⟨C, hC, hc⟩ := popcountVec_ok hx
  rw [massert_ok (decide_eq_true hi), lift_ok, rankInBlock_ok b (Nat.le_refl _) hx hi, lift_ok, hC, lift_ok]
  refine ⟨storeArr fn .sums 1 W (ps C), ?_, fun m h0 => ?_⟩
  · rw [show (fun _ : Unit => readArr fn .sums (W + 1) (i / 64) >>= fun c =>
      done (ok (add64 c (wcnt (ws (i / 64)) (i % 64 + 1))))) = _ from funext fun _ => readArr_get (by omega) _]
  · exact ⟨_, store_solo _ m, fun j hj => sums_get (ps_wones hps hW hc) h0 hj⟩

theorem rank512BuiltinParallelA_shape (hx : PtrOK x 8 ws) (hi : i < 64 * 8) :
    Shape fn .sums 8 ws i (rank512BuiltinParallelA b fn x i) := by
  unfold rank512BuiltinParallelA
  rw [massert_ok (decide_eq_true (show i < 512 by omega)), lift_ok, rankInBlock_ok b (Nat.le_refl _) hx hi]
  obtain ⟨C, hC, hc⟩ := popcountArr_ok hx
  refine ⟨do
    countArr fn 8 x
    let r ← done (ok (wcnt (ws (i / 64)) (i % 64 + 1)))
    let C ← loadArr fn .counts 8
    storeArr fn .sums 1 8 (prefixsum512 C), ?_, fun m h0 => ?_⟩
  · rw [assoc, lift_ok]
    show (countArr fn 8 x >>= fun _ => loadArr fn .counts 8 >>= fun C => storeArr fn .sums 1 8 (prefixsum512 C) >>=
      fun _ => readArr fn .sums 9 (i / 64) >>= fun c => done (ok (add64 c _))) = _
    rw [show (fun _ : Unit => readArr fn .sums 9 (i / 64) >>= fun c =>
      done (ok (add64 c (wcnt (ws (i / 64)) (i % 64 + 1))))) = _ from funext fun _ => readArr_get (by omega) _]
    congr 1
  · let m1 := setArr m fn .counts fun l => if l < 8 then C l else m ⟨fn, .counts, l⟩
    have h1 : m1 ⟨fn, .sums, 0⟩ = 0 := (setArr_ne _ _ (fun h => by cases h) _ _).trans h0
    refine ⟨_, solo_of_val fun f => ?_, fun j hj => sums_get (m := m1) (ps_wones psOK512 (Nat.le_refl _) hc) h1 hj⟩
    have := countArr_val (fn := fn) (W := 8) (x := x) m (ok (wcnt (ws (i / 64)) (i % 64 + 1)))
      (fun C _ => storeArr fn .sums 1 8 (prefixsum512 C) >>= f)
    rw [hC, ok_bind, ok_bind, storeArr_val] at this
    rw [assoc, ← this]
    congr 1

theorem rank256BuiltinParallelA_shape (hx : PtrOK x 4 ws) (hi : i < 64 * 4) :
    Shape fn .counts 4 ws i (rank256BuiltinParallelA b fn x i) := by
  unfold rank256BuiltinParallelA
  rw [massert_ok (decide_eq_true (show i < 256 by omega)), lift_ok, rankInBlock_ok b (Nat.le_refl _) hx hi,
    hx 0 (by omega), hx 1 (by omega), hx 2 (by omega)]
  refine ⟨do
    writeW ⟨fn, .counts, 0⟩ 0
    writeW ⟨fn, .counts, 1⟩ (popcnt (ws 0))
    writeW ⟨fn, .counts, 2⟩ (popcnt (ws 1))
    writeW ⟨fn, .counts, 3⟩ (popcnt (ws 2))
    let C ← loadArr fn .counts 4
    storeArr fn .counts 0 4 (prefixsum256 C), ?_, fun m _ => ?_⟩
  · rw [assoc, assoc, assoc, assoc, assoc]
    have e := readArr_get (fn := fn) (ar := .counts) (show i / 64 < 4 by omega) fun c =>
      done (ok (add64 c (wcnt (ws (i / 64)) (i % 64 + 1))))
    rw [← e]
    rfl
  · let g : Nat → Nat := fun j => if j = 3 then popcnt (ws 2) else if j = 2 then popcnt (ws 1) else
      if j = 1 then popcnt (ws 0) else if j = 0 then 0 else m ⟨fn, .counts, j⟩
    let L : Lanes := fun l => if l < 4 then setArr m fn .counts g ⟨fn, .counts, l⟩ else 0
    refine ⟨setArr m fn .counts fun i => if 0 ≤ i ∧ i < 0 + 4 then prefixsum256 L (i - 0) else
      setArr m fn .counts g ⟨fn, .counts, i⟩, solo_of_val fun f => ?_, fun j hj => ?_⟩
    · rw [assoc, val_write, lset_arr, assoc, val_write, lset_setArr, assoc, val_write, lset_setArr, assoc,
        val_write, lset_setArr, assoc, loadArr_val, storeArr_val, setArr_setArr]
    · rw [setArr_get, if_pos (by omega), Nat.sub_zero]
      have hL : ∀ j, j < 4 → L j = if j = 0 then 0 else wones ws (j - 1) := by
        intro j hj
        show (if j < 4 then setArr m fn .counts g ⟨fn, .counts, j⟩ else 0) = _
        rw [if_pos hj, setArr_get]
        have : j = 0 ∨ j = 1 ∨ j = 2 ∨ j = 3 := by omega
        rcases this with rfl | rfl | rfl | rfl
        · rfl
        · show popcnt (ws 0) = _; rw [popcnt_eq]; rfl
        · show popcnt (ws 1) = _; rw [popcnt_eq]; rfl
        · show popcnt (ws 2) = _; rw [popcnt_eq]; rfl
      have hps : ∀ j, j < 4 → psum L (j + 1) = psum (wones ws) j := by
        intro j
        induction j with
        | zero => intro _; show 0 + L 0 = 0; rw [hL 0 (by omega)]; rfl
        | succ j ih =>
          intro hj
          show psum L (j + 1) + L (j + 1) = psum (wones ws) j + wones ws j
          rw [ih (by omega), hL (j + 1) hj, if_neg (by omega)]
          rfl
      have hlt : psum L 4 < 2 ^ 64 := by
        have := psum_wones_lt ws (show 3 ≤ 8 by omega) (Nat.le_refl _)
        rw [hps 3 (by omega)]
        exact Nat.lt_of_le_of_lt this (by decide)
      rw [prefixsum256_eq hlt hj, hps j hj]
end

theorem rankU256A_shape (b : Build) {mode : Nat} (hm : mode ∈ rank256Modes)
    (hs : (⟨false, 4, mode⟩ : Fn).static = true) {x : Ptr} {ws : Nat → Word} (hx : PtrOK x 4 ws) {i : Nat}
    (hi : i < 64 * 4) :
    Shape ⟨false, 4, mode⟩ (Fn.last ⟨false, 4, mode⟩) 4 ws i (rankU256A b mode x i) := by
  simp only [rank256Modes, List.mem_cons, List.not_mem_nil, or_false] at hm
  rcases hm with rfl | rfl | rfl | rfl | rfl | rfl | rfl | rfl
  · exact absurd hs (by decide)
  · exact rankGenericA_shape (by decide) (by decide) (by decide) (by decide) hx hi
  · exact absurd hs (by decide)
  · exact rankGenericA_shape (by decide) (by decide) (by decide) (by decide) hx hi
  · exact absurd hs (by decide)
  · exact rankVecUnrolledA_shape (by decide) (by decide) hx hi
  · exact rank256BuiltinParallelA_shape hx hi
  · exact rankVecParallelA_shape psOK256 (by decide) hx hi

theorem rankU512A_shape (b : Build) {mode : Nat} (hm : mode ∈ rank512Modes)
    (hs : (⟨false, 8, mode⟩ : Fn).static = true) {x : Ptr} {ws : Nat → Word} (hx : PtrOK x 8 ws) {i : Nat}
    (hi : i < 64 * 8) :
    Shape ⟨false, 8, mode⟩ (Fn.last ⟨false, 8, mode⟩) 8 ws i (rankU512A b mode x i) := by
  simp only [rank512Modes, List.mem_cons, List.not_mem_nil, or_false] at hm
  rcases hm with rfl | rfl | rfl | rfl | rfl | rfl | rfl | rfl
  · exact absurd hs (by decide)
  · exact rankGenericA_shape (by decide) (by decide) (by decide) (by decide) hx hi
  · exact absurd hs (by decide)
  · exact rankGenericA_shape (by decide) (by decide) (by decide) (by decide) hx hi
  · exact rank512BuiltinParallelA_shape hx hi
  · exact absurd hs (by decide)
  · exact rankVecUnrolledA_shape (by decide) (by decide) hx hi
  · exact rankVecParallelA_shape psOK512 (by decide) hx hi

theorem BlockType.rankA_shape (b : Build) {t : BlockType} (ht : t.Supported) (hw : t.width ≠ .w64)
    (hs : (t.fnOf false).static = true) {x : Ptr} {ws : Nat → Word} (hx : PtrOK x t.width.words ws) {i : Nat}
    (hi : i < t.width.bits) : Shape (t.fnOf false) (t.fnOf false).last t.width.words ws i (t.rankA b x i) := by
  obtain ⟨w, rm, sm⟩ := t
  cases w with
  | w64 => exact absurd rfl hw
  | w256 => exact rankU256A_shape b ht.1 hs hx hi
  | w512 => exact rankU512A_shape b ht.1 hs hx hi

end MRS
