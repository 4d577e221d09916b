import Verif.Model.Threads
import Verif.Proofs.BitmapSpec

/-!
# Queries as programs over the static arrays

Run alone, the program of a query ends like the function of `Model/Bitmap.lean`.
-/

set_option autoImplicit false

namespace MRS
open Outcome Act

namespace Act
variable {α β γ : Type}

/-- Running alone to the end: outcome and static arrays. -/
def solo : Act α → Statics → Outcome α × Statics
  | done o, m => (o, m)
  | get l k, m => (k (m l)).solo m
  | put l v k, m => k.solo (lset m l v)

/-- Outcome when run alone. -/
def val (a : Act α) (m : Statics) : Outcome α := (a.solo m).1

theorem bind_def (a : Act α) (f : α → Act β) : a >>= f = a.bind f := rfl

theorem assoc (a : Act α) (f : α → Act β) (g : β → Act γ) :
    (a >>= f) >>= g = a >>= fun x => f x >>= g := by
  show (a.bind f).bind g = a.bind fun x => (f x).bind g
  induction a with
  | done o => cases o <;> rfl
  | get l k ih => exact congrArg (get l) (funext ih)
  | put l v k ih => exact congrArg (put l v) ih

theorem val_done (o : Outcome α) (m : Statics) : (done o).val m = o := rfl

theorem val_lift (o : Outcome α) (f : α → Act β) (m : Statics) :
    (done o >>= f).val m = o >>= fun a => (f a).val m := by cases o <;> rfl

theorem val_read (l : Loc) (f : Nat → Act β) (m : Statics) : (readW l >>= f).val m = (f (m l)).val m := rfl

theorem val_write (l : Loc) (v : Nat) (f : Unit → Act β) (m : Statics) :
    (writeW l v >>= f).val m = (f ()).val (lset m l v) := rfl

theorem lift_ok (a : α) (f : α → Act β) : (done (ok a) >>= f) = f a := rfl

theorem loop_bind (a n : Nat) (body : Nat → α → Act α) (s : α) (f : α → Act β) :
    (loop a (n + 1) body s >>= f) = body a s >>= fun s => loop (a + 1) n body s >>= f := assoc _ _ _

end Act

/-- One array replaced. -/
def setArr (m : Statics) (fn : Fn) (a : Arr) (g : Nat → Nat) : Statics :=
  fun l => if l.fn = fn ∧ l.arr = a then g l.idx else m l

theorem setArr_get (m : Statics) (fn : Fn) (a : Arr) (g : Nat → Nat) (j : Nat) :
    setArr m fn a g ⟨fn, a, j⟩ = g j := if_pos ⟨rfl, rfl⟩

theorem setArr_self (m : Statics) (fn : Fn) (a : Arr) : setArr m fn a (fun j => m ⟨fn, a, j⟩) = m := by
  funext l
  unfold setArr
  split
  · rename_i h; obtain ⟨rfl, rfl⟩ := h; rfl
  · rfl

theorem lset_setArr (m : Statics) (fn : Fn) (a : Arr) (g : Nat → Nat) (j v : Nat) :
    lset (setArr m fn a g) ⟨fn, a, j⟩ v = setArr m fn a fun i => if i = j then v else g i := by
  funext l
  obtain ⟨fn', a', i⟩ := l
  unfold lset setArr
  by_cases h : fn' = fn ∧ a' = a
  · obtain ⟨rfl, rfl⟩ := h
    by_cases hi : i = j
    · subst hi; simp
    · simp [hi]
  · have : (⟨fn', a', i⟩ : Loc) ≠ ⟨fn, a, j⟩ := by
      intro e; injection e with e1 e2 e3; exact h ⟨e1, e2⟩
    simp [h, this]

theorem lset_arr (m : Statics) (fn : Fn) (a : Arr) (j v : Nat) :
    lset m ⟨fn, a, j⟩ v = setArr m fn a fun i => if i = j then v else m ⟨fn, a, i⟩ := by
  have h := lset_setArr m fn a (fun i => m ⟨fn, a, i⟩) j v
  rw [setArr_self] at h
  exact h

theorem setArr_setArr (m : Statics) (fn : Fn) (a : Arr) (g h : Nat → Nat) :
    setArr (setArr m fn a g) fn a h = setArr m fn a h := by
  funext l
  unfold setArr
  split <;> rfl

variable {β : Type}

theorem unrolled_loop {fn : Fn} {W : Nat} {C : Nat → Outcome Nat} (f : Unit → Act β) (m : Statics) :
    ∀ (n a : Nat) (v : Vec Nat), v.len = W → a + n < W →
    ((loop a n (fun j _ => do
      let prev ← readW ⟨fn, .counts, j⟩
      let c ← done (C j)
      writeW ⟨fn, .counts, j + 1⟩ (add64 prev c)) () >>= f).val (setArr m fn .counts v.f)) =
    forFrom a n (fun j counts => do
      let prev ← counts.get j
      let c ← C j
      counts.set (j + 1) (add64 prev c)) v >>= fun v => (f ()).val (setArr m fn .counts v.f) := by
  intro n
  induction n with
  | zero => intro a v _ _; rfl
  | succ n ih =>
    intro a v hv ha
    rw [loop_bind]
    rw [assoc, val_read, setArr_get, assoc, val_lift]
    show _ = (do
      let s ← (do
        let prev ← v.get a
        let c ← C a
        v.set (a + 1) (add64 prev c))
      forFrom (a + 1) n _ s) >>= _
    rw [Vec.get_ok (by omega), ok_bind]
    cases hC : C a with
    | ub e => rfl
    | abort => rfl
    | ok c =>
      rw [ok_bind, val_write, lset_setArr, ok_bind, Vec.set_ok _ (by omega), ok_bind]
      exact ih (a + 1) ⟨v.len, fun j => if j = a + 1 then add64 (v.f a) c else v.f j⟩ hv (by omega)

theorem unrolledA_val {fn : Fn} {W : Nat} (hW : 0 < W) (C : Nat → Outcome Nat) (f : Unit → Act β)
    (m : Statics) : (unrolledA fn W C >>= f).val m =
    unrolled W (fun j => m ⟨fn, .counts, j⟩) C >>= fun v => (f ()).val (setArr m fn .counts v.f) := by
  unfold unrolledA unrolled
  rw [assoc, val_write, lset_arr, Vec.set_ok _ hW, ok_bind]
  exact unrolled_loop f m (W - 1) 0 ⟨W, _⟩ rfl (by show 0 + (W - 1) < W; omega)

theorem readArr_val {fn : Fn} {a : Arr} {len i : Nat} (f : Nat → Act β) (m : Statics) :
    (readArr fn a len i >>= f).val m = (⟨len, fun j => m ⟨fn, a, j⟩⟩ : Vec Nat).get i >>= fun v => (f v).val m := by
  unfold readArr Vec.get
  show _ = (if i < len then _ else _) >>= _
  by_cases h : i < len
  · rw [if_pos h, if_pos h]; rfl
  · rw [if_neg h, if_neg h]; rfl

theorem storeLoop {fn : Fn} {ar : Arr} {off : Nat} {L : Lanes} (f : Unit → Act β) (m : Statics) :
    ∀ (n a : Nat) (g : Nat → Nat),
    (loop a n (fun j _ => writeW ⟨fn, ar, off + j⟩ (L j)) () >>= f).val (setArr m fn ar g) =
    (f ()).val (setArr m fn ar fun i => if off + a ≤ i ∧ i < off + a + n then L (i - off) else g i) := by
  intro n
  induction n with
  | zero =>
    intro a g
    have : (fun i => if off + a ≤ i ∧ i < off + a + 0 then L (i - off) else g i) = g := by
      funext i; rw [if_neg (by omega)]
    rw [this]; rfl
  | succ n ih =>
    intro a g
    rw [loop_bind, val_write, lset_setArr, ih]
    congr 2
    funext i
    by_cases h1 : off + a ≤ i ∧ i < off + a + (n + 1)
    · rw [if_pos h1]
      by_cases h2 : i = off + a
      · subst h2; rw [if_neg (by omega), if_pos rfl]; congr 1; omega
      · rw [if_pos (by omega)]
    · rw [if_neg h1, if_neg (by omega), if_neg (by omega)]

theorem storeArr_val {fn : Fn} {ar : Arr} {off W : Nat} {L : Lanes} (f : Unit → Act β) (m : Statics) :
    (storeArr fn ar off W L >>= f).val m =
    (f ()).val (setArr m fn ar fun i => if off ≤ i ∧ i < off + W then L (i - off) else m ⟨fn, ar, i⟩) := by
  have := storeLoop (fn := fn) (ar := ar) (off := off) (L := L) f m W 0 (fun j => m ⟨fn, ar, j⟩)
  rw [setArr_self] at this
  exact this

theorem loadLoop {fn : Fn} {ar : Arr} (f : Lanes → Act β) (m : Statics) :
    ∀ (n a : Nat) (L : Lanes),
    (loop a n (fun j (L : Lanes) => do
      let v ← readW ⟨fn, ar, j⟩
      done (ok fun l => if l = j then v else L l)) L >>= f).val m =
    (f fun l => if a ≤ l ∧ l < a + n then m ⟨fn, ar, l⟩ else L l).val m := by
  intro n
  induction n with
  | zero =>
    intro a L
    have : (fun l => if a ≤ l ∧ l < a + 0 then m ⟨fn, ar, l⟩ else L l) = L := by
      funext i; rw [if_neg (by omega)]
    rw [this]; rfl
  | succ n ih =>
    intro a L
    rw [loop_bind, assoc, val_read, lift_ok, ih]
    congr 2
    funext i
    by_cases h1 : a ≤ i ∧ i < a + (n + 1)
    · rw [if_pos h1]
      by_cases h2 : i = a
      · subst h2; rw [if_neg (by omega), if_pos rfl]
      · rw [if_pos (by omega)]
    · rw [if_neg h1, if_neg (by omega), if_neg (by omega)]

theorem loadArr_val {fn : Fn} {ar : Arr} {W : Nat} (f : Lanes → Act β) (m : Statics) :
    (loadArr fn ar W >>= f).val m = (f fun l => if l < W then m ⟨fn, ar, l⟩ else 0).val m := by
  unfold loadArr
  rw [loadLoop]
  congr 2
  funext l
  by_cases h : l < W
  · rw [if_pos h, if_pos (by omega)]
  · rw [if_neg h, if_neg (by omega)]

theorem countLoop {fn : Fn} {x : Ptr} (f : Unit → Act β) (m : Statics) (g : Nat → Nat) :
    ∀ (n a : Nat) (C : Lanes), (∀ l, a ≤ l → C l = 0) →
    (loop a n (fun j _ => do
      let w ← done (x.at j)
      writeW ⟨fn, .counts, j⟩ (popcnt w)) () >>= f).val
      (setArr m fn .counts fun l => if l < a then C l else g l) =
    forFrom a n (fun j (c : Lanes) => do
      let w ← x.at j
      ok (fun l => if l = j then popcnt w else c l)) C >>= fun C =>
      (f ()).val (setArr m fn .counts fun l => if l < a + n then C l else g l) := by
  intro n
  induction n with
  | zero => intro a C _; rfl
  | succ n ih =>
    intro a C hC
    rw [loop_bind, assoc, val_lift]
    show _ = (do
      let s ← (do
        let w ← x.at a
        ok (fun l => if l = a then popcnt w else C l))
      forFrom (a + 1) n _ s) >>= _
    cases hx : x.at a with
    | ub e => rfl
    | abort => rfl
    | ok w =>
      rw [ok_bind, val_write, lset_setArr, ok_bind, ok_bind]
      have e : (fun i => if i = a then popcnt w else if i < a then C i else g i) =
          fun l => if l < a + 1 then (fun l => if l = a then popcnt w else C l) l else g l := by
        funext i
        by_cases h : i = a
        · subst h; simp
        · simp only [h, if_false]
          by_cases h2 : i < a
          · rw [if_pos h2, if_pos (by omega)]
          · rw [if_neg h2, if_neg (by omega)]
      rw [e, ih (a + 1) (fun l => if l = a then popcnt w else C l)
        (fun l hl => by rw [if_neg (by omega)]; exact hC l (by omega)),
        show a + 1 + n = a + (n + 1) by omega]

theorem popcountArr_loop {x : Ptr} : ∀ (n a : Nat) (C D : Lanes), (∀ l, a ≤ l → C l = 0) →
    forFrom a n (fun j (c : Lanes) => do
      let w ← x.at j
      ok (fun l => if l = j then popcnt w else c l)) C = ok D → ∀ l, a + n ≤ l → D l = 0 := by
  intro n
  induction n with
  | zero => intro a C D hC e l hl; cases e; exact hC l hl
  | succ n ih =>
    intro a C D hC e l hl
    have e : (do
      let s ← (do
        let w ← x.at a
        ok (fun l => if l = a then popcnt w else C l))
      forFrom (a + 1) n _ s) = ok D := e
    cases hx : x.at a with
    | ub f => rw [hx] at e; cases e
    | abort => rw [hx] at e; cases e
    | ok w =>
      rw [hx, ok_bind, ok_bind] at e
      exact ih (a + 1) _ D (fun l hl => by rw [if_neg (by omega)]; exact hC l (by omega)) e l (by omega)

/-- Counting into the array and loading it again gives the lanes of `popcountArr`. -/
theorem countArr_val {fn : Fn} {W : Nat} {x : Ptr} (m : Statics)
    (o : Outcome Nat) (g : Lanes → Nat → Act β) :
    (countArr fn W x >>= fun _ => done o >>= fun r => loadArr fn .counts W >>= fun C => g C r).val m =
    popcountArr W x >>= fun C => o >>= fun r =>
      (g C r).val (setArr m fn .counts fun l => if l < W then C l else m ⟨fn, .counts, l⟩) := by
  have h := countLoop (fn := fn) (x := x) (fun _ => done o >>= fun r => loadArr fn .counts W >>= fun C => g C r) m
    (fun j => m ⟨fn, .counts, j⟩) W 0 (fun _ => 0) (fun _ _ => rfl)
  have e : setArr m fn .counts (fun l => if l < 0 then 0 else m ⟨fn, .counts, l⟩) = m := by
    have : (fun l => if l < 0 then 0 else m ⟨fn, .counts, l⟩) = fun l => m ⟨fn, .counts, l⟩ := by
      funext l; rw [if_neg (by omega)]
    rw [this]; exact setArr_self _ _ _
  rw [e] at h
  refine Eq.trans h ?_
  unfold popcountArr
  rw [bind_assoc']
  show forFrom 0 W _ _ >>= _ = forFrom 0 W _ _ >>= _
  cases hC : forFrom 0 W (fun j (c : Lanes) => do
      let w ← x.at j
      ok (fun l => if l = j then popcnt w else c l)) (fun _ => 0) with
  | ub f => rfl
  | abort => rfl
  | ok C =>
    rw [ok_bind, ok_bind, ok_bind, val_lift]
    cases o with
    | ub f => rfl
    | abort => rfl
    | ok r =>
      rw [ok_bind, ok_bind, loadArr_val, Nat.zero_add]
      have hz := popcountArr_loop W 0 _ C (fun _ _ => rfl) hC
      have e : (fun l => if l < W then
          setArr m fn .counts (fun l => if l < W then C l else m ⟨fn, .counts, l⟩) ⟨fn, .counts, l⟩ else 0) = C := by
        funext l
        by_cases h : l < W
        · rw [if_pos h, setArr_get, if_pos h]
        · rw [if_neg h, hz l (by omega)]
      rw [e]

/-! ## Functions -/

/-- What the arrays of one instance hold. -/
def scr (m : Statics) (fn : Fn) : Scratch := ⟨fun j => m ⟨fn, .counts, j⟩, fun j => m ⟨fn, .sums, j⟩⟩

theorem readBack {fn : Fn} {a : Arr} {len i : Nat} (f : Nat → Act β) (m : Statics) (g : Nat → Nat) :
    (readArr fn a len i >>= f).val (setArr m fn a g) =
      (⟨len, g⟩ : Vec Nat).get i >>= fun v => (f v).val (setArr m fn a g) := by
  rw [readArr_val]
  have : (fun j => setArr m fn a g ⟨fn, a, j⟩) = g := funext fun j => setArr_get _ _ _ _ _
  rw [this]

theorem unrolled_len {W : Nat} {g : Nat → Nat} {C : Nat → Outcome Nat} {v : Vec Nat}
    (h : unrolled W g C = ok v) : v.len = W := by
  have key : ∀ (n a : Nat) (u v : Vec Nat), u.len = W →
      forFrom a n (fun j counts => do
        let prev ← counts.get j
        let c ← C j
        counts.set (j + 1) (add64 prev c)) u = ok v → v.len = W := by
    intro n
    induction n with
    | zero => intro a u v hu e; cases e; exact hu
    | succ n ih =>
      intro a u v hu e
      have e : (do
        let s ← (do
          let prev ← u.get a
          let c ← C a
          u.set (a + 1) (add64 prev c))
        forFrom (a + 1) n _ s) = ok v := e
      cases h1 : u.get a with
      | ub f => rw [h1] at e; cases e
      | abort => rw [h1] at e; cases e
      | ok p =>
        rw [h1, ok_bind] at e
        cases h2 : C a with
        | ub f => rw [h2] at e; cases e
        | abort => rw [h2] at e; cases e
        | ok c =>
          rw [h2, ok_bind] at e
          by_cases hl : a + 1 < u.len
          · rw [Vec.set_ok _ hl, ok_bind] at e
            refine ih (a + 1) _ v ?_ e; exact hu
          · unfold Vec.set at e; rw [if_neg hl] at e; cases e
  unfold unrolled at h
  by_cases hW : 0 < W
  · rw [Vec.set_ok _ hW, ok_bind] at h
    exact key _ _ _ v rfl h
  · unfold Vec.set at h; rw [if_neg hW] at h; cases h

/-- The common end of the unrolled ranks. -/
theorem unrolled_end {fn : Fn} {W : Nat} (hW : 0 < W) (C : Nat → Outcome Nat) (i r : Nat) (m : Statics) :
    (do
      unrolledA fn W C
      let c ← readArr fn .counts W i
      done (ok (add64 c r))).val m =
    (do
      let counts ← unrolled W (scr m fn).counts C
      let c ← counts.get i
      ok (add64 c r)) := by
  rw [unrolledA_val hW]
  show unrolled W (fun j => m ⟨fn, .counts, j⟩) C >>= _ = _
  cases h : unrolled W (fun j => m ⟨fn, .counts, j⟩) C with
  | ub e => rw [show unrolled W (scr m fn).counts C = _ from h]; rfl
  | abort => rw [show unrolled W (scr m fn).counts C = _ from h]; rfl
  | ok v =>
    rw [show unrolled W (scr m fn).counts C = _ from h, ok_bind, ok_bind, readBack]
    have := unrolled_len h
    obtain ⟨len, f⟩ := v
    subst this
    rfl

theorem rankGenericA_val (b : Build) {fn : Fn} {W : Nat} (hW : 0 < W) (mode : Nat) (x : Ptr) (i : Nat)
    (m : Statics) : (rankGenericA b fn W mode x i).val m = rankGeneric b W mode (scr m fn) x i := by
  unfold rankGenericA rankGeneric
  rw [val_lift]
  refine bind_congr fun _ => ?_
  rw [val_lift]
  refine bind_congr fun r => ?_
  generalize exSecond mode = e
  match e with
  | 0 => exact val_lift _ _ _
  | 1 => exact unrolled_end hW _ _ _ _
  | n + 2 => exact val_lift _ _ _

theorem rankVecUnrolledA_val (b : Build) {fn : Fn} {W : Nat} (hW : 0 < W) (x : Ptr) (i : Nat)
    (m : Statics) : (rankVecUnrolledA b fn W x i).val m = rankVecUnrolled b W (scr m fn) x i := by
  unfold rankVecUnrolledA rankVecUnrolled
  rw [val_lift]
  refine bind_congr fun _ => ?_
  rw [val_lift]
  refine bind_congr fun r => ?_
  rw [val_lift]
  refine bind_congr fun C => ?_
  exact unrolled_end hW _ _ _ _

/-- Storing to `sums + 1` and reading back. -/
theorem store_end {fn : Fn} {W : Nat} (L : Lanes) (f : Nat → Act β) (i : Nat) (m : Statics) :
    (do
      storeArr fn .sums 1 W L
      let s ← readArr fn .sums (W + 1) i
      f s).val m =
    (storeSums W (scr m fn).sums L).get i >>= fun s => (f s).val
      (setArr m fn .sums fun i => if 1 ≤ i ∧ i < 1 + W then L (i - 1) else m ⟨fn, .sums, i⟩) := by
  rw [storeArr_val, readBack]
  congr 1
  unfold storeSums
  congr 1
  congr 1
  funext j
  show _ = if j = 0 then m ⟨fn, .sums, 0⟩ else if j ≤ W then L (j - 1) else m ⟨fn, .sums, j⟩
  by_cases h : j = 0
  · subst h; rw [if_neg (by omega), if_pos rfl]
  · rw [if_neg h]
    by_cases h2 : j ≤ W
    · rw [if_pos h2, if_pos (by omega)]
    · rw [if_neg h2, if_neg (by omega)]

theorem rankVecParallelA_val (b : Build) (fn : Fn) (W : Nat) (ps : Lanes → Lanes) (x : Ptr) (i : Nat)
    (m : Statics) : (rankVecParallelA b fn W ps x i).val m = rankVecParallel b W ps (scr m fn) x i := by
  unfold rankVecParallelA rankVecParallel
  rw [val_lift]
  refine bind_congr fun _ => ?_
  rw [val_lift]
  refine bind_congr fun r => ?_
  rw [val_lift]
  refine bind_congr fun C => ?_
  exact store_end _ _ _ _

theorem setArr_ne (m : Statics) (fn : Fn) {a a' : Arr} (h : a' ≠ a) (g : Nat → Nat) (j : Nat) :
    setArr m fn a g ⟨fn, a', j⟩ = m ⟨fn, a', j⟩ := if_neg fun h' => h h'.2

theorem scr_sums (m : Statics) (fn : Fn) (g : Nat → Nat) :
    (scr (setArr m fn .counts g) fn).sums = (scr m fn).sums :=
  funext fun _ => setArr_ne _ _ (fun h => by cases h) _ _

theorem rank512BuiltinParallelA_val (b : Build) (fn : Fn) (x : Ptr) (i : Nat)
    (m : Statics) : (rank512BuiltinParallelA b fn x i).val m = rank512BuiltinParallel b (scr m fn) x i := by
  unfold rank512BuiltinParallelA rank512BuiltinParallel
  rw [val_lift]
  refine bind_congr fun _ => ?_
  rw [countArr_val m (rankInBlock b 1 x i)]
  refine bind_congr fun C => ?_
  refine bind_congr fun r => ?_
  rw [store_end, scr_sums]
  rfl

theorem prefixsum256_congr {x y : Lanes} (h : ∀ j, j < 4 → x j = y j) :
    ∀ j, j < 4 → prefixsum256 x j = prefixsum256 y j := by
  intro j hj
  have h0 := h 0 (by omega)
  have h1 := h 1 (by omega)
  have h2 := h 2 (by omega)
  have h3 := h 3 (by omega)
  have : j = 0 ∨ j = 1 ∨ j = 2 ∨ j = 3 := by omega
  rcases this with rfl | rfl | rfl | rfl <;>
    simp [prefixsum256, addL, permutex, mmShuffle, h0, h1, h2, h3]

theorem rank256BuiltinParallelA_val (b : Build) (fn : Fn) (x : Ptr) (i : Nat)
    (m : Statics) : (rank256BuiltinParallelA b fn x i).val m = rank256BuiltinParallel b (scr m fn) x i := by
  unfold rank256BuiltinParallelA rank256BuiltinParallel
  rw [val_lift]
  refine bind_congr fun _ => ?_
  rw [val_write, lset_arr, Vec.set_ok _ (by show 0 < 4; omega), ok_bind, val_lift]
  refine bind_congr fun w0 => ?_
  rw [val_write, lset_setArr, Vec.set_ok _ (by show 1 < 4; omega), ok_bind, val_lift]
  refine bind_congr fun w1 => ?_
  rw [val_write, lset_setArr, Vec.set_ok _ (by show 2 < 4; omega), ok_bind, val_lift]
  refine bind_congr fun w2 => ?_
  rw [val_write, lset_setArr, Vec.set_ok _ (by show 3 < 4; omega), ok_bind, val_lift]
  refine bind_congr fun r => ?_
  rw [loadArr_val, storeArr_val, setArr_setArr, readBack]
  by_cases hi : i / 64 < 4
  · rw [Vec.get_ok (show i / 64 < 4 from hi), ok_bind, val_done]
    show _ = (⟨4, prefixsum256 _⟩ : Vec Nat).get (i / 64) >>= _
    rw [Vec.get_ok (show i / 64 < 4 from hi), ok_bind]
    show ok (add64 (if 0 ≤ i / 64 ∧ i / 64 < 0 + 4 then _ else _) r) = _
    rw [if_pos (by omega)]
    congr 2
    show prefixsum256 _ (i / 64 - 0) = prefixsum256 _ (i / 64)
    rw [Nat.sub_zero]
    refine prefixsum256_congr (fun j hj => ?_) _ hi
    rw [if_pos hj, setArr_get]
    rfl
  · unfold Vec.get
    show (if i / 64 < 4 then _ else _) >>= _ = (if i / 64 < 4 then _ else _) >>= _
    rw [if_neg hi, if_neg hi]; rfl

theorem rankU256A_val (b : Build) (mode : Nat) (x : Ptr) (i : Nat) (m : Statics) :
    (rankU256A b mode x i).val m = rankU256 b mode (scr m ⟨false, 4, mode⟩) x i := by
  unfold rankU256A rankU256
  split
  · rfl
  · split
    · exact rankVecUnrolledA_val b (by decide) x i m
    · split
      · exact rank256BuiltinParallelA_val b _ x i m
      · split
        · exact rankVecParallelA_val b _ 4 _ x i m
        · exact rankGenericA_val b (by decide) mode x i m

theorem rankU512A_val (b : Build) (mode : Nat) (x : Ptr) (i : Nat) (m : Statics) :
    (rankU512A b mode x i).val m = rankU512 b mode (scr m ⟨false, 8, mode⟩) x i := by
  unfold rankU512A rankU512
  split
  · exact rank512BuiltinParallelA_val b _ x i m
  · split
    · rfl
    · split
      · exact rankVecUnrolledA_val b (by decide) x i m
      · split
        · exact rankVecParallelA_val b _ 8 _ x i m
        · exact rankGenericA_val b (by decide) mode x i m

theorem selectTailA_val (b : Build) (fn : Fn) (W : Nat) (x : Ptr) (L : Lanes) (k : Nat) (m : Statics) :
    (selectTailA b fn W x L k).val m = selectTail b W (scr m fn) x L k := by
  unfold selectTailA selectTail
  rw [val_lift]
  refine bind_congr fun i => ?_
  rw [storeArr_val, val_lift]
  refine bind_congr fun w => ?_
  have h := store_end (fn := fn) (W := W) L (fun s => do
    let r ← done (selectU64 b 4 w (sub64 k s))
    done (ok (add64 (i * 64) r))) i m
  rw [storeArr_val] at h
  refine h.trans ?_
  refine bind_congr fun s => ?_
  exact val_lift _ _ _

theorem selectBuiltinVecA_val (b : Build) (fn : Fn) (W : Nat) (ps : Lanes → Lanes) (x : Ptr) (k : Nat)
    (m : Statics) : (selectBuiltinVecA b fn W ps x k).val m = selectBuiltinVec b W ps (scr m fn) x k := by
  unfold selectBuiltinVecA selectBuiltinVec
  have h := countArr_val (fn := fn) (W := W) (x := x) m (ok 0) (fun C _ => selectTailA b fn W x (ps C) k)
  refine Eq.trans h ?_
  refine bind_congr fun C => ?_
  rw [ok_bind, selectTailA_val]
  unfold selectTail
  rw [scr_sums]

theorem selectVecA_val (b : Build) (fn : Fn) (W : Nat) (ps : Lanes → Lanes) (x : Ptr) (k : Nat)
    (m : Statics) : (selectVecA b fn W ps x k).val m = selectVec b W ps (scr m fn) x k := by
  unfold selectVecA selectVec
  rw [val_lift]
  refine bind_congr fun C => ?_
  rw [selectTailA_val]

theorem selectU256A_val (b : Build) (mode : Nat) (x : Ptr) (k : Nat) (m : Statics) :
    (selectU256A b mode x k).val m = selectU256 b mode (scr m ⟨true, 4, mode⟩) x k := by
  unfold selectU256A selectU256
  split
  · exact selectBuiltinVecA_val b _ 4 _ x k m
  · split
    · exact selectVecA_val b _ 4 _ x k m
    · rfl

theorem selectU512A_val (b : Build) (mode : Nat) (x : Ptr) (k : Nat) (m : Statics) :
    (selectU512A b mode x k).val m = selectU512 b mode (scr m ⟨true, 8, mode⟩) x k := by
  unfold selectU512A selectU512
  split
  · exact selectBuiltinVecA_val b _ 8 _ x k m
  · split
    · exact selectVecA_val b _ 8 _ x k m
    · rfl

/-- The arrays of the instances a block type uses for rank, and for select. -/
def BlockType.fnOf (t : BlockType) (sel : Bool) : Fn :=
  ⟨sel, t.width.words, if sel then t.selectMode else t.rankMode⟩

theorem BlockType.rankA_val (b : Build) (t : BlockType) (x : Ptr) (i : Nat) (m : Statics) :
    (t.rankA b x i).val m = t.rank b (scr m (t.fnOf false)) x i := by
  obtain ⟨w, rm, sm⟩ := t
  cases w
  · rfl
  · exact rankU256A_val b rm x i m
  · exact rankU512A_val b rm x i m

theorem BlockType.selectA_val (b : Build) (t : BlockType) (x : Ptr) (k : Nat) (m : Statics) :
    (t.selectA b x k).val m = t.select b (scr m (t.fnOf true)) x k := by
  obtain ⟨w, rm, sm⟩ := t
  cases w
  · rfl
  · exact selectU256A_val b sm x k m
  · exact selectU512A_val b sm x k m

theorem val_bind_ret (a : Act Nat) (f : Nat → Nat) (m : Statics) :
    (a >>= fun r => done (ok (f r))).val m = a.val m >>= fun r => ok (f r) := by
  show ((a.bind _).solo m).1 = (a.solo m).1 >>= _
  induction a generalizing m with
  | done o => cases o <;> rfl
  | get l k ih => exact ih _ m
  | put l v k ih => exact ih _

/-- `rank` run alone is `rank` of `Model/Bitmap.lean`. -/
theorem bmRankA_val (c : Config) (bm : Bitmap) (i : Nat) (m : Statics) :
    (bmRankA c bm i).val m = bmRank c (scr m (c.blk.fnOf false)) bm i := by
  unfold bmRankA bmRank
  rw [val_lift]
  refine bind_congr fun _ => ?_
  rw [val_lift]
  refine bind_congr fun s => ?_
  rw [val_lift]
  refine bind_congr fun p => ?_
  rw [val_bind_ret, BlockType.rankA_val]

/-- `select` run alone is `select` of `Model/Bitmap.lean`. -/
theorem bmSelectA_val (c : Config) (bm : Bitmap) (k : Nat) (m : Statics) :
    (bmSelectA c bm k).val m = bmSelect c (scr m (c.blk.fnOf true)) bm k := by
  unfold bmSelectA bmSelect
  rw [val_lift]
  refine bind_congr fun _ => ?_
  rw [val_lift]
  refine bind_congr fun s => ?_
  rw [val_lift]
  refine bind_congr fun p => ?_
  rw [val_bind_ret, BlockType.selectA_val]

end MRS
