import Verif.Proofs.Mixed
import Verif.Props.Bitmap

/-!
# C30 and C45: copies and moves

Programs with any number of bitmap objects of one class.  `Track` (Model/Sharing.lean) is the knowledge a
user has: values, and who shares an index with whom.  Alignment is the subject of C32; here misaligned
accesses are tolerated.
-/

set_option autoImplicit false

namespace MRS.Props
open MRS Outcome Spec

/-- Knowledge after the program `cs`. -/
def after (c : Config) (cs : List Cmd) : Track := Track.init.steps c.blk.width.bits cs

/-- Every statement of the program is meaningful. -/
def Meaningful (c : Config) (cs : List Cmd) : Prop := Track.init.AllFit c cs

/-- Object `x` answers `size` and `access` like the list `B`. -/
structure HasBits (c : Config) (s : Store) (x : Nat) (B : List Bool) : Prop where
  size : s.sizeOf x = ok B.length
  access : ∀ i (h : i < B.length), c.accessOf s x i = ok B[i]

/-- Object `x` answers every query like the list `B`. -/
structure Answers (c : Config) (s : Store) (x : Nat) (B : List Bool) : Prop extends HasBits c s x B where
  rank : ∀ g : Scratch, g.sums 0 = 0 → ∀ i, i < B.length → c.rankOf g s x i = ok (Spec.rank B i)
  select : ∀ g : Scratch, g.sums 0 = 0 → ∀ k, k < ones B B.length → ¬ c.SelectBad B k →
    ∃ p, c.selectOf g s x k = ok p ∧ IsSelect B k p

/-- C30 as a user would want it: values are independent. -/
def C30_full : Prop :=
  ∀ (c : Config) (cs : List Cmd), c.b.strictAlign = false → Meaningful c cs →
    ∃ s, c.prog Store.init cs = ok s ∧
      ∀ x B, values c.blk.width.bits cs x = some B → Answers c s x B

/-- The value part of the knowledge. -/
def valsOf (T : Track) (x : Nat) : Option (List Bool) := (T.objs x).map (·.val)

theorem valsOf_put (T : Track) (x : Nat) (a : Option Know) :
    valsOf (T.put x a) = fset (valsOf T) x (a.map (·.val)) := by
  funext z
  unfold valsOf
  by_cases hz : z = x
  · subst hz
    rw [show (T.put z a).objs z = _ from fset_same _ _ _, fset_same]
  · rw [show (T.put x a).objs z = _ from fset_other _ _ hz, fset_other _ _ hz]

theorem valsOf_spoil (T : Track) (b : Nat) : valsOf (T.spoil b) = valsOf T := by
  funext z
  show ((T.objs z).map (Know.spoil b)).map _ = (T.objs z).map _
  cases T.objs z with
  | none => rfl
  | some a => exact congrArg some (Know.spoil_val _ _)

theorem valsOf_fresh (T : Track) : valsOf T.fresh = valsOf T := rfl

theorem fset_fset {α : Type} (f : Nat → α) (x : Nat) (a b : α) : fset (fset f x a) x b = fset f x b := by
  funext z
  by_cases hz : z = x
  · subst hz; rw [fset_same, fset_same]
  · rw [fset_other _ _ hz, fset_other _ _ hz, fset_other _ _ hz]

theorem fset_swap {α : Type} (f : Nat → α) {x y : Nat} (h : x ≠ y) (a b : α) :
    fset (fset f x a) y b = fset (fset f y b) x a := by
  funext z
  by_cases hz : z = x
  · subst hz; rw [fset_other _ _ h, fset_same, fset_same]
  · by_cases hy : z = y
    · subst hy; rw [fset_same, fset_other _ _ hz, fset_same]
    · rw [fset_other _ _ hy, fset_other _ _ hz, fset_other _ _ hz, fset_other _ _ hy]

theorem fset_self {α : Type} (f : Nat → α) {x : Nat} {a : α} (h : f x = a) : fset f x a = f := by
  funext z
  by_cases hz : z = x
  · subst hz; rw [fset_same, h]
  · rw [fset_other _ _ hz]

theorem valsOf_step {c : Config} {T : Track} {o : Cmd} (hf : T.Fits c o) (m : Nat) :
    valsOf (T.step m o) = valStep m (valsOf T) o := by
  have hv : ∀ {x a}, T.objs x = some a → valsOf T x = some a.val := fun h => by unfold valsOf; rw [h]; rfl
  cases o with
  | new x => exact (valsOf_put T x _)
  | del x =>
    obtain ⟨a, hx⟩ := Option.ne_none_iff_exists'.1 hf
    show valsOf (match T.objs x with | none => T | some a => _) = _
    rw [hx]
    show valsOf ((T.spoil a.owns).put x none) = _
    rw [valsOf_put, valsOf_spoil]; rfl
  | build x re ws =>
    obtain ⟨a, hx, _⟩ := hf
    show valsOf (match T.objs x with | none => T | some a => _) = fset _ _ _
    rw [hx, hv hx]
    refine (valsOf_put (T.spoil a.owns) x _).trans ?_
    rw [valsOf_spoil]; rfl
  | flip x i =>
    obtain ⟨a, hx, _⟩ := hf
    show valsOf (match T.objs x with | none => T | some a => _) = fset _ _ _
    rw [hx, hv hx]
    refine (valsOf_put (T.spoil a.uses) x _).trans ?_
    rw [valsOf_spoil]; rfl
  | copyNew x y addr =>
    obtain ⟨a, hy⟩ := Option.ne_none_iff_exists'.1 hf.2
    show valsOf (match T.objs y with | none => T | some a => _) = fset _ _ _
    rw [hy, hv hy]
    exact valsOf_put T x _
  | copyAsg x y re =>
    obtain ⟨p, hx⟩ := Option.ne_none_iff_exists'.1 hf.1
    obtain ⟨a, hy⟩ := Option.ne_none_iff_exists'.1 hf.2
    show valsOf (match T.objs x, T.objs y with | some p, some a => _ | _, _ => T) = fset _ _ _
    rw [hx, hy, hv hy]
    show valsOf (if x = y then T else _) = _
    split
    · rename_i h; subst h
      exact (fset_self _ (hv hy)).symm
    · refine (valsOf_put (T.spoil p.owns) x _).trans ?_
      rw [valsOf_spoil]
      exact congrArg (fset _ _) (congrArg some (Know.spoil_val _ _))
  | moveNew x y =>
    obtain ⟨a, hy⟩ := Option.ne_none_iff_exists'.1 hf.2
    have hxy : x ≠ y := by rintro rfl; exact hf.2 hf.1
    show valsOf (match T.objs y with | none => T | some a => _) = fset (fset _ _ _) _ _
    rw [hy, hv hy, fset_swap _ hxy]
    refine (valsOf_put (T.put y _) x _).trans ?_
    rw [valsOf_put]; rfl
  | moveAsg x y =>
    obtain ⟨p, hx⟩ := Option.ne_none_iff_exists'.1 hf.1
    obtain ⟨a, hy⟩ := Option.ne_none_iff_exists'.1 hf.2
    show valsOf (match T.objs x, T.objs y with | some p, some a => _ | _, _ => T) = fset (fset _ _ _) _ _
    rw [hx, hy, hv hy]
    show valsOf (if x = y then _ else _) = _
    split
    · rename_i h; subst h
      rw [fset_fset]
      refine (valsOf_put (T.spoil p.owns) x _).trans ?_
      rw [valsOf_spoil]; rfl
    · rename_i h
      rw [fset_swap _ h]
      refine (valsOf_put ((T.spoil p.owns).put y _) x _).trans ?_
      rw [valsOf_put, valsOf_spoil]
      exact congrArg (fset _ _) (congrArg some (Know.spoil_val _ _))

theorem valsOf_steps {c : Config} {m : Nat} (hm : m = c.blk.width.bits) (cs : List Cmd) :
    ∀ {T : Track}, T.AllFit c cs → valsOf (T.steps m cs) = cs.foldl (valStep m) (valsOf T) := by
  subst hm
  induction cs with
  | nil => intro T _; rfl
  | cons o os ih =>
    intro T hf
    show valsOf ((T.step _ o).steps _ os) = os.foldl _ (valStep _ (valsOf T) o)
    rw [ih hf.2, valsOf_step hf.1]

/-- The values the tracker carries along are the plain values. -/
theorem after_values {c : Config} {cs : List Cmd} (hf : Meaningful c cs) (x : Nat) :
    ((after c cs).objs x).map (·.val) = values c.blk.width.bits cs x :=
  congrFun (valsOf_steps rfl cs hf) x

theorem size_of_len {c : Config} {o : Obj} {a : Know} {h : Nat → Mem} (ho : ObjRel c h o a)
    (hb : a.val.length < 2 ^ 63) (t : Tree) : bmSize ⟨t, o.bits⟩ = a.val.length := by
  unfold bmSize
  have := ho.len
  have hw : W64 = 2 ^ 64 := rfl
  rw [mul64_eq (show o.bits.len * 8 < W64 by omega), mul64_eq (by omega)]
  omega

/-- Values never get too long to be counted. -/
def Small (T : Track) : Prop := ∀ x a, T.objs x = some a → a.val.length ≤ 2 ^ 24 * 512

theorem small_put {T : Track} (h : Small T) {x : Nat} {a : Know} (ha : a.val.length ≤ 2 ^ 24 * 512) :
    Small (T.put x (some a)) := by
  intro z b hb
  by_cases hz : z = x
  · subst hz
    rw [show (T.put z (some a)).objs z = _ from fset_same _ _ _] at hb
    cases hb; exact ha
  · rw [show (T.put x (some a)).objs z = _ from fset_other _ _ hz] at hb
    exact h z b hb

theorem small_spoil {T : Track} (h : Small T) (b : Nat) : Small (T.spoil b) := by
  intro z a ha
  obtain ⟨a', h1, rfl⟩ := Option.map_eq_some_iff.1 ha
  rw [Know.spoil_val]; exact h z a' h1

theorem small_step {c : Config} {T : Track} (h : Small T) {o : Cmd} (hf : T.Fits c o) :
    Small (T.step c.blk.width.bits o) := by
  cases o with
  | new x => exact small_put (T := T) h (Nat.zero_le _)
  | del x =>
    obtain ⟨a, hx⟩ := Option.ne_none_iff_exists'.1 hf
    show Small (match T.objs x with | none => T | some a => _)
    rw [hx]
    intro z b hb
    by_cases hz : z = x
    · subst hz
      rw [show ((T.spoil a.owns).put z none).objs z = _ from fset_same _ _ _] at hb
      cases hb
    · rw [show ((T.spoil a.owns).put x none).objs z = _ from fset_other _ _ hz] at hb
      exact small_spoil h _ z b hb
  | build x re ws =>
    obtain ⟨a, hx, hv, _⟩ := hf
    show Small (match T.objs x with | none => T | some a => _)
    rw [hx]
    refine small_put (T := T.spoil a.owns) (small_spoil h _) ?_
    show (rebuilt c.blk.width.bits a.val ws).length ≤ _
    rw [rebuilt_length (Width.bits_pos _), Width.bits_eq, ceilDiv_scale _ _ (Width.words_pos _)]
    have h1 := hv.blocks
    have h2 := Width.words_le c.blk.width
    have := Nat.mul_le_mul h2 h1
    rw [Nat.mul_assoc]
    omega
  | flip x i =>
    obtain ⟨a, hx, _⟩ := hf
    show Small (match T.objs x with | none => T | some a => _)
    rw [hx]
    refine small_put (T := T.spoil a.uses) (small_spoil h _) ?_
    show (Spec.flip a.val i).length ≤ _
    rw [flip_length]; exact h x a hx
  | copyNew x y addr =>
    obtain ⟨a, hy⟩ := Option.ne_none_iff_exists'.1 hf.2
    show Small (match T.objs y with | none => T | some a => _)
    rw [hy]
    exact small_put (T := T) h (h y a hy)
  | copyAsg x y re =>
    obtain ⟨p, hx⟩ := Option.ne_none_iff_exists'.1 hf.1
    obtain ⟨a, hy⟩ := Option.ne_none_iff_exists'.1 hf.2
    show Small (match T.objs x, T.objs y with | some p, some a => _ | _, _ => T)
    rw [hx, hy]
    show Small (if x = y then T else _)
    split
    · exact h
    · refine small_put (T := T.spoil p.owns) (small_spoil h _) ?_
      show (a.spoil p.owns).val.length ≤ _
      rw [Know.spoil_val]; exact h y a hy
  | moveNew x y =>
    obtain ⟨a, hy⟩ := Option.ne_none_iff_exists'.1 hf.2
    show Small (match T.objs y with | none => T | some a => _)
    rw [hy]
    exact small_put (T := T.put y _) (small_put h (Nat.zero_le _)) (h y a hy)
  | moveAsg x y =>
    obtain ⟨p, hx⟩ := Option.ne_none_iff_exists'.1 hf.1
    obtain ⟨a, hy⟩ := Option.ne_none_iff_exists'.1 hf.2
    show Small (match T.objs x, T.objs y with | some p, some a => _ | _, _ => T)
    rw [hx, hy]
    show Small (if x = y then _ else _)
    split
    · exact small_put (T := T.spoil p.owns) (small_spoil h _) (Nat.zero_le _)
    · refine small_put (T := (T.spoil p.owns).put y _) (small_put (small_spoil h _) (Nat.zero_le _)) ?_
      rw [Know.spoil_val]; exact h y a hy

theorem small_steps {c : Config} (cs : List Cmd) : ∀ {T : Track}, Small T → T.AllFit c cs →
    Small (T.steps c.blk.width.bits cs) := by
  induction cs with
  | nil => intro T h _; exact h
  | cons o os ih => intro T h hf; exact ih (small_step h hf.1) hf.2

theorem small_after {c : Config} {cs : List Cmd} (h : Meaningful c cs) : Small (after c cs) :=
  small_steps cs (fun _ _ h => by cases h) h

/-- Meaning of the knowledge, in terms of queries. -/
theorem answers_of_rel {c : Config} {s : Store} {T : Track} (r : StoreRel c s T) (hsm : Small T) {x : Nat}
    {a : Know} (hx : T.objs x = some a) :
    HasBits c s x a.val ∧ (a.good = true → Answers c s x a.val) := by
  obtain ⟨o, eo, ho⟩ := r.get hx
  have hb : HasBits c s x a.val := by
    have hsz := size_of_len ho (Nat.lt_of_le_of_lt (hsm x a hx) (by decide)) (s.view o).index
    refine ⟨?_, fun i hi => ?_⟩
    · unfold Store.sizeOf
      rw [eo, ok_bind]
      exact congrArg ok hsz
    · unfold Config.accessOf
      rw [eo, ok_bind]
      unfold bmAccess
      rw [show bmSize (s.view o) = a.val.length from hsz, massert_ok (decide_eq_true hi), ok_bind]
      have hl := ho.len
      rw [show (s.view o).bits = o.bits from rfl, Vec.get_ok (by omega), ok_bind]
      have := ho.rep.bit i hi
      rw [List.getElem?_eq_getElem hi] at this
      exact congrArg ok (by injection this with h; exact h.symm)
  refine ⟨hb, fun hg => ⟨hb, fun g h0 i hi => ?_, fun g h0 k hk hbad => ?_⟩⟩
  · unfold Config.rankOf
    rw [eo, ok_bind]
    exact (ho.good hg).rank h0 hi
  · unfold Config.selectOf
    rw [eo, ok_bind]
    exact (ho.good hg).select_sharp h0 hbad hk

/-- C30, what holds: a program whose flips go through objects that may rely on their index runs without
undefined behaviour; afterwards every object has its bits, and every object that may rely on its index answers
every query correctly.  In particular a copy is good until somebody flips a bit through another user of the
index, or rebuilds, assigns to or destroys its owner; and `build` makes it independent.  Missing: the objects
whose index was spoilt. -/
theorem C30_partial {c : Config} {cs : List Cmd} (hs : c.b.strictAlign = false) (hf : Meaningful c cs)
    (hg : Track.init.AllSafe c.blk.width.bits cs) :
    ∃ s, c.prog Store.init cs = ok s ∧ ∀ x B, values c.blk.width.bits cs x = some B →
      HasBits c s x B ∧ ((after c cs).Good x → Answers c s x B) := by
  obtain ⟨s, e, r⟩ := StoreRel.prog hs cs (StoreRel.init c) hf hg
  refine ⟨s, e, fun x B hB => ?_⟩
  rw [← after_values hf] at hB
  obtain ⟨a, hx, rfl⟩ := Option.map_eq_some_iff.1 hB
  have h := answers_of_rel r (small_after hf) hx
  refine ⟨h.1, fun ⟨a', hx', hg⟩ => h.2 ?_⟩
  rw [hx] at hx'; cases hx'; exact hg

/-! ## Copies that go wrong -/

theorem prog_append {c : Config} (cs ds : List Cmd) : ∀ {s s' : Store}, c.prog s cs = ok s' →
    c.prog s (cs ++ ds) = c.prog s' ds := by
  induction cs with
  | nil => intro s s' e; cases e; rfl
  | cons o os ih =>
    intro s s' e
    have e : (c.cmd s o >>= fun s => c.prog s os) = ok s' := e
    show (c.cmd s o >>= fun s => c.prog s (os ++ ds)) = _
    cases h : c.cmd s o with
    | ok s1 => rw [h, ok_bind] at e; rw [ok_bind]; exact ih e
    | ub f => rw [h] at e; cases e
    | abort => rw [h] at e; cases e

theorem ones_flip_after {B : List Bool} {i k : Nat} (hi : i < k) (hk : k ≤ B.length) :
    ones (Spec.flip B i) k + (if B[i]'(by omega) then 1 else 0) = ones B k + if B[i]'(by omega) then 0 else 1 := by
  have e : (Spec.flip B i).take k = Spec.flip (B.take k) i := by
    apply List.ext_getElem?
    intro t
    unfold Spec.flip
    by_cases ht : t < k
    · rw [List.getElem?_take_of_lt ht, List.getElem?_modify, List.getElem?_modify,
        List.getElem?_take_of_lt ht]
    · rw [List.getElem?_take_eq_none (by omega), List.getElem?_modify, List.getElem?_take_eq_none (by omega)]
      rfl
  have h := flip_ones (B := B.take k) (i := i) (by rw [List.length_take]; omega)
  rw [List.getElem_take] at h
  unfold ones
  rw [e]
  exact h

/-- C30 fails for every bitmap and every history: copy a good object and flip a bit through the original or
through the copy; the bits of the other one stay, but its `rank` is off by one at every position behind the
block of the flipped bit. -/
theorem C30_wrong {c : Config} {cs : List Cmd} (hs : c.b.strictAlign = false) (hf : Meaningful c cs)
    (hg : Track.init.AllSafe c.blk.width.bits cs) {x y : Nat} {a : Know} (hx : (after c cs).objs x = some a)
    (hgood : a.good = true) (hy : (after c cs).objs y = none) (addr : Nat) {z w : Nat}
    (hzw : z = x ∧ w = y ∨ z = y ∧ w = x) {i j : Nat} (hi : i < a.val.length) (hj : j < a.val.length)
    (hij : i / c.blk.width.bits < j / c.blk.width.bits) {g : Scratch} (h0 : g.sums 0 = 0) :
    ∃ s r, c.prog Store.init (cs ++ [.copyNew y x addr, .flip z i]) = ok s ∧ HasBits c s w a.val ∧
      c.rankOf g s w j = ok r ∧ (a.val[i] = false → r = Spec.rank a.val j + 1) ∧
      (a.val[i] = true → r + 1 = Spec.rank a.val j) := by
  obtain ⟨s, e, r⟩ := StoreRel.prog hs cs (StoreRel.init c) hf hg
  have r : StoreRel c s (after c cs) := r
  have hsm := small_after hf
  have hxy : x ≠ y := by rintro rfl; rw [hx] at hy; cases hy
  obtain ⟨o, eo, ho⟩ := r.get hx
  have e1 := cmd_copyNew (c := c) (x := y) (addr := addr) eo
  have f1 : (after c cs).Fits c (.copyNew y x addr) := ⟨hy, by rw [hx]; exact fun h => by cases h⟩
  obtain ⟨s1, e1', r1⟩ := r.cmd hs f1 trivial
  rw [e1] at e1'; injection e1' with e1'; subst e1'
  have hsm1 := small_step hsm f1
  have T1 : (after c cs).step c.blk.width.bits (.copyNew y x addr) =
      ((after c cs).put y (some { a with owns := (after c cs).next })).fresh := by
    show (match (after c cs).objs x with | none => _ | some a => _) = _
    rw [hx]
  rw [T1] at r1 hsm1
  -- the two objects after the copy
  obtain ⟨az, hz, hzg, hzv⟩ : ∃ az, (((after c cs).put y (some { a with owns := (after c cs).next })).fresh).objs z
      = some az ∧ az.good = true ∧ az.val = a.val := by
    rcases hzw with ⟨rfl, rfl⟩ | ⟨rfl, rfl⟩
    · exact ⟨a, (fset_other _ _ hxy).trans hx, hgood, rfl⟩
    · exact ⟨_, fset_same _ _ _, hgood, rfl⟩
  obtain ⟨aw, hw, hwv, hwu, hzu⟩ : ∃ aw, (((after c cs).put y (some { a with owns := (after c cs).next })).fresh).objs w
      = some aw ∧ aw.val = a.val ∧ aw.uses = a.uses ∧ az.uses = a.uses := by
    rcases hzw with ⟨rfl, rfl⟩ | ⟨rfl, rfl⟩
    · refine ⟨_, fset_same _ _ _, rfl, rfl, ?_⟩
      rw [show (((after c cs).put w (some { a with owns := (after c cs).next })).fresh).objs z = _ from
        (fset_other _ _ hxy).trans hx] at hz
      cases hz; rfl
    · refine ⟨a, (fset_other _ _ hxy).trans hx, rfl, rfl, ?_⟩
      rw [show (((after c cs).put z (some { a with owns := (after c cs).next })).fresh).objs z = _ from
        fset_same _ _ _] at hz
      cases hz; rfl
  have hwz : w ≠ z := by rcases hzw with ⟨rfl, rfl⟩ | ⟨rfl, rfl⟩; exact hxy.symm; exact hxy
  obtain ⟨oz, ez, rz⟩ := r1.get hz
  obtain ⟨ow, ew, rw'⟩ := r1.get hw
  have same : oz.size = ow.size ∧ oz.num = ow.num ∧ oz.ptr = ow.ptr ∧ oz.tgt = ow.tgt ∧ oz.bits = ow.bits := by
    have ex : (fset s.objs y (some { o with own := s.next })) x = some o := by
      rw [fset_other _ _ hxy]
      unfold Store.obj at eo
      cases h : s.objs x with
      | none => rw [h] at eo; cases eo
      | some o' => rw [h] at eo; injection eo with eo; rw [eo]
    have ey : (fset s.objs y (some { o with own := s.next })) y = some { o with own := s.next } := fset_same _ _ _
    unfold Store.obj at ez ew
    rcases hzw with ⟨rfl, rfl⟩ | ⟨rfl, rfl⟩
    · simp only [ex] at ez
      simp only [ey] at ew
      injection ez with ez; injection ew with ew
      subst ez; subst ew
      exact ⟨rfl, rfl, rfl, rfl, rfl⟩
    · simp only [ey] at ez
      simp only [ex] at ew
      injection ez with ez; injection ew with ew
      subst ez; subst ew
      exact ⟨rfl, rfl, rfl, rfl, rfl⟩
  -- the flip
  have az' := rz.good hzg
  rw [hzv] at az'
  obtain ⟨bm', ef, _⟩ := az'.flip hi
  have e2 := cmd_flip (c := c) ez ef
  have f2 : (((after c cs).put y (some { a with owns := (after c cs).next })).fresh).Fits c (.flip z i) :=
    ⟨az, hz, by rw [hzv]; exact hi⟩
  obtain ⟨s2, e2', r2⟩ := r1.cmd hs f2 ⟨az, hz, hzg⟩
  rw [e2] at e2'; injection e2' with e2'; subst e2'
  have hsm2 := small_step hsm1 f2
  have hw2 : ((((after c cs).put y (some { a with owns := (after c cs).next })).fresh).step c.blk.width.bits
      (.flip z i)).objs w = some (aw.spoil az.uses) := by
    show (match (((after c cs).put y (some { a with owns := (after c cs).next })).fresh).objs z with
      | none => _ | some a => _ : Track).objs w = _
    rw [hz]
    exact (fset_other _ _ hwz).trans (Track.spoil_get hw)
  have hb := (answers_of_rel r2 hsm2 hw2).1
  rw [Know.spoil_val, hwv] at hb
  obtain ⟨k, ek, hk⟩ := rank_stale az' hi ef h0 hj
  refine ⟨_, k, ?_, hb, ?_, ?_⟩
  · rw [prog_append cs _ e]
    simp only [Config.prog, e1, e2, ok_bind]
  · unfold Config.rankOf Store.obj
    have : fset (fset s.objs y (some { o with own := s.next })) z
        (some ⟨bm'.index.size, bm'.index.num, bm'.index.ptr, oz.tgt, oz.own, bm'.bits⟩) w = some ow := by
      rw [fset_other _ _ hwz]
      unfold Store.obj at ew
      cases h : fset s.objs y (some { o with own := s.next }) w with
      | none => simp only [h] at ew; cases ew
      | some o' => simp only [h] at ew; injection ew with ew; rw [ew]
    simp only [this, ok_bind]
    unfold Store.view
    simp only
    obtain ⟨s1, s2, s3, s4, s5⟩ := same
    rw [← s1, ← s2, ← s3, ← s4, ← s5, fset_same]
    exact ek
  · have h1 := ones_flip_after (B := a.val) (i := i)
      (k := c.blk.width.bits * (j / c.blk.width.bits))
      (by
        have h1 := Nat.div_add_mod i c.blk.width.bits
        have h2 := Nat.mod_lt i (Width.bits_pos c.blk.width)
        have h3 : c.blk.width.bits * (i / c.blk.width.bits + 1) ≤
          c.blk.width.bits * (j / c.blk.width.bits) := Nat.mul_le_mul_left _ hij
        rw [Nat.mul_succ] at h3
        omega)
      (Nat.le_trans (Nat.mul_div_le _ _) (Nat.le_of_lt hj))
    constructor
    · intro hv
      rw [hv] at h1
      simp only [Bool.false_eq_true, if_false] at h1
      omega
    · intro hv
      rw [hv] at h1
      simp only [if_true] at h1
      omega

/-- The copy dies with the original: after the owner of the index is destroyed, `rank` of the copy at a
position behind the first block never returns (it reads freed memory). -/
theorem C30_dangling {c : Config} {cs : List Cmd} (hs : c.b.strictAlign = false) (hf : Meaningful c cs)
    (hg : Track.init.AllSafe c.blk.width.bits cs) {x y : Nat} {a : Know} (hx : (after c cs).objs x = some a)
    (ho : a.uses = a.owns) (hy : (after c cs).objs y = none) (addr : Nat) {j : Nat}
    (hj : c.blk.width.bits ≤ j) (g : Scratch) :
    ∃ s, c.prog Store.init (cs ++ [.copyNew y x addr, .del x]) = ok s ∧ HasBits c s y a.val ∧
      ∀ r, c.rankOf g s y j ≠ ok r := by
  obtain ⟨s, e, r⟩ := StoreRel.prog hs cs (StoreRel.init c) hf hg
  have r : StoreRel c s (after c cs) := r
  have hxy : x ≠ y := by rintro rfl; rw [hx] at hy; cases hy
  obtain ⟨o, eo, ho'⟩ := r.get hx
  have e1 := cmd_copyNew (c := c) (x := y) (addr := addr) eo
  have f1 : (after c cs).Fits c (.copyNew y x addr) := ⟨hy, by rw [hx]; exact fun h => by cases h⟩
  obtain ⟨s1, e1', r1⟩ := r.cmd hs f1 trivial
  rw [e1] at e1'; injection e1' with e1'; subst e1'
  have hsm1 := small_step (small_after hf) f1
  have T1 : (after c cs).step c.blk.width.bits (.copyNew y x addr) =
      ((after c cs).put y (some { a with owns := (after c cs).next })).fresh := by
    show (match (after c cs).objs x with | none => _ | some a => _) = _
    rw [hx]
  rw [T1] at r1 hsm1
  have hx1 : (((after c cs).put y (some { a with owns := (after c cs).next })).fresh).objs x = some a :=
    (fset_other _ _ hxy).trans hx
  have hy1 : (((after c cs).put y (some { a with owns := (after c cs).next })).fresh).objs y =
    some { a with owns := (after c cs).next } := fset_same _ _ _
  have ex : (fset s.objs y (some { o with own := s.next })) x = some o := by
    rw [fset_other _ _ hxy]
    unfold Store.obj at eo
    cases h : s.objs x with
    | none => rw [h] at eo; cases eo
    | some o' => rw [h] at eo; injection eo with eo; rw [eo]
  have ex1 : Store.obj ⟨fset s.objs y (some { o with own := s.next }),
      fset s.heap s.next ((s.heap o.own).copyTo addr), s.next + 1⟩ x = ok o := by
    unfold Store.obj; simp only [ex]
  have e2 := cmd_del (c := c) ex1
  have f2 : (((after c cs).put y (some { a with owns := (after c cs).next })).fresh).Fits c (.del x) := by
    show _ ≠ none
    rw [hx1]; exact fun h => by cases h
  obtain ⟨s2, e2', r2⟩ := r1.cmd hs f2 trivial
  rw [e2] at e2'; injection e2' with e2'; subst e2'
  have hsm2 := small_step hsm1 f2
  have hy2 : ((((after c cs).put y (some { a with owns := (after c cs).next })).fresh).step c.blk.width.bits
      (.del x)).objs y = some (Know.spoil a.owns { a with owns := (after c cs).next }) := by
    show (match (((after c cs).put y (some { a with owns := (after c cs).next })).fresh).objs x with
      | none => _ | some a => _ : Track).objs y = _
    rw [hx1]
    exact (fset_other _ _ hxy.symm).trans (Track.spoil_get hy1)
  have hb := (answers_of_rel r2 hsm2 hy2).1
  rw [Know.spoil_val] at hb
  refine ⟨_, ?_, hb, ?_⟩
  · rw [prog_append cs _ e]
    simp only [Config.prog, e1, e2, ok_bind]
  · unfold Config.rankOf Store.obj
    have ey : fset (fset s.objs y (some { o with own := s.next })) x none y = some { o with own := s.next } := by
      rw [fset_other _ _ hxy.symm, fset_same]
    simp only [ey, ok_bind]
    refine bmRank_gone ?_ hj
    show (fset _ o.own Mem.nothing o.tgt).size = 0
    rw [show o.tgt = o.own by rw [ho'.tgt, ho'.own, ho], fset_same]
    rfl

/-- `mutable_bitmap<avx2::segment_tree<1>, block256_type_a>`, release build. -/
def cpCfg : Config := ⟨⟨true, true, true, false⟩, .avx2, 1, block256A⟩

/-- One object, holding two blocks: bit 0 of every word. -/
def cpProg : List Cmd := [.new 0, .build 0 (some 16) (List.replicate 8 1#64)]

theorem cpProg_ok : Meaningful cpCfg cpProg ∧ Track.init.AllSafe cpCfg.blk.width.bits cpProg := by
  refine ⟨⟨rfl, ⟨_, rfl, ⟨by decide, by decide, by decide, by decide, by decide⟩, Or.inl rfl⟩, trivial⟩, ?_⟩
  exact ⟨trivial, trivial, trivial⟩

theorem cpProg_know : ∃ a, (after cpCfg cpProg).objs 0 = some a ∧ (after cpCfg cpProg).objs 1 = none ∧
    a.good = true ∧ a.uses = a.owns ∧ a.val = bitsOf (List.replicate 8 1#64) :=
  ⟨⟨rebuilt 256 [] (List.replicate 8 1#64), true, 1, 1⟩, rfl, rfl, rfl, rfl, by
    rw [rebuilt_nil]
    decide +kernel⟩

theorem put_same (T : Track) (x : Nat) (a : Option Know) : (T.put x a).objs x = a := fset_same _ _ _
theorem put_other (T : Track) {x y : Nat} (a : Option Know) (h : y ≠ x) : (T.put x a).objs y = T.objs y :=
  fset_other _ _ h
theorem fresh_get (T : Track) (x : Nat) : T.fresh.objs x = T.objs x := rfl

theorem step_copyNew {T : Track} {m x y addr : Nat} {a : Know} (h : T.objs y = some a) :
    T.step m (.copyNew x y addr) = (T.put x (some { a with owns := T.next })).fresh := by
  unfold Track.step; simp only [h]

theorem step_flip {T : Track} {m x i : Nat} {a : Know} (h : T.objs x = some a) :
    T.step m (.flip x i) = (T.spoil a.uses).put x (some { a with val := Spec.flip a.val i }) := by
  unfold Track.step; simp only [h]

theorem C30_false : ¬ C30_full := by
  intro h
  obtain ⟨a, h0, h1, hg, _, hv⟩ := cpProg_know
  have hl : a.val.length = 512 := by rw [hv, bitsOf_length]; rfl
  obtain ⟨s, r, e, _, er, h3, h4⟩ := C30_wrong (c := cpCfg) rfl cpProg_ok.1 cpProg_ok.2 h0 hg h1 16
    (z := 0) (w := 1) (Or.inl ⟨rfl, rfl⟩) (i := 0) (j := 300) (by omega) (by omega) (by decide)
    (g := Scratch.init) rfl
  have h2 : (after cpCfg cpProg).step cpCfg.blk.width.bits (.copyNew 1 0 16) =
      ((after cpCfg cpProg).put 1 (some { a with owns := (after cpCfg cpProg).next })).fresh := step_copyNew h0
  have h5 : (((after cpCfg cpProg).put 1 (some { a with owns := (after cpCfg cpProg).next })).fresh).objs 0 =
      some a := by
    rw [fresh_get, put_other _ _ (by decide)]; exact h0
  have hm : Meaningful cpCfg (cpProg ++ [.copyNew 1 0 16, .flip 0 0]) := by
    refine ⟨cpProg_ok.1.1, cpProg_ok.1.2.1, ⟨h1, ?_⟩, ⟨a, ?_, by omega⟩, trivial⟩
    · show (after cpCfg cpProg).objs 0 ≠ none
      rw [h0]; exact fun h => by cases h
    · show ((after cpCfg cpProg).step cpCfg.blk.width.bits (.copyNew 1 0 16)).objs 0 = _
      rw [h2]
      exact h5
  obtain ⟨s', e', hall⟩ := h cpCfg _ rfl hm
  have hs : s = s' := by rw [e] at e'; injection e'
  subst hs
  have hk : (after cpCfg (cpProg ++ [.copyNew 1 0 16, .flip 0 0])).objs 1 =
      some (Know.spoil a.uses { a with owns := (after cpCfg cpProg).next }) := by
    show (((after cpCfg cpProg).step cpCfg.blk.width.bits (.copyNew 1 0 16)).step cpCfg.blk.width.bits
      (.flip 0 0)).objs 1 = _
    rw [h2]
    rw [step_flip h5]
    rw [put_other _ _ (by decide)]
    exact Track.spoil_get (by rw [fresh_get, put_same])
  have ha := (hall 1 a.val (by
    rw [← after_values hm, hk]; exact congrArg some (Know.spoil_val _ _))).rank Scratch.init rfl 300 (by omega)
  rw [er] at ha
  have ha : r = Spec.rank a.val 300 := by injection ha
  cases hb : a.val[0]'(by omega) with
  | false => have := h3 hb; omega
  | true => have := h4 hb; omega

/-- The hypotheses of `C30_wrong` and `C30_dangling` are met: a copy of that object, and positions in
different blocks. -/
example : ∃ s r, cpCfg.prog Store.init (cpProg ++ [.copyNew 1 0 16, .flip 1 5]) = ok s ∧
    cpCfg.rankOf Scratch.init s 0 300 = ok r ∧ r ≠ Spec.rank (bitsOf (List.replicate 8 1#64)) 300 := by
  obtain ⟨a, h0, h1, hg, _, hv⟩ := cpProg_know
  have hl : a.val.length = 512 := by rw [hv, bitsOf_length]; rfl
  obtain ⟨s, r, e, _, er, h3, h4⟩ := C30_wrong (c := cpCfg) rfl cpProg_ok.1 cpProg_ok.2 h0 hg h1 16
    (z := 1) (w := 0) (Or.inr ⟨rfl, rfl⟩) (i := 5) (j := 300) (by omega) (by omega) (by decide)
    (g := Scratch.init) rfl
  refine ⟨s, r, e, er, ?_⟩
  rw [← hv]
  cases hb : a.val[5]'(by omega) with
  | false => have := h3 hb; omega
  | true => have := h4 hb; omega

/-- A copy that is rebuilt becomes independent: flips through both objects respect the discipline. -/
example : Meaningful cpCfg (cpProg ++ [.copyNew 1 0 16, .build 1 none (List.replicate 8 3#64), .flip 0 5,
      .flip 1 7]) ∧
    Track.init.AllSafe cpCfg.blk.width.bits
      (cpProg ++ [.copyNew 1 0 16, .build 1 none (List.replicate 8 3#64), .flip 0 5, .flip 1 7]) := by
  constructor
  · exact ⟨rfl, ⟨_, rfl, ⟨by decide, by decide, by decide, by decide, by decide⟩, Or.inl rfl⟩,
      ⟨rfl, fun h => by cases h⟩,
      ⟨_, rfl, ⟨by decide, by decide, by decide, by decide, by decide⟩, Or.inl rfl⟩,
      ⟨_, rfl, by decide +kernel⟩, ⟨_, rfl, by decide +kernel⟩, trivial⟩
  · exact ⟨trivial, trivial, trivial, trivial, ⟨_, rfl, rfl⟩, ⟨_, rfl, rfl⟩, trivial⟩

/-! ## C45 moves -/

/-- The statement makes no copy. -/
def _root_.MRS.Cmd.isCopy : Cmd → Bool
  | .copyNew .. => true
  | .copyAsg .. => true
  | _ => false

/-- Without copies every object uses its own index, except empty ones. -/
structure Sole (T : Track) : Prop where
  lt : ∀ x a, T.objs x = some a → a.owns < T.next
  own : ∀ x a, T.objs x = some a → a.good = true → a.uses = a.owns
  val : ∀ x a, T.objs x = some a → a.val ≠ [] → a.good = true
  inj : ∀ x y a b, T.objs x = some a → T.objs y = some b → a.owns = b.owns → x = y

theorem Sole.spoil_other {T : Track} (h : Sole T) {x y : Nat} {p a : Know} (hx : T.objs x = some p)
    (hy : T.objs y = some a) (hxy : y ≠ x) (hg : a.good = true) : a.spoil p.owns = a := by
  unfold Know.spoil
  rw [if_neg]
  rw [h.own y a hy hg]
  exact fun e => hxy (h.inj y x a p hy hx e)

/-- Replacing what is known about `x` by something that owns index `n`. -/
theorem Sole.put {T : Track} (h : Sole T) {x : Nat} {a : Know} (hlt : a.owns < T.next)
    (ho : a.good = true → a.uses = a.owns) (hv : a.val ≠ [] → a.good = true)
    (hi : ∀ y b, y ≠ x → T.objs y = some b → b.owns ≠ a.owns) : Sole (T.put x (some a)) := by
  have key : ∀ z b, (T.put x (some a)).objs z = some b → z = x ∧ b = a ∨ z ≠ x ∧ T.objs z = some b := by
    intro z b hb
    by_cases hz : z = x
    · subst hz
      rw [show (T.put z (some a)).objs z = _ from fset_same _ _ _] at hb
      cases hb; exact Or.inl ⟨rfl, rfl⟩
    · rw [show (T.put x (some a)).objs z = _ from fset_other _ _ hz] at hb
      exact Or.inr ⟨hz, hb⟩
  refine ⟨fun z b hb => ?_, fun z b hb => ?_, fun z b hb => ?_, fun z w b d hb hd e => ?_⟩
  · rcases key z b hb with ⟨_, rfl⟩ | ⟨_, h1⟩
    · exact hlt
    · exact h.lt z b h1
  · rcases key z b hb with ⟨_, rfl⟩ | ⟨_, h1⟩
    · exact ho
    · exact h.own z b h1
  · rcases key z b hb with ⟨_, rfl⟩ | ⟨_, h1⟩
    · exact hv
    · exact h.val z b h1
  · rcases key z b hb with ⟨rfl, rfl⟩ | ⟨h1, h2⟩ <;> rcases key w d hd with ⟨rfl, rfl⟩ | ⟨h3, h4⟩
    · rfl
    · exact absurd e.symm (hi w d h3 h4)
    · exact absurd e (hi z b h1 h2)
    · exact h.inj z w b d h2 h4 e

theorem Sole.fresh {T : Track} (h : Sole T) : Sole T.fresh :=
  ⟨fun x a hx => Nat.lt_succ_of_lt (h.lt x a hx), h.own, h.val, h.inj⟩

/-- Spoiling the index of `x` affects `x` only. -/
theorem Sole.without {T : Track} (h : Sole T) {x : Nat} {p : Know} (hx : T.objs x = some p) {b : Nat}
    (hb : b = p.owns) : Sole ((T.spoil b).put x none) := by
  subst hb
  have key : ∀ z d, ((T.spoil p.owns).put x none).objs z = some d →
      z ≠ x ∧ ∃ d', T.objs z = some d' ∧ d = d'.spoil p.owns := by
    intro z d hd
    by_cases hz : z = x
    · subst hz
      rw [show ((T.spoil p.owns).put z none).objs z = _ from fset_same _ _ _] at hd
      cases hd
    · rw [show ((T.spoil p.owns).put x none).objs z = _ from fset_other _ _ hz] at hd
      obtain ⟨d', h1, h2⟩ := Option.map_eq_some_iff.1 hd
      exact ⟨hz, d', h1, h2.symm⟩
  refine ⟨fun z d hd => ?_, fun z d hd hg => ?_, fun z d hd hv => ?_, fun z w d f hd hf e => ?_⟩
  · obtain ⟨_, d', h1, rfl⟩ := key z d hd
    rw [Know.spoil_owns]; exact h.lt z d' h1
  · obtain ⟨_, d', h1, rfl⟩ := key z d hd
    rw [Know.spoil_owns, Know.spoil_uses]; exact h.own z d' h1 (Know.spoil_good hg).1
  · obtain ⟨hz, d', h1, rfl⟩ := key z d hd
    rw [Know.spoil_val] at hv
    rw [h.spoil_other hx h1 hz (h.val z d' h1 hv)]
    exact h.val z d' h1 hv
  · obtain ⟨_, d', h1, rfl⟩ := key z d hd
    obtain ⟨_, f', h2, rfl⟩ := key w f hf
    rw [Know.spoil_owns, Know.spoil_owns] at e
    exact h.inj z w d' f' h1 h2 e

theorem put_put (T : Track) (x : Nat) (a b : Option Know) : (T.put x a).put x b = T.put x b := by
  have : fset (fset T.objs x a) x b = fset T.objs x b := by
    funext z
    by_cases hz : z = x
    · subst hz; rw [fset_same, fset_same]
    · rw [fset_other _ _ hz, fset_other _ _ hz, fset_other _ _ hz]
  exact congrArg (fun f => (⟨f, T.next⟩ : Track)) this

theorem put_swap (T : Track) {x y : Nat} (h : x ≠ y) (a b : Option Know) :
    (T.put x a).put y b = (T.put y b).put x a := by
  have : fset (fset T.objs x a) y b = fset (fset T.objs y b) x a := by
    funext z
    by_cases hz : z = x
    · subst hz; rw [fset_other _ _ h, fset_same, fset_same]
    · rw [fset_other _ a hz]
      by_cases hw : z = y
      · subst hw; rw [fset_same, fset_same]
      · rw [fset_other _ _ hw, fset_other _ _ hw, fset_other _ _ hz]
  exact congrArg (fun f => (⟨f, T.next⟩ : Track)) this

theorem put_none_get {T : Track} {x y : Nat} {b : Know} (h : (T.put x none).objs y = some b) :
    y ≠ x ∧ T.objs y = some b := by
  by_cases hy : y = x
  · subst hy
    rw [show (T.put y none).objs y = _ from fset_same _ _ _] at h
    cases h
  · rw [show (T.put x none).objs y = _ from fset_other _ _ hy] at h
    exact ⟨hy, h⟩

theorem Sole.step {c : Config} {T : Track} (h : Sole T) {o : Cmd} (hf : T.Fits c o)
    (hc : o.isCopy = false) : Sole (T.step c.blk.width.bits o) := by
  cases o with
  | new x =>
    refine Sole.put (T := T.fresh) h.fresh (Nat.lt_succ_self _) (fun _ => rfl) (fun h => absurd rfl h) ?_
    intro y b _ hb
    have := h.lt y b hb
    show b.owns ≠ T.next
    omega
  | del x =>
    obtain ⟨a, hx⟩ := Option.ne_none_iff_exists'.1 hf
    show Sole (match T.objs x with | none => T | some a => _)
    rw [hx]
    exact h.without hx rfl
  | build x re ws =>
    obtain ⟨a, hx, hv, _⟩ := hf
    show Sole (match T.objs x with | none => T | some a => _)
    rw [hx]
    have h1 := (h.without hx rfl).fresh.put (x := x)
      (a := ⟨rebuilt c.blk.width.bits a.val ws, true, T.slot a.owns re, T.slot a.owns re⟩)
      (by
        cases re with
        | some _ => exact Nat.lt_succ_self _
        | none => exact Nat.lt_succ_of_lt (h.lt x a hx))
      (fun _ => rfl) (fun _ => rfl) (by
        intro y b hy hb
        obtain ⟨_, hb⟩ := put_none_get (T := T.spoil a.owns) hb
        obtain ⟨b', hb', rfl⟩ := Option.map_eq_some_iff.1 hb
        rw [Know.spoil_owns]
        cases re with
        | some _ =>
          have := h.lt y b' hb'
          show b'.owns ≠ T.next
          omega
        | none => exact fun e => hy (h.inj y x b' a hb' hx e))
    have h2 := put_put (T.spoil a.owns) x none
      (some ⟨rebuilt c.blk.width.bits a.val ws, true, T.slot a.owns re, T.slot a.owns re⟩)
    have h1 : Sole ((((T.spoil a.owns).put x none).put x _).fresh) := h1
    rw [h2] at h1
    exact h1
  | flip x i =>
    obtain ⟨a, hx, hi⟩ := hf
    show Sole (match T.objs x with | none => T | some a => _)
    rw [hx]
    have hne : a.val ≠ [] := by rintro e; rw [e] at hi; exact absurd hi (Nat.not_lt_zero i)
    have hg := h.val x a hx hne
    have h1 := (h.without hx (h.own x a hx hg)).put (x := x) (a := { a with val := Spec.flip a.val i })
      (h.lt x a hx) (h.own x a hx) (fun _ => hg) (by
        intro y b hy hb
        obtain ⟨_, hb⟩ := put_none_get (T := T.spoil a.uses) hb
        obtain ⟨b', hb', rfl⟩ := Option.map_eq_some_iff.1 hb
        rw [Know.spoil_owns]
        exact fun e => hy (h.inj y x b' a hb' hx e))
    rw [put_put] at h1
    exact h1
  | copyNew x y addr => cases hc
  | copyAsg x y re => cases hc
  | moveNew x y =>
    obtain ⟨a, hy⟩ := Option.ne_none_iff_exists'.1 hf.2
    have hx : T.objs x = none := hf.1
    have hxy : x ≠ y := by rintro rfl; rw [hx] at hy; cases hy
    show Sole (match T.objs y with | none => T | some a => _)
    rw [hy]
    have h1 := h.fresh.put (x := y) (a := ⟨[], false, a.uses, T.next⟩) (Nat.lt_succ_self _)
      (fun h => by cases h) (fun h => absurd rfl h) (by
        intro z b _ hb
        have := h.lt z b hb
        show b.owns ≠ T.next
        omega)
    exact h1.put (x := x) (a := a) (Nat.lt_succ_of_lt (h.lt y a hy)) (h.own y a hy) (h.val y a hy) (by
        intro z b hz hb
        by_cases hzy : z = y
        · subst hzy
          rw [show ((T.fresh).put z (some ⟨[], false, a.uses, T.next⟩)).objs z = _ from fset_same _ _ _] at hb
          cases hb
          have := h.lt z a hy
          show T.next ≠ _
          omega
        · rw [show ((T.fresh).put y (some ⟨[], false, a.uses, T.next⟩)).objs z = _ from fset_other _ _ hzy] at hb
          exact fun e => hzy (h.inj z y b a hb hy e))
  | moveAsg x y =>
    obtain ⟨p, hx⟩ := Option.ne_none_iff_exists'.1 hf.1
    obtain ⟨a, hy⟩ := Option.ne_none_iff_exists'.1 hf.2
    show Sole (match T.objs x, T.objs y with | some p, some a => _ | _, _ => T)
    rw [hx, hy]
    show Sole (if x = y then _ else _)
    by_cases hxy : x = y
    · rw [if_pos hxy]
      have h1 := (h.without hx rfl).fresh.put (x := x) (a := ⟨[], false, a.uses, T.next⟩)
        (Nat.lt_succ_self _) (fun h => by cases h) (fun h => absurd rfl h) (by
          intro z b hz hb
          obtain ⟨_, hb⟩ := put_none_get (T := T.spoil p.owns) hb
          obtain ⟨b', hb', rfl⟩ := Option.map_eq_some_iff.1 hb
          rw [Know.spoil_owns]
          have := h.lt z b' hb'
          show b'.owns ≠ T.next
          omega)
      have h1 : Sole ((((T.spoil p.owns).put x none).put x _).fresh) := h1
      rw [put_put] at h1
      exact h1
    · rw [if_neg hxy]
      have hyx : y ≠ x := fun e => hxy e.symm
      have h1 := (h.without hx rfl).fresh.put (x := y) (a := ⟨[], false, a.uses, T.next⟩)
        (Nat.lt_succ_self _) (fun h => by cases h) (fun h => absurd rfl h) (by
          intro z b hz hb
          obtain ⟨_, hb⟩ := put_none_get (T := T.spoil p.owns) hb
          obtain ⟨b', hb', rfl⟩ := Option.map_eq_some_iff.1 hb
          rw [Know.spoil_owns]
          have := h.lt z b' hb'
          show b'.owns ≠ T.next
          omega)
      have h2 := h1.put (x := x) (a := a.spoil p.owns)
        (by rw [Know.spoil_owns]; exact Nat.lt_succ_of_lt (h.lt y a hy))
        (fun hg => by
          rw [Know.spoil_owns, Know.spoil_uses]; exact h.own y a hy (Know.spoil_good hg).1)
        (fun hv => by
          rw [Know.spoil_val] at hv
          rw [h.spoil_other hx hy hyx (h.val y a hy hv)]
          exact h.val y a hy hv)
        (by
          intro z b hz hb
          rw [Know.spoil_owns]
          by_cases hzy : z = y
          · subst hzy
            rw [show ((((T.spoil p.owns).put x none).fresh).put z (some ⟨[], false, a.uses, T.next⟩)).objs z = _
              from fset_same _ _ _] at hb
            cases hb
            have := h.lt z a hy
            show T.next ≠ _
            omega
          · rw [show ((((T.spoil p.owns).put x none).fresh).put y (some ⟨[], false, a.uses, T.next⟩)).objs z = _
              from fset_other _ _ hzy] at hb
            obtain ⟨_, hb⟩ := put_none_get (T := T.spoil p.owns) hb
            obtain ⟨b', hb', rfl⟩ := Option.map_eq_some_iff.1 hb
            rw [Know.spoil_owns]
            exact fun e => hzy (h.inj z y b' a hb' hy e))
      have h2 : Sole (((((T.spoil p.owns).put x none).put y _).put x _).fresh) := h2
      rw [put_swap _ hxy, put_put] at h2
      exact h2

theorem Sole.steps {c : Config} (cs : List Cmd) : ∀ {T : Track}, Sole T → T.AllFit c cs →
    (∀ o ∈ cs, o.isCopy = false) →
    Sole (T.steps c.blk.width.bits cs) ∧ T.AllSafe c.blk.width.bits cs := by
  induction cs with
  | nil => intro T h _ _; exact ⟨h, trivial⟩
  | cons o os ih =>
    intro T h hf hc
    obtain ⟨h1, h2⟩ := ih (h.step hf.1 (hc o (by simp))) hf.2 (fun p hp => hc p (by simp [hp]))
    refine ⟨h1, ?_, h2⟩
    cases o with
    | flip x i =>
      obtain ⟨a, hx, hi⟩ := hf.1
      refine ⟨a, hx, h.val x a hx ?_⟩
      rintro e; rw [e] at hi; exact absurd hi (Nat.not_lt_zero i)
    | _ => trivial

/-- C45: as long as bitmaps are only moved (also by `std::swap` or a growing vector), never copied, they are
values: the program runs without undefined behaviour and every object answers every query like the list of
bits it stands for, moved-from objects being empty. -/
theorem C45 {c : Config} {cs : List Cmd} (hs : c.b.strictAlign = false) (hf : Meaningful c cs)
    (hc : ∀ o ∈ cs, o.isCopy = false) :
    ∃ s, c.prog Store.init cs = ok s ∧
      ∀ x B, values c.blk.width.bits cs x = some B → Answers c s x B := by
  have hS : Sole Track.init := ⟨fun _ _ h => (by cases h), fun _ _ h => (by cases h),
    fun _ _ h => (by cases h), fun _ _ _ _ h => (by cases h)⟩
  obtain ⟨h1, h2⟩ := hS.steps cs hf hc
  obtain ⟨s, e, hall⟩ := C30_partial hs hf h2
  refine ⟨s, e, fun x B hB => ?_⟩
  rw [← after_values hf] at hB
  obtain ⟨a, hx, rfl⟩ := Option.map_eq_some_iff.1 hB
  obtain ⟨hb, ha⟩ := hall x a.val (by rw [← after_values hf, hx]; rfl)
  by_cases hv : a.val = []
  · refine ⟨hb, fun g _ i hi => ?_, fun g _ k hk => ?_⟩
    · rw [hv] at hi; exact absurd hi (Nat.not_lt_zero i)
    · rw [hv] at hk; exact absurd hk (Nat.not_lt_zero k)
  · exact ha ⟨a, hx, h1.val x a hx hv⟩

/-- `std::swap` of two bitmaps, then flips through both. -/
example : Meaningful cpCfg (cpProg ++ [.new 1, .build 1 (some 32) [7#64], .moveNew 2 0, .moveAsg 0 1,
      .moveAsg 1 2, .del 2, .flip 0 3, .flip 1 400]) ∧
    ((after cpCfg (cpProg ++ [.new 1, .build 1 (some 32) [7#64], .moveNew 2 0, .moveAsg 0 1,
      .moveAsg 1 2, .del 2])).objs 0).map (·.val) = some (pad (bitsOf [7#64]) 256) := by
  constructor
  · exact ⟨rfl, ⟨_, rfl, ⟨by decide, by decide, by decide, by decide, by decide⟩, Or.inl rfl⟩,
      rfl, ⟨_, rfl, ⟨by decide, by decide, by decide, by decide, by decide⟩, Or.inl rfl⟩,
      ⟨rfl, fun h => by cases h⟩, ⟨fun h => (by cases h), fun h => by cases h⟩,
      ⟨fun h => (by cases h), fun h => by cases h⟩, fun h => (by cases h),
      ⟨_, rfl, by decide +kernel⟩, ⟨_, rfl, by decide +kernel⟩, trivial⟩
  · decide +kernel

end MRS.Props
