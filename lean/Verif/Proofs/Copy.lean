import Verif.Model.Sharing
import Verif.Proofs.History

/-!
# Copies and moves: the discipline is sound
-/

set_option autoImplicit false

namespace MRS
open Outcome Spec

theorem fset_same {α : Type} (f : Nat → α) (k : Nat) (v : α) : fset f k v k = v := if_pos rfl
theorem fset_other {α : Type} (f : Nat → α) {k j : Nat} (v : α) (h : j ≠ k) : fset f k v j = f j :=
  if_neg h

/-- What the knowledge about an object means. -/
structure ObjRel (c : Config) (h : Nat → Mem) (o : Obj) (a : Know) : Prop where
  tgt : o.tgt = a.uses
  own : o.own = a.owns
  len : a.val.length = 64 * o.bits.len
  rep : Rep o.bits.f a.val
  good : a.good = true → Alive c ⟨⟨o.size, o.num, o.ptr, h o.tgt⟩, o.bits⟩ a.val

theorem Know.spoil_val (b : Nat) (a : Know) : (a.spoil b).val = a.val := by
  unfold Know.spoil; split <;> rfl
theorem Know.spoil_uses (b : Nat) (a : Know) : (a.spoil b).uses = a.uses := by
  unfold Know.spoil; split <;> rfl
theorem Know.spoil_owns (b : Nat) (a : Know) : (a.spoil b).owns = a.owns := by
  unfold Know.spoil; split <;> rfl
theorem Know.spoil_good {b : Nat} {a : Know} (h : (a.spoil b).good = true) :
    a.good = true ∧ a.uses ≠ b := by
  unfold Know.spoil at h
  split at h
  · cases h
  · exact ⟨h, by assumption⟩

/-- Changing one buffer spoils those who use it. -/
theorem ObjRel.frame {c : Config} {h h' : Nat → Mem} {o : Obj} {a : Know} (r : ObjRel c h o a) {b : Nat}
    (e : ∀ j, j ≠ b → h' j = h j) : ObjRel c h' o (a.spoil b) := by
  refine ⟨by rw [Know.spoil_uses]; exact r.tgt, by rw [Know.spoil_owns]; exact r.own,
    by rw [Know.spoil_val]; exact r.len, by rw [Know.spoil_val]; exact r.rep, fun hg => ?_⟩
  obtain ⟨h1, h2⟩ := Know.spoil_good hg
  rw [Know.spoil_val, e o.tgt (by rw [r.tgt]; exact h2)]
  exact r.good h1

/-- Changing a buffer nobody uses. -/
theorem ObjRel.keep {c : Config} {h h' : Nat → Mem} {o : Obj} {a : Know} (r : ObjRel c h o a)
    (e : h' a.uses = h a.uses) : ObjRel c h' o a := by
  refine ⟨r.tgt, r.own, r.len, r.rep, fun hg => ?_⟩
  rw [r.tgt, e, ← r.tgt]
  exact r.good hg

/-- What the knowledge about all objects means. -/
structure StoreRel (c : Config) (s : Store) (T : Track) : Prop where
  next : s.next = T.next
  lt : ∀ x a, T.objs x = some a → a.uses < T.next
  ownLt : ∀ x a, T.objs x = some a → a.owns < T.next
  absent : ∀ x, T.objs x = none → s.objs x = none
  present : ∀ x a, T.objs x = some a → ∃ o, s.objs x = some o ∧ ObjRel c s.heap o a

theorem StoreRel.init (c : Config) : StoreRel c Store.init Track.init :=
  ⟨rfl, fun _ _ h => (by cases h), fun _ _ h => (by cases h), fun _ _ => rfl, fun _ _ h => (by cases h)⟩

theorem StoreRel.get {c : Config} {s : Store} {T : Track} (r : StoreRel c s T) {x : Nat} {a : Know}
    (h : T.objs x = some a) : ∃ o, s.obj x = ok o ∧ ObjRel c s.heap o a := by
  obtain ⟨o, e, ho⟩ := r.present x a h
  exact ⟨o, by unfold Store.obj; rw [e], ho⟩

/-- Objects other than `x` after a change of buffer `b`. -/
theorem StoreRel.spoil {c : Config} {s : Store} {T : Track} (r : StoreRel c s T) {h' : Nat → Mem} {b : Nat}
    (e : ∀ j, j ≠ b → h' j = s.heap j) : StoreRel c ⟨s.objs, h', s.next⟩ (T.spoil b) := by
  refine ⟨r.next, fun x a ha => ?_, fun x a ha => ?_, fun x hx => ?_, fun x a ha => ?_⟩
  · obtain ⟨a', h1, rfl⟩ := Option.map_eq_some_iff.1 ha
    rw [Know.spoil_uses]; exact r.lt x a' h1
  · obtain ⟨a', h1, rfl⟩ := Option.map_eq_some_iff.1 ha
    rw [Know.spoil_owns]; exact r.ownLt x a' h1
  · exact r.absent x (Option.map_eq_none_iff.1 hx)
  · obtain ⟨a', h1, rfl⟩ := Option.map_eq_some_iff.1 ha
    obtain ⟨o, h2, h3⟩ := r.present x a' h1
    exact ⟨o, h2, h3.frame e⟩

/-- A change of a buffer that nobody uses. -/
theorem StoreRel.unused {c : Config} {s : Store} {T : Track} (r : StoreRel c s T) (m : Mem) :
    StoreRel c ⟨s.objs, fset s.heap s.next m, s.next + 1⟩ T.fresh := by
  refine ⟨by show s.next + 1 = T.next + 1; rw [r.next], fun x a ha => Nat.lt_succ_of_lt (r.lt x a ha),
    fun x a ha => Nat.lt_succ_of_lt (r.ownLt x a ha),
    r.absent, fun x a ha => ?_⟩
  obtain ⟨o, h2, h3⟩ := r.present x a ha
  refine ⟨o, h2, h3.keep (fset_other _ _ ?_)⟩
  have := r.lt x a ha
  have := r.next
  omega

/-- A name goes unused. -/
theorem StoreRel.skip {c : Config} {s : Store} {T : Track} (r : StoreRel c s T) :
    StoreRel c ⟨s.objs, s.heap, s.next + 1⟩ T.fresh :=
  ⟨by show s.next + 1 = T.next + 1; rw [r.next], fun x a ha => Nat.lt_succ_of_lt (r.lt x a ha),
    fun x a ha => Nat.lt_succ_of_lt (r.ownLt x a ha),
    r.absent, r.present⟩

/-- Knowledge about one object is replaced. -/
theorem StoreRel.put {c : Config} {s : Store} {T : Track} (r : StoreRel c s T) {x : Nat} {o : Obj}
    {a : Know} (hl : a.uses < T.next) (hl' : a.owns < T.next) (h : ObjRel c s.heap o a) :
    StoreRel c ⟨fset s.objs x (some o), s.heap, s.next⟩ (T.put x (some a)) := by
  refine ⟨r.next, fun z b hb => ?_, fun z b hb => ?_, fun z hz => ?_, fun z b hb => ?_⟩
  · by_cases hzx : z = x
    · subst hzx
      rw [show (T.put z (some a)).objs z = _ from fset_same _ _ _] at hb
      cases hb; exact hl
    · rw [show (T.put x (some a)).objs z = _ from fset_other _ _ hzx] at hb
      exact r.lt z b hb
  · by_cases hzx : z = x
    · subst hzx
      rw [show (T.put z (some a)).objs z = _ from fset_same _ _ _] at hb
      cases hb; exact hl'
    · rw [show (T.put x (some a)).objs z = _ from fset_other _ _ hzx] at hb
      exact r.ownLt z b hb
  · by_cases hzx : z = x
    · subst hzx
      rw [show (T.put z (some a)).objs z = _ from fset_same _ _ _] at hz
      cases hz
    · rw [show (T.put x (some a)).objs z = _ from fset_other _ _ hzx] at hz
      exact (fset_other _ _ hzx).trans (r.absent z hz)
  · by_cases hzx : z = x
    · subst hzx
      rw [show (T.put z (some a)).objs z = _ from fset_same _ _ _] at hb
      cases hb; exact ⟨o, fset_same _ _ _, h⟩
    · rw [show (T.put x (some a)).objs z = _ from fset_other _ _ hzx] at hb
      obtain ⟨o', h1, h2⟩ := r.present z b hb
      exact ⟨o', (fset_other _ _ hzx).trans h1, h2⟩

theorem StoreRel.drop {c : Config} {s : Store} {T : Track} (r : StoreRel c s T) {x : Nat} :
    StoreRel c ⟨fset s.objs x none, s.heap, s.next⟩ (T.put x none) := by
  refine ⟨r.next, fun z b hb => ?_, fun z b hb => ?_, fun z hz => ?_, fun z b hb => ?_⟩
  · by_cases hzx : z = x
    · subst hzx
      rw [show (T.put z none).objs z = _ from fset_same _ _ _] at hb
      cases hb
    · rw [show (T.put x none).objs z = _ from fset_other _ _ hzx] at hb
      exact r.lt z b hb
  · by_cases hzx : z = x
    · subst hzx
      rw [show (T.put z none).objs z = _ from fset_same _ _ _] at hb
      cases hb
    · rw [show (T.put x none).objs z = _ from fset_other _ _ hzx] at hb
      exact r.ownLt z b hb
  · by_cases hzx : z = x
    · subst hzx; exact fset_same _ _ _
    · rw [show (T.put x none).objs z = _ from fset_other _ _ hzx] at hz
      exact (fset_other _ _ hzx).trans (r.absent z hz)
  · by_cases hzx : z = x
    · subst hzx
      rw [show (T.put z none).objs z = _ from fset_same _ _ _] at hb
      cases hb
    · rw [show (T.put x none).objs z = _ from fset_other _ _ hzx] at hb
      obtain ⟨o', h1, h2⟩ := r.present z b hb
      exact ⟨o', (fset_other _ _ hzx).trans h1, h2⟩

/-- The buffer of a vector that is empty may be replaced by a new name. -/
theorem ObjRel.movedFrom {c : Config} {h : Nat → Mem} {o : Obj} {a : Know} (r : ObjRel c h o a)
    {n n' : Nat} (e : n = n') :
    ObjRel c h { o with own := n, bits := Bitmap.empty.bits } ⟨[], false, a.uses, n'⟩ :=
  ⟨r.tgt, e, rfl, ⟨fun i hi => absurd hi (Nat.not_lt_zero i)⟩, fun h => by cases h⟩

theorem ObjRel.reown {c : Config} {h : Nat → Mem} {o : Obj} {a : Know} (r : ObjRel c h o a)
    {n n' : Nat} (e : n = n') : ObjRel c h { o with own := n } { a with owns := n' } :=
  ⟨r.tgt, e, r.len, r.rep, r.good⟩

theorem Config.Valid.any {c : Config} (hs : c.b.strictAlign = false) {addr nw : Nat}
    (h : c.Valid addr nw) (addr' : Nat) : c.Valid addr' nw :=
  ⟨h.sup, h.some, h.fits, h.height, fun e => by rw [hs] at e; cases e⟩

theorem Track.spoil_get {T : Track} {x b : Nat} {a : Know} (h : T.objs x = some a) :
    (T.spoil b).objs x = some (a.spoil b) := by
  show (T.objs x).map _ = _
  rw [h]; rfl

/-! ## Statements that succeed -/

section
variable {c : Config} {s : Store} {x y : Nat} {o p : Obj}

theorem cmd_del (e : s.obj x = ok o) : c.cmd s (.del x) =
    ok ⟨fset s.objs x none, fset s.heap o.own Mem.nothing, s.next⟩ := by
  simp only [Config.cmd, e, ok_bind]

theorem cmd_build_some {addr : Nat} {ws : List Word} {bm : Bitmap} (e : s.obj x = ok o)
    (h : bmBuild c addr (Vec.ofList ws) ws.length (s.owned o) = ok bm) :
    c.cmd s (.build x (some addr) ws) =
      ok ⟨fset s.objs x (some ⟨bm.index.size, bm.index.num, bm.index.ptr, s.next, s.next, bm.bits⟩),
        fset (fset s.heap o.own Mem.nothing) s.next bm.index.mem, s.next + 1⟩ := by
  simp only [Config.cmd, e, h, ok_bind]

theorem cmd_build_none {ws : List Word} {bm : Bitmap} (e : s.obj x = ok o)
    (h : bmBuild c (s.heap o.own).addr (Vec.ofList ws) ws.length (s.owned o) = ok bm) :
    c.cmd s (.build x none ws) =
      ok ⟨fset s.objs x (some ⟨bm.index.size, bm.index.num, bm.index.ptr, o.own, o.own, bm.bits⟩),
        fset s.heap o.own bm.index.mem, s.next + 1⟩ := by
  simp only [Config.cmd, e, h, ok_bind]

theorem cmd_flip {i : Nat} {bm : Bitmap} (e : s.obj x = ok o) (h : bmFlip c (s.view o) i = ok bm) :
    c.cmd s (.flip x i) =
      ok ⟨fset s.objs x (some ⟨bm.index.size, bm.index.num, bm.index.ptr, o.tgt, o.own, bm.bits⟩),
      fset s.heap o.tgt bm.index.mem, s.next⟩ := by
  simp only [Config.cmd, e, h, ok_bind]

theorem cmd_copyNew {addr : Nat} (e : s.obj y = ok o) : c.cmd s (.copyNew x y addr) =
    ok ⟨fset s.objs x (some { o with own := s.next }), fset s.heap s.next ((s.heap o.own).copyTo addr),
      s.next + 1⟩ := by
  simp only [Config.cmd, e, ok_bind]

theorem cmd_copyAsg_self {re : Option Nat} (e : s.obj x = ok p) : c.cmd s (.copyAsg x x re) = ok s := by
  simp only [Config.cmd, e, ok_bind, if_true]

theorem cmd_copyAsg_some {addr : Nat} (ep : s.obj x = ok p) (e : s.obj y = ok o) (h : x ≠ y) :
    c.cmd s (.copyAsg x y (some addr)) =
      ok ⟨fset s.objs x (some { o with own := s.next }),
        fset (fset s.heap p.own Mem.nothing) s.next ((s.heap o.own).copyTo addr), s.next + 1⟩ := by
  simp only [Config.cmd, e, ep, ok_bind, if_neg h]

theorem cmd_copyAsg_none (ep : s.obj x = ok p) (e : s.obj y = ok o) (h : x ≠ y) :
    c.cmd s (.copyAsg x y none) =
      ok ⟨fset s.objs x (some { o with own := p.own }),
        fset s.heap p.own ((s.heap o.own).copyTo (s.heap p.own).addr), s.next + 1⟩ := by
  simp only [Config.cmd, e, ep, ok_bind, if_neg h]

theorem cmd_moveNew (e : s.obj y = ok o) : c.cmd s (.moveNew x y) =
    ok ⟨fset (fset s.objs y (some { o with own := s.next, bits := Bitmap.empty.bits })) x (some o),
      s.heap, s.next + 1⟩ := by
  simp only [Config.cmd, e, ok_bind]

theorem cmd_moveAsg_self (e : s.obj x = ok o) : c.cmd s (.moveAsg x x) =
    ok ⟨fset s.objs x (some { o with own := s.next, bits := Bitmap.empty.bits }),
        fset s.heap o.own Mem.nothing, s.next + 1⟩ := by
  simp only [Config.cmd, e, ok_bind, if_true]

theorem cmd_moveAsg (ep : s.obj x = ok p) (e : s.obj y = ok o) (h : x ≠ y) : c.cmd s (.moveAsg x y) =
      ok ⟨fset (fset s.objs y (some { o with own := s.next, bits := Bitmap.empty.bits })) x (some o),
        fset s.heap p.own Mem.nothing, s.next + 1⟩ := by
  simp only [Config.cmd, e, ep, ok_bind, if_neg h]

end

/-- `build` through one object. -/
theorem StoreRel.build {c : Config} {s : Store} {T : Track} (r : StoreRel c s T)
    (hs : c.b.strictAlign = false) {x : Nat} {a : Know} (hx : T.objs x = some a) {re : Option Nat}
    {ws : List Word} (hv : c.Valid (re.getD 0) ws.length)
    (hd : c.DebugOK (rebuilt c.blk.width.bits a.val ws)) :
    ∃ s', c.cmd s (.build x re ws) = ok s' ∧ StoreRel c s' (T.step c.blk.width.bits (.build x re ws)) := by
  obtain ⟨o, eo, ho⟩ := r.get hx
  have hn := r.next
  have step : T.step c.blk.width.bits (.build x re ws) = ((T.spoil a.owns).put x
      (some ⟨rebuilt c.blk.width.bits a.val ws, true, T.slot a.owns re, T.slot a.owns re⟩)).fresh := by
    show (match T.objs x with | none => T | some a => _) = _
    rw [hx]
  rw [step]
  have al : ∀ {bm : Bitmap} {addr n : Nat}, BmRep c n bm (rebuilt c.blk.width.bits a.val ws) →
      bm.index.mem.addr = addr → Alive c bm (rebuilt c.blk.width.bits a.val ws) := fun h _ =>
    ⟨⟨h.len, h.rep, Or.inr ⟨_, h.inv⟩⟩, Or.inr fun _ e => by rw [hs] at e; cases e⟩
  cases re with
  | some addr =>
    obtain ⟨bm, e, hr, ha⟩ := rebuild_rep (bm := s.owned o) (addr := addr) (hv.any hs _) hd ho.len ho.rep
    refine ⟨_, cmd_build_some eo e, ?_⟩
    · have r1 := (r.spoil (h' := fset s.heap o.own Mem.nothing) (b := a.owns)
        (fun j hj => fset_other _ _ (by rw [ho.own]; exact hj))).unused bm.index.mem
      have r2 := r1.put (x := x) (o := ⟨bm.index.size, bm.index.num, bm.index.ptr, s.next, s.next, bm.bits⟩)
        (a := ⟨rebuilt c.blk.width.bits a.val ws, true, T.next, T.next⟩)
        (Nat.lt_succ_self _) (Nat.lt_succ_self _) ⟨hn, hn, hr.len, hr.rep, fun _ => by
          show Alive c ⟨⟨_, _, _, fset _ s.next _ s.next⟩, _⟩ _
          rw [fset_same]; exact al hr ha⟩
      exact r2
  | none =>
    obtain ⟨bm, e, hr, ha⟩ := rebuild_rep (bm := s.owned o) (addr := (s.heap o.own).addr) (hv.any hs _) hd
      ho.len ho.rep
    refine ⟨_, cmd_build_none eo e, ?_⟩
    · have r1 := (r.spoil (h' := fset s.heap o.own bm.index.mem) (b := a.owns)
        (fun j hj => fset_other _ _ (by rw [ho.own]; exact hj))).skip
      have r2 := r1.put (x := x) (o := ⟨bm.index.size, bm.index.num, bm.index.ptr, o.own, o.own, bm.bits⟩)
        (a := ⟨rebuilt c.blk.width.bits a.val ws, true, a.owns, a.owns⟩)
        (Nat.lt_succ_of_lt (r.ownLt x a hx)) (Nat.lt_succ_of_lt (r.ownLt x a hx)) ⟨ho.own, ho.own, hr.len, hr.rep, fun _ => by
          show Alive c ⟨⟨_, _, _, fset _ o.own _ o.own⟩, _⟩ _
          rw [fset_same]; exact al hr ha⟩
      exact r2

/-- `flip` through one object. -/
theorem StoreRel.flip {c : Config} {s : Store} {T : Track} (r : StoreRel c s T) {x i : Nat} {a : Know}
    (hx : T.objs x = some a) (hg : a.good = true) (hi : i < a.val.length) :
    ∃ s', c.cmd s (.flip x i) = ok s' ∧ StoreRel c s' (T.step c.blk.width.bits (.flip x i)) := by
  obtain ⟨o, eo, ho⟩ := r.get hx
  have step : T.step c.blk.width.bits (.flip x i) = (T.spoil a.uses).put x
      (some { a with val := Spec.flip a.val i }) := by
    show (match T.objs x with | none => T | some a => _) = _
    rw [hx]
  rw [step]
  obtain ⟨bm, e, hr⟩ := (ho.good hg).flip hi
  have e : bmFlip c (s.view o) i = ok bm := e
  refine ⟨_, cmd_flip eo e, ?_⟩
  · have r1 := r.spoil (h' := fset s.heap o.tgt bm.index.mem) (b := a.uses)
      (fun j hj => fset_other _ _ (by rw [ho.tgt]; exact hj))
    exact r1.put (x := x) (o := ⟨bm.index.size, bm.index.num, bm.index.ptr, o.tgt, o.own, bm.bits⟩)
      (a := { a with val := Spec.flip a.val i }) (r.lt x a hx) (r.ownLt x a hx)
      ⟨ho.tgt, ho.own, hr.len, hr.rep, fun _ => by
        show Alive c ⟨⟨_, _, _, fset _ o.tgt _ o.tgt⟩, _⟩ _
        rw [fset_same]; exact hr⟩

theorem StoreRel.cmd {c : Config} {s : Store} {T : Track} (r : StoreRel c s T)
    (hs : c.b.strictAlign = false) {o : Cmd} (hf : T.Fits c o) (hg : T.Safe o) :
    ∃ s', c.cmd s o = ok s' ∧ StoreRel c s' (T.step c.blk.width.bits o) := by
  have hn := r.next
  cases o with
  | new x =>
    refine ⟨_, rfl, ?_⟩
    have r1 := r.skip.put (x := x) (o := ⟨0, none, none, s.next, s.next, Bitmap.empty.bits⟩)
      (a := ⟨[], true, T.next, T.next⟩) (Nat.lt_succ_self _) (Nat.lt_succ_self _)
      ⟨hn, hn, rfl, ⟨fun i hi => absurd hi (Nat.not_lt_zero i)⟩, fun _ =>
        ⟨⟨rfl, ⟨fun i hi => absurd hi (Nat.not_lt_zero i)⟩, Or.inl rfl⟩, Or.inl rfl⟩⟩
    exact r1
  | del x =>
    obtain ⟨a, hx⟩ := Option.ne_none_iff_exists'.1 hf
    obtain ⟨o, eo, ho⟩ := r.get hx
    refine ⟨_, cmd_del eo, ?_⟩
    rw [show T.step c.blk.width.bits (.del x) = (T.spoil a.owns).put x none by
      show (match T.objs x with | none => T | some a => _) = _
      rw [hx]]
    exact (r.spoil (h' := fset s.heap o.own Mem.nothing) (b := a.owns)
        (fun j hj => fset_other _ _ (by rw [ho.own]; exact hj))).drop
  | build x re ws =>
    obtain ⟨a, hx, hv, hd⟩ := hf
    exact r.build hs hx hv hd
  | flip x i =>
    obtain ⟨a, hx, hi⟩ := hf
    obtain ⟨a', hx', hg⟩ := hg
    rw [hx] at hx'; cases hx'
    exact r.flip hx hg hi
  | copyNew x y addr =>
    obtain ⟨a, hy⟩ := Option.ne_none_iff_exists'.1 hf.2
    obtain ⟨o, eo, ho⟩ := r.get hy
    refine ⟨_, cmd_copyNew eo, ?_⟩
    rw [show T.step c.blk.width.bits (.copyNew x y addr) = (T.put x (some { a with owns := T.next })).fresh by
      show (match T.objs y with | none => T | some a => _) = _
      rw [hy]]
    have r1 := r.unused ((s.heap o.own).copyTo addr)
    obtain ⟨o', h1, h2⟩ := r1.present y a hy
    have h1 : s.objs y = some o' := h1
    have : o' = o := by
      unfold Store.obj at eo; rw [h1] at eo; injection eo
    subst this
    have h3 := h2.reown hn
    have r2 := r1.put (x := x) (a := { a with owns := T.next }) (Nat.lt_succ_of_lt (r.lt y a hy)) (Nat.lt_succ_self _) h3
    exact r2
  | copyAsg x y re =>
    obtain ⟨p, hx⟩ := Option.ne_none_iff_exists'.1 hf.1
    obtain ⟨a, hy⟩ := Option.ne_none_iff_exists'.1 hf.2
    obtain ⟨q, eq, hq⟩ := r.get hx
    obtain ⟨o, eo, ho⟩ := r.get hy
    have step : T.step c.blk.width.bits (.copyAsg x y re) = if x = y then T else
      ((T.spoil p.owns).put x (some { a.spoil p.owns with owns := T.slot p.owns re })).fresh := by
      show (match T.objs x, T.objs y with | some p, some a => _ | _, _ => T) = _
      rw [hx, hy]
    rw [step]
    by_cases hxy : x = y
    · subst hxy
      exact ⟨s, cmd_copyAsg_self eq, by rw [if_pos rfl]; exact r⟩
    · rw [if_neg hxy]
      cases re with
      | some addr =>
        refine ⟨_, cmd_copyAsg_some eq eo hxy, ?_⟩
        have r1 := (r.spoil (h' := fset s.heap q.own Mem.nothing) (b := p.owns)
          (fun j hj => fset_other _ _ (by rw [hq.own]; exact hj))).unused ((s.heap o.own).copyTo addr)
        obtain ⟨o', h1, h2⟩ := r1.present y _ (Track.spoil_get hy)
        have h1 : s.objs y = some o' := h1
        have : o' = o := by unfold Store.obj at eo; rw [h1] at eo; injection eo
        subst this
        have h3 := h2.reown hn
        have r2 := r1.put (x := x) (a := { a.spoil p.owns with owns := T.next })
          (by show (a.spoil p.owns).uses < _; rw [Know.spoil_uses]; exact Nat.lt_succ_of_lt (r.lt y a hy))
          (Nat.lt_succ_self _) h3
        exact r2
      | none =>
        refine ⟨_, cmd_copyAsg_none eq eo hxy, ?_⟩
        have r1 := (r.spoil (h' := fset s.heap q.own ((s.heap o.own).copyTo (s.heap q.own).addr))
          (b := p.owns) (fun j hj => fset_other _ _ (by rw [hq.own]; exact hj))).skip
        obtain ⟨o', h1, h2⟩ := r1.present y _ (Track.spoil_get hy)
        have h1 : s.objs y = some o' := h1
        have : o' = o := by unfold Store.obj at eo; rw [h1] at eo; injection eo
        subst this
        have h3 := h2.reown hq.own
        have r2 := r1.put (x := x) (a := { a.spoil p.owns with owns := p.owns })
          (by show (a.spoil p.owns).uses < _; rw [Know.spoil_uses]; exact Nat.lt_succ_of_lt (r.lt y a hy))
          (Nat.lt_succ_of_lt (r.ownLt x p hx)) h3
        exact r2
  | moveNew x y =>
    obtain ⟨a, hy⟩ := Option.ne_none_iff_exists'.1 hf.2
    obtain ⟨o, eo, ho⟩ := r.get hy
    refine ⟨_, cmd_moveNew eo, ?_⟩
    rw [show T.step c.blk.width.bits (.moveNew x y) =
        ((T.put y (some ⟨[], false, a.uses, T.next⟩)).put x (some a)).fresh by
      show (match T.objs y with | none => T | some a => _) = _
      rw [hy]]
    have r1 := r.skip.put (x := y) (a := ⟨[], false, a.uses, T.next⟩)
      (Nat.lt_succ_of_lt (r.lt y a hy)) (Nat.lt_succ_self _) (ho.movedFrom hn)
    have r2 := r1.put (x := x) (Nat.lt_succ_of_lt (r.lt y a hy)) (Nat.lt_succ_of_lt (r.ownLt y a hy)) ho
    exact r2
  | moveAsg x y =>
    obtain ⟨p, hx⟩ := Option.ne_none_iff_exists'.1 hf.1
    obtain ⟨a, hy⟩ := Option.ne_none_iff_exists'.1 hf.2
    obtain ⟨q, eq, hq⟩ := r.get hx
    obtain ⟨o, eo, ho⟩ := r.get hy
    have step : T.step c.blk.width.bits (.moveAsg x y) =
      if x = y then ((T.spoil p.owns).put x (some ⟨[], false, a.uses, T.next⟩)).fresh else
      (((T.spoil p.owns).put y (some ⟨[], false, a.uses, T.next⟩)).put x (some (a.spoil p.owns))).fresh := by
      show (match T.objs x, T.objs y with | some p, some a => _ | _, _ => T) = _
      rw [hx, hy]
    rw [step]
    have r1 := (r.spoil (h' := fset s.heap q.own Mem.nothing) (b := p.owns)
      (fun j hj => fset_other _ _ (by rw [hq.own]; exact hj))).skip
    obtain ⟨o', h1, h2⟩ := r1.present y _ (Track.spoil_get hy)
    have h1 : s.objs y = some o' := h1
    have : o' = o := by unfold Store.obj at eo; rw [h1] at eo; injection eo
    subst this
    have h3 := h2.movedFrom hn
    rw [Know.spoil_uses] at h3
    by_cases hxy : x = y
    · subst hxy
      obtain rfl : q = o' := by rw [eq] at eo; injection eo
      refine ⟨_, cmd_moveAsg_self eq, ?_⟩
      rw [if_pos rfl]
      have r2 := r1.put (x := x) (a := ⟨[], false, a.uses, T.next⟩) (Nat.lt_succ_of_lt (r.lt x a hy)) (Nat.lt_succ_self _) h3
      exact r2
    · refine ⟨_, cmd_moveAsg eq eo hxy, ?_⟩
      rw [if_neg hxy]
      have r2 := r1.put (x := y) (a := ⟨[], false, a.uses, T.next⟩) (Nat.lt_succ_of_lt (r.lt y a hy)) (Nat.lt_succ_self _) h3
      have r3 := r2.put (x := x) (by rw [Know.spoil_uses]; exact Nat.lt_succ_of_lt (r.lt y a hy))
        (by rw [Know.spoil_owns]; exact Nat.lt_succ_of_lt (r.ownLt y a hy)) h2
      exact r3

theorem StoreRel.prog {c : Config} (hs : c.b.strictAlign = false) (os : List Cmd) :
    ∀ {s : Store} {T : Track}, StoreRel c s T → T.AllFit c os → T.AllSafe c.blk.width.bits os →
    ∃ s', c.prog s os = ok s' ∧ StoreRel c s' (T.steps c.blk.width.bits os) := by
  induction os with
  | nil => intro s T r _ _; exact ⟨s, rfl, r⟩
  | cons o os ih =>
    intro s T r hf hg
    obtain ⟨s1, e1, r1⟩ := r.cmd hs hf.1 hg.1
    obtain ⟨s2, e2, r2⟩ := ih r1 hf.2 hg.2
    refine ⟨s2, ?_, r2⟩
    unfold Config.prog
    rw [e1, ok_bind]; exact e2

end MRS
