import Verif.Model.Mranisz.Life

/-!
# Who owns which array

The invariant `Inv`: every live array belongs to exactly one pointer of exactly one object.
-/

set_option autoImplicit false

namespace MRS.Mran.Life
open Outcome

/-- The arrays that pointers point to. -/
def ids (ps : List (Option Nat)) : List Nat := ps.filterMap id

theorem mem_ids {ps : List (Option Nat)} {a : Nat} : a ∈ ids ps ↔ some a ∈ ps := by
  unfold ids
  rw [List.mem_filterMap]
  exact ⟨fun ⟨b, h, e⟩ => by cases e; exact h, fun h => ⟨_, h, rfl⟩⟩

theorem ids_append (ps qs : List (Option Nat)) : ids (ps ++ qs) = ids ps ++ ids qs := List.filterMap_append

theorem ids_none (n : Nat) : ids (List.replicate n none) = [] := by
  induction n with
  | zero => rfl
  | succ n ih => rw [List.replicate_succ]; exact ih

theorem ids_some (as : List Nat) : ids (as.map some) = as := by
  induction as with
  | nil => rfl
  | cons a as ih => exact congrArg (a :: ·) ih

/-- The arrays `I` are gone and the new arrays `I'` are there. -/
structure Change (h : Heap) (I I' : List Nat) (h' : Heap) : Prop where
  grow : h.made ≤ h'.made
  nodup : I'.Nodup
  fresh : ∀ a, a ∈ I' → h.made ≤ a ∧ a < h'.made
  live : ∀ a, h'.live a = true ↔ (h.live a = true ∧ a ∉ I) ∨ a ∈ I'

theorem news_fst (n : Nat) : ∀ h : Heap, (h.news n).1 = (List.range' h.made n).map some := by
  induction n with
  | zero => exact fun h => rfl
  | succ n ih =>
    intro h
    show some h.made :: (h.new.news n).1 = _
    rw [ih]
    rfl

theorem news_made (n : Nat) : ∀ h : Heap, (h.news n).2.made = h.made + n := by
  induction n with
  | zero => exact fun h => rfl
  | succ n ih =>
    intro h
    show (h.new.news n).2.made = _
    rw [ih]
    show h.made + 1 + n = _
    omega

theorem news_live (n : Nat) : ∀ (h : Heap) (a : Nat),
    (h.news n).2.live a = true ↔ h.live a = true ∨ h.made ≤ a ∧ a < h.made + n := by
  induction n with
  | zero => exact fun h a => ⟨Or.inl, fun h => h.elim id (fun h => by omega)⟩
  | succ n ih =>
    intro h a
    show (h.new.news n).2.live a = true ↔ _
    rw [ih]
    have e : h.new.live a = true ↔ a = h.made ∨ h.live a = true := by
      show (a == h.made || h.live a) = true ↔ _
      rw [Bool.or_eq_true, beq_iff_eq]
    have e' : h.new.made = h.made + 1 := rfl
    rw [e, e']
    constructor
    · rintro ((h1 | h1) | h1)
      · right; omega
      · left; exact h1
      · right; omega
    · rintro (h1 | h1)
      · left; right; exact h1
      · by_cases h2 : a = h.made
        · left; left; exact h2
        · right; omega

theorem mem_news {h : Heap} {n a : Nat} : a ∈ ids (h.news n).1 ↔ h.made ≤ a ∧ a < h.made + n := by
  rw [news_fst, ids_some, List.mem_range'_1]

theorem change_news (h : Heap) (n : Nat) : Change h [] (ids (h.news n).1) (h.news n).2 := by
  refine ⟨by rw [news_made]; omega, ?_, fun a ha => ?_, fun a => ?_⟩
  · rw [news_fst, ids_some]; exact List.nodup_range'
  · rw [news_made]; exact mem_news.1 ha
  · rw [news_live, mem_news]
    exact ⟨fun h => h.imp (fun h => ⟨h, List.not_mem_nil⟩) id, fun h => h.imp (·.1) id⟩

theorem dels_ok : ∀ (ps : List (Option Nat)) (h : Heap), (ids ps).Nodup → (∀ a, a ∈ ids ps → h.live a = true) →
    ∃ h', h.dels ps = ok h' ∧ h'.made = h.made ∧ ∀ a, h'.live a = true ↔ h.live a = true ∧ a ∉ ids ps := by
  intro ps
  induction ps with
  | nil => exact fun h _ _ => ⟨h, rfl, rfl, fun a => ⟨fun h => ⟨h, List.not_mem_nil⟩, (·.1)⟩⟩
  | cons p ps ih =>
    intro h hn hl
    cases p with
    | none => exact ih h hn hl
    | some b =>
      have e : ids (some b :: ps) = b :: ids ps := rfl
      rw [e] at hn hl ⊢
      rw [List.nodup_cons] at hn
      have hb := hl b List.mem_cons_self
      have hstep : ∀ a, (b : Nat) ≠ a → (a != b && h.live a) = h.live a := fun a hab => by
        rw [bne_iff_ne.2 (fun h => hab h.symm), Bool.true_and]
      obtain ⟨h', e1, e2, e3⟩ := ih ⟨h.made, fun a => a != b && h.live a⟩ hn.2 (fun a ha => by
        show (a != b && h.live a) = true
        rw [hstep a (fun e => hn.1 (e ▸ ha))]
        exact hl a (List.mem_cons_of_mem _ ha))
      refine ⟨h', ?_, e2, fun a => ?_⟩
      · show (h.del (some b) >>= fun h => h.dels ps) = _
        have : h.del (some b) = ok ⟨h.made, fun a => a != b && h.live a⟩ := if_pos hb
        rw [this, ok_bind]
        exact e1
      · rw [e3]
        show (a != b && h.live a) = true ∧ _ ↔ _
        rw [Bool.and_eq_true, bne_iff_ne, List.mem_cons]
        constructor
        · rintro ⟨⟨h1, h2⟩, h3⟩
          exact ⟨h2, fun h => h.elim h1 h3⟩
        · rintro ⟨h2, h3⟩
          exact ⟨⟨fun h => h3 (Or.inl h), h2⟩, fun h => h3 (Or.inr h)⟩

theorem change_dels {ps : List (Option Nat)} {h : Heap} (hn : (ids ps).Nodup)
    (hl : ∀ a, a ∈ ids ps → h.live a = true) : ∃ h', h.dels ps = ok h' ∧ Change h (ids ps) [] h' := by
  obtain ⟨h', e1, e2, e3⟩ := dels_ok ps h hn hl
  exact ⟨h', e1, by omega, List.nodup_nil, fun a ha => absurd ha List.not_mem_nil, fun a => by
    rw [e3]; exact ⟨Or.inl, fun h => h.elim id (fun h => absurd h List.not_mem_nil)⟩⟩

theorem dels_bad {b : Nat} : ∀ {ps : List (Option Nat)} {h : Heap}, (ids ps).Nodup → b ∈ ids ps →
    h.live b = false → h.dels ps = ub .oob := by
  intro ps
  induction ps with
  | nil => exact fun _ h _ => absurd h List.not_mem_nil
  | cons p ps ih =>
    intro h hn hb hl
    cases p with
    | none => exact ih hn hb hl
    | some c =>
      have e : ids (some c :: ps) = c :: ids ps := rfl
      rw [e] at hn hb
      rw [List.nodup_cons] at hn
      show (h.del (some c) >>= fun h => h.dels ps) = _
      by_cases hc : h.live c = true
      · have : h.del (some c) = ok ⟨h.made, fun a => a != c && h.live a⟩ := if_pos hc
        rw [this, ok_bind]
        have hbc : b ≠ c := fun e => by rw [e, hc] at hl; cases hl
        refine ih hn.2 ((List.mem_cons.1 hb).resolve_left hbc) ?_
        show (b != c && h.live b) = false
        rw [hl, Bool.and_false]
      · have : h.del (some c) = ub .oob := if_neg hc
        rw [this]
        rfl

/-- Only arrays that were made are live. -/
def Sane (h : Heap) : Prop := ∀ a, h.live a = true → a < h.made

theorem Change.sane {h h' : Heap} {I I' : List Nat} (c : Change h I I' h') (hs : Sane h) : Sane h' := by
  intro a ha
  rcases (c.live a).1 ha with h1 | h1
  · exact Nat.lt_of_lt_of_le (hs a h1.1) c.grow
  · exact (c.fresh a h1).2

theorem Change.trans {h h₁ h₂ : Heap} {I I' : List Nat} (c : Change h I [] h₁) (d : Change h₁ [] I' h₂) :
    Change h I I' h₂ := by
  refine ⟨Nat.le_trans c.grow d.grow, d.nodup, fun a ha => ⟨Nat.le_trans c.grow (d.fresh a ha).1, (d.fresh a ha).2⟩,
    fun a => ?_⟩
  rw [d.live, c.live]
  constructor
  · rintro (⟨h1 | h1, -⟩ | h1)
    · exact Or.inl h1
    · exact absurd h1 List.not_mem_nil
    · exact Or.inr h1
  · rintro (h1 | h1)
    · exact Or.inl ⟨Or.inl h1, List.not_mem_nil⟩
    · exact Or.inr h1

theorem Change.add {h h₁ h₂ : Heap} {I I₁ I₂ : List Nat} (c : Change h I I₁ h₁) (d : Change h₁ [] I₂ h₂) :
    Change h I (I₂ ++ I₁) h₂ := by
  refine ⟨Nat.le_trans c.grow d.grow, ?_, fun a ha => ?_, fun a => ?_⟩
  · refine List.nodup_append.2 ⟨d.nodup, c.nodup, fun a ha b hb e => ?_⟩
    subst e
    have := (d.fresh a ha).1
    have := (c.fresh a hb).2
    omega
  · rcases List.mem_append.1 ha with h1 | h1
    · exact ⟨Nat.le_trans c.grow (d.fresh a h1).1, (d.fresh a h1).2⟩
    · exact ⟨(c.fresh a h1).1, Nat.lt_of_lt_of_le (c.fresh a h1).2 d.grow⟩
  · rw [d.live, c.live, List.mem_append]
    constructor
    · rintro (⟨h1 | h1, -⟩ | h1)
      · exact Or.inl h1
      · exact Or.inr (Or.inr h1)
      · exact Or.inr (Or.inl h1)
    · rintro (h1 | h1 | h1)
      · exact Or.inl ⟨Or.inl h1, List.not_mem_nil⟩
      · exact Or.inr h1
      · exact Or.inl ⟨Or.inr h1, List.not_mem_nil⟩

/-- Temporary arrays in between leave no trace. -/
theorem Change.drop {h h₁ h₂ h₃ h₄ : Heap} {I I₁ T I₂ : List Nat} (hs : Sane h) (c : Change h I I₁ h₁)
    (t : Change h₁ [] T h₂) (d : Change h₂ [] I₂ h₃) (e : Change h₃ T [] h₄) : Change h I (I₂ ++ I₁) h₄ := by
  have a := (c.add t).add d
  refine ⟨Nat.le_trans a.grow e.grow, ?_, fun x hx => ?_, fun x => ?_⟩
  · refine List.nodup_append.2 ⟨d.nodup, c.nodup, fun x hx b hb e => ?_⟩
    subst e
    have := (d.fresh x hx).1
    have := (c.fresh x hb).2
    have := t.grow
    omega
  · have := a.fresh x (by
      rcases List.mem_append.1 hx with h1 | h1
      · exact List.mem_append_left _ h1
      · exact List.mem_append_right _ (List.mem_append_right _ h1))
    exact ⟨this.1, Nat.lt_of_lt_of_le this.2 e.grow⟩
  · rw [e.live, a.live, List.mem_append, List.mem_append, List.mem_append]
    constructor
    · rintro (⟨h1 | h1 | h1 | h1, h2⟩ | h1)
      · exact Or.inl h1
      · exact Or.inr (Or.inl h1)
      · exact absurd h1 h2
      · exact Or.inr (Or.inr h1)
      · exact absurd h1 List.not_mem_nil
    · rintro (h1 | h1 | h1)
      · refine Or.inl ⟨Or.inl h1, fun h2 => ?_⟩
        have := (t.fresh x h2).1
        have := hs x h1.1
        have := c.grow
        omega
      · refine Or.inl ⟨Or.inr (Or.inl h1), fun h2 => ?_⟩
        have := (t.fresh x h2).2
        have := (d.fresh x h1).1
        omega
      · refine Or.inl ⟨Or.inr (Or.inr (Or.inr h1)), fun h2 => ?_⟩
        have := (t.fresh x h2).1
        have := (c.fresh x h1).2
        omega

/-! ## The functions -/

variable {K : Kind}

/-- The pointers an object has. -/
def Kind.slots (K : Kind) : Nat := K.arrays + K.buffer.toNat

theorem init_spec (h : Heap) : Change h [] (ids (initObj K h).1.ptrs) (initObj K h).2 ∧ (initObj K h).1.val = none ∧
    (initObj K h).1.ptrs.length = K.slots ∧ ids ((initObj K h).1.ptrs.drop K.arrays) = ids (initObj K h).1.ptrs ∧
    (ids (initObj K h).1.ptrs).length = K.buffer.toNat := by
  unfold initObj Kind.slots
  cases hb : K.buffer with
  | true =>
    rw [if_pos rfl]
    have e : ids (List.replicate K.arrays none ++ (h.news 1).1) = ids (h.news 1).1 := by
      rw [ids_append, ids_none]; rfl
    refine ⟨?_, rfl, ?_, ?_, ?_⟩
    · show Change h [] (ids (List.replicate K.arrays none ++ (h.news 1).1)) _
      rw [e]; exact change_news h 1
    · rw [List.length_append, List.length_replicate]; rfl
    · show ids (List.drop K.arrays (List.replicate K.arrays none ++ (h.news 1).1)) = _
      rw [List.drop_left' (List.length_replicate), e]
    · show (ids (List.replicate K.arrays none ++ (h.news 1).1)).length = _
      rw [e]; rfl
  | false =>
    rw [if_neg (by decide)]
    refine ⟨?_, rfl, List.length_replicate, ?_, ?_⟩
    · show Change h [] (ids (List.replicate K.arrays none)) h
      rw [ids_none]
      exact ⟨Nat.le_refl _, List.nodup_nil, fun a ha => absurd ha List.not_mem_nil,
        fun a => ⟨fun h => Or.inl ⟨h, List.not_mem_nil⟩, fun h => h.elim (·.1) (fun h => absurd h List.not_mem_nil)⟩⟩
    · show ids (List.drop K.arrays (List.replicate K.arrays none)) = ids (List.replicate K.arrays none)
      rw [List.drop_replicate, ids_none, ids_none]
    · show (ids (List.replicate K.arrays none)).length = _
      rw [ids_none]; rfl

/-- The pointers of an object point to different live arrays. -/
structure Owns (ps : List (Option Nat)) (h : Heap) : Prop where
  nodup : (ids ps).Nodup
  live : ∀ a, a ∈ ids ps → h.live a = true

theorem free_spec {o : Obj K.V} {h : Heap} (ho : Owns o.ptrs h) : ∃ o' h', free K o h = ok (o', h') ∧
    Change h (ids o.ptrs) (ids o'.ptrs) h' ∧ o'.val = none ∧ o'.ptrs.length = K.slots ∧
    ids (o'.ptrs.drop K.arrays) = ids o'.ptrs := by
  obtain ⟨h', e, c⟩ := change_dels ho.nodup ho.live
  obtain ⟨i1, i2, i3, i4, -⟩ := init_spec (K := K) h'
  refine ⟨_, _, ?_, c.trans i1, i2, i3, i4⟩
  show (h.dels o.ptrs >>= fun h => ok (initObj K h)) = _
  rw [e, ok_bind]

theorem fill_spec {o : Obj K.V} {n : Nat} {h : Heap} {v : K.V} (hn : n ≤ K.arrays)
    (hd : ids (o.ptrs.drop K.arrays) = ids o.ptrs) (hl : o.ptrs.length = K.slots) :
    ids (fill K o n h v).1.ptrs = ids (h.news n).1 ++ ids o.ptrs ∧ (fill K o n h v).1.ptrs.length = K.slots := by
  refine ⟨?_, ?_⟩
  · show ids ((h.news n).1 ++ List.replicate (K.arrays - n) none ++ o.ptrs.drop K.arrays) = _
    rw [ids_append, ids_append, ids_none, List.append_nil, hd]
  · show ((h.news n).1 ++ List.replicate (K.arrays - n) none ++ o.ptrs.drop K.arrays).length = _
    rw [List.length_append, List.length_append, List.length_replicate, List.length_drop, hl, news_fst, List.length_map,
      List.length_range']
    unfold Kind.slots
    omega

theorem build_spec {o : Obj K.V} {h : Heap} {a : K.A} {v : K.V} (hs : Sane h) (ho : Owns o.ptrs h)
    (hv : K.build a = ok v) : ∃ o' h', build K a o h = ok (o', h') ∧ Change h (ids o.ptrs) (ids o'.ptrs) h' ∧
      o'.val = some v ∧ o'.ptrs.length = K.slots ∧ (0 < K.arrays → ids o'.ptrs ≠ []) := by
  obtain ⟨o₁, h₁, e₁, c₁, -, l₁, d₁⟩ := free_spec ho
  have c₂ := change_news h₁ K.temps
  have c₃ := change_news (h₁.news K.temps).2 K.arrays
  obtain ⟨f₁, f₂⟩ := fill_spec (h := (h₁.news K.temps).2) (v := v) (Nat.le_refl K.arrays) d₁ l₁
  obtain ⟨h₄, e₄, c₄⟩ := change_dels (h := ((h₁.news K.temps).2.news K.arrays).2) c₂.nodup
    (fun a ha => (c₃.live a).2 (Or.inl ⟨(c₂.live a).2 (Or.inr ha), List.not_mem_nil⟩))
  refine ⟨(fill K o₁ K.arrays (h₁.news K.temps).2 v).1, h₄, ?_, ?_, rfl, f₂, fun hp => ?_⟩
  · show (free K o h >>= _) = _
    rw [e₁, ok_bind, hv, ok_bind]
    show (((h₁.news K.temps).2.news K.arrays).2.dels _ >>= _) = _
    rw [e₄]
    rfl
  · rw [f₁]
    exact c₁.drop hs c₂ c₃ c₄
  · rw [f₁, news_fst, ids_some]
    intro e
    have := congrArg List.length e
    rw [List.length_append, List.length_range'] at this
    simp only [List.length_nil] at this
    omega

theorem load_spec {o : Obj K.V} {h : Heap} {f : K.F} {v : K.V} (ho : Owns o.ptrs h)
    (hv : K.load f = ok v) : ∃ o' h', load K f o h = ok (o', h') ∧ Change h (ids o.ptrs) (ids o'.ptrs) h' ∧
      o'.val = some v ∧ o'.ptrs.length = K.slots := by
  obtain ⟨o₁, h₁, e₁, c₁, -, l₁, d₁⟩ := free_spec ho
  obtain ⟨f₁, f₂⟩ := fill_spec (h := h₁) (v := v) (Nat.min_le_right (K.kept v) K.arrays) d₁ l₁
  refine ⟨_, (fill K o₁ (min (K.kept v) K.arrays) h₁ v).2, ?_, ?_, rfl, f₂⟩
  · show (free K o h >>= _) = _
    rw [e₁, ok_bind, hv, ok_bind]
  · rw [f₁]
    exact c₁.add (change_news h₁ _)

/-! ## The invariant -/

/-- Every live array belongs to exactly one pointer of exactly one object. -/
structure Inv (w : World K) : Prop where
  sane : Sane w.heap
  owns : ∀ x o, w.obj x = some o → Owns o.ptrs w.heap
  apart : ∀ x y o p a, w.obj x = some o → w.obj y = some p → a ∈ ids o.ptrs → a ∈ ids p.ptrs → x = y
  owned : ∀ a, w.heap.live a = true → ∃ x o, w.obj x = some o ∧ a ∈ ids o.ptrs
  slots : ∀ x o, w.obj x = some o → o.ptrs.length = K.slots

theorem inv_start : Inv (World.start K) :=
  ⟨fun _ h => absurd h Bool.false_ne_true, fun _ _ h => (by cases h), fun _ _ _ _ _ h => (by cases h),
    fun _ h => absurd h Bool.false_ne_true, fun _ _ h => (by cases h)⟩

theorem set_self (w : World K) (x : Nat) (o : Option (Obj K.V)) (h : Heap) : (w.set x o h).obj x = o := if_pos rfl

theorem set_other {w : World K} {x y : Nat} (o : Option (Obj K.V)) (h : Heap) (hy : y ≠ x) :
    (w.set x o h).obj y = w.obj y := if_neg hy

/-- The arrays of variable `x`. -/
def World.mine (w : World K) (x : Nat) : List Nat := ((w.obj x).map fun o => ids o.ptrs).getD []

theorem Inv.owns_mine {w : World K} (hw : Inv w) {x a : Nat} (ha : a ∈ w.mine x) : w.heap.live a = true := by
  unfold World.mine at ha
  cases ho : w.obj x with
  | none => rw [ho] at ha; exact absurd ha List.not_mem_nil
  | some o => rw [ho] at ha; exact (hw.owns x o ho).live a ha

theorem Inv.apart_mine {w : World K} (hw : Inv w) {x y a : Nat} {o : Obj K.V} (hy : w.obj y = some o)
    (hne : y ≠ x) (ha : a ∈ ids o.ptrs) : a ∉ w.mine x := by
  intro h
  unfold World.mine at h
  cases ho : w.obj x with
  | none => rw [ho] at h; exact absurd h List.not_mem_nil
  | some p => rw [ho] at h; exact hne (hw.apart y x o p a hy ho ha h)

/-- Replacing the arrays of one object. -/
theorem Inv.set_some {w : World K} (hw : Inv w) {x : Nat} {o' : Obj K.V} {h' : Heap}
    (c : Change w.heap (w.mine x) (ids o'.ptrs) h') (hl : o'.ptrs.length = K.slots) : Inv (w.set x (some o') h') := by
  have new : ∀ {y p a}, w.obj y = some p → a ∈ ids p.ptrs → a ∈ ids o'.ptrs → False := fun hy ha hb => by
    have h1 := hw.sane _ ((hw.owns _ _ hy).live _ ha)
    have h2 := (c.fresh _ hb).1
    omega
  refine ⟨c.sane hw.sane, fun y p hy => ?_, fun y z p q a hy hz ha hb => ?_, fun a ha => ?_, fun y p hy => ?_⟩
  · by_cases e : y = x
    · subst e
      rw [set_self] at hy
      cases hy
      exact ⟨c.nodup, fun a ha => (c.live a).2 (Or.inr ha)⟩
    · rw [set_other _ _ e] at hy
      exact ⟨(hw.owns y p hy).nodup, fun a ha => (c.live a).2 (Or.inl ⟨(hw.owns y p hy).live a ha,
        hw.apart_mine hy e ha⟩)⟩
  · by_cases e : y = x
    · by_cases e' : z = x
      · rw [e, e']
      · rw [set_other _ _ e'] at hz
        subst e
        rw [set_self] at hy
        cases hy
        exact (new hz hb ha).elim
    · rw [set_other _ _ e] at hy
      by_cases e' : z = x
      · subst e'
        rw [set_self] at hz
        cases hz
        exact (new hy ha hb).elim
      · rw [set_other _ _ e'] at hz
        exact hw.apart y z p q a hy hz ha hb
  · rcases (c.live a).1 ha with ⟨h1, h2⟩ | h1
    · obtain ⟨y, p, hy, h3⟩ := hw.owned a h1
      have e : y ≠ x := fun e => h2 (by unfold World.mine; rw [← e, hy]; exact h3)
      exact ⟨y, p, by rw [set_other _ _ e]; exact hy, h3⟩
    · exact ⟨x, o', set_self _ _ _ _, h1⟩
  · by_cases e : y = x
    · subst e
      rw [set_self] at hy
      cases hy
      exact hl
    · rw [set_other _ _ e] at hy
      exact hw.slots y p hy

/-- Deleting the arrays of one object. -/
theorem Inv.set_none {w : World K} (hw : Inv w) {x : Nat} {h' : Heap} (c : Change w.heap (w.mine x) [] h') :
    Inv (w.set x none h') := by
  have old : ∀ {y p}, (w.set x none h').obj y = some p → y ≠ x ∧ w.obj y = some p := fun {y p} hy => by
    by_cases e : y = x
    · subst e; rw [set_self] at hy; cases hy
    · rw [set_other _ _ e] at hy; exact ⟨e, hy⟩
  refine ⟨c.sane hw.sane, fun y p hy => ?_, fun y z p q a hy hz ha hb => ?_, fun a ha => ?_, fun y p hy => ?_⟩
  · obtain ⟨e, hy⟩ := old hy
    exact ⟨(hw.owns y p hy).nodup, fun a ha => (c.live a).2 (Or.inl ⟨(hw.owns y p hy).live a ha,
      hw.apart_mine hy e ha⟩)⟩
  · exact hw.apart y z p q a (old hy).2 (old hz).2 ha hb
  · rcases (c.live a).1 ha with ⟨h1, h2⟩ | h1
    · obtain ⟨y, p, hy, h3⟩ := hw.owned a h1
      have e : y ≠ x := fun e => h2 (by unfold World.mine; rw [← e, hy]; exact h3)
      exact ⟨y, p, by rw [set_other _ _ e]; exact hy, h3⟩
    · exact absurd h1 List.not_mem_nil
  · exact hw.slots y p (old hy).2

theorem mine_none {w : World K} {x : Nat} (h : w.obj x = none) : w.mine x = [] := by unfold World.mine; rw [h]; rfl

theorem mine_some {w : World K} {x : Nat} {o : Obj K.V} (h : w.obj x = some o) : w.mine x = ids o.ptrs := by
  unfold World.mine; rw [h]; rfl

/-! ## Steps -/

theorem step_decl {w : World K} (hw : Inv w) {x : Nat} (hx : w.obj x = none) : ∃ o h,
    w.step (.decl x) = ok (w.set x (some o) h) ∧ Inv (w.set x (some o) h) ∧ o.val = none ∧
    (ids o.ptrs).length = K.buffer.toNat := by
  obtain ⟨i1, i2, i3, -, i5⟩ := init_spec (K := K) w.heap
  refine ⟨_, _, ?_, hw.set_some (by rw [mine_none hx]; exact i1) i3, i2, i5⟩
  show (match w.obj x with | none => _ | some _ => _) = _
  rw [hx]

theorem step_build {w : World K} (hw : Inv w) {x : Nat} {a : K.A} {o : Obj K.V} {v : K.V} (hx : w.obj x = some o)
    (hv : K.build a = ok v) : ∃ o' h, w.step (.build x a) = ok (w.set x (some o') h) ∧ Inv (w.set x (some o') h) ∧
    o'.val = some v ∧ (0 < K.arrays → ids o'.ptrs ≠ []) := by
  obtain ⟨o', h, e, c, h1, h2, h3⟩ := build_spec hw.sane (hw.owns x o hx) hv
  refine ⟨o', h, ?_, hw.set_some (by rw [mine_some hx]; exact c) h2, h1, h3⟩
  show (match w.obj x with | none => _ | some _ => _) = _
  rw [hx]
  show (build K a o w.heap >>= _) = _
  rw [e, ok_bind]

theorem step_load {w : World K} (hw : Inv w) {x : Nat} {f : K.F} {o : Obj K.V} {v : K.V} (hx : w.obj x = some o)
    (hv : K.load f = ok v) : ∃ o' h, w.step (.load x f) = ok (w.set x (some o') h) ∧ Inv (w.set x (some o') h) ∧
    o'.val = some v := by
  obtain ⟨o', h, e, c, h1, h2⟩ := load_spec (hw.owns x o hx) hv
  refine ⟨o', h, ?_, hw.set_some (by rw [mine_some hx]; exact c) h2, h1⟩
  show (match w.obj x with | none => _ | some _ => _) = _
  rw [hx]
  show (load K f o w.heap >>= _) = _
  rw [e, ok_bind]

theorem step_free {w : World K} (hw : Inv w) {x : Nat} {o : Obj K.V} (hx : w.obj x = some o) : ∃ o' h,
    w.step (.free x) = ok (w.set x (some o') h) ∧ Inv (w.set x (some o') h) ∧ o'.val = none := by
  obtain ⟨o', h, e, c, h1, h2, -⟩ := free_spec (hw.owns x o hx)
  refine ⟨o', h, ?_, hw.set_some (by rw [mine_some hx]; exact c) h2, h1⟩
  show (match w.obj x with | none => _ | some _ => _) = _
  rw [hx]
  show (free K o w.heap >>= _) = _
  rw [e, ok_bind]

theorem step_kill {w : World K} (hw : Inv w) {x : Nat} {o : Obj K.V} (hx : w.obj x = some o) : ∃ h,
    w.step (.kill x) = ok (w.set x none h) ∧ Inv (w.set x none h) ∧ Change w.heap (ids o.ptrs) [] h := by
  obtain ⟨h, e, c⟩ := change_dels (hw.owns x o hx).nodup (hw.owns x o hx).live
  refine ⟨h, ?_, hw.set_none (by rw [mine_some hx]; exact c), c⟩
  show (match w.obj x with | none => _ | some _ => _) = _
  rw [hx]
  show (w.heap.dels o.ptrs >>= _) = _
  rw [e, ok_bind]

theorem run_append (w : World K) : ∀ cs ds : List (Cmd K), w.run (cs ++ ds) = w.run cs >>= fun w => w.run ds := by
  intro cs
  induction cs generalizing w with
  | nil => exact fun ds => rfl
  | cons c cs ih =>
    intro ds
    show (w.step c >>= fun w => w.run (cs ++ ds)) = (w.step c >>= fun w => w.run cs) >>= fun w => w.run ds
    rw [bind_assoc']
    exact congrArg _ (funext fun w => ih w ds)

theorem ask_ok {w : World K} (hw : Inv w) {x i : Nat} {o : Obj K.V} (hx : w.obj x = some o) :
    w.ask x i = match o.val with | none => ub .nullDeref | some v => K.ask v i := by
  show (match w.obj x with | none => _ | some o => _) = _
  rw [hx]
  show ask K o w.heap i = _
  unfold ask
  cases o.val with
  | none => rfl
  | some v => exact if_pos (List.all_eq_true.2 fun a ha => (hw.owns x o hx).live a ha)

end MRS.Mran.Life
