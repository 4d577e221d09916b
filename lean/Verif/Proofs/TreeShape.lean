import Verif.Proofs.TreeSpec

/-!
# Updates and sums never fault, whatever the counters are

Which accesses `update` and `sum` make depends only on the size and address of the buffer and on the
numbers of nodes per level, not on the counters; so they succeed on every tree that has the shape of a
tree for which they succeed.
-/

set_option autoImplicit false

namespace MRS
open Outcome Spec

/-- Same size and address, and the same `H` numbers at the front. -/
structure Like (H : Nat) (m m' : Mem) : Prop where
  addr : m'.addr = m.addr
  size : m'.size = m.size
  hdr : ∀ l, l < H → rd m' (l * 4) 4 = rd m (l * 4) 4

theorem Like.refl (H : Nat) (m : Mem) : Like H m m := ⟨rfl, rfl, fun _ _ => rfl⟩

theorem Like.symm {H : Nat} {m m' : Mem} (h : Like H m m') : Like H m' m :=
  ⟨h.addr.symm, h.size.symm, fun l hl => (h.hdr l hl).symm⟩

theorem Like.trans {H : Nat} {m m' m'' : Mem} (h : Like H m m') (h' : Like H m' m'') : Like H m m'' :=
  ⟨h'.addr.trans h.addr, h'.size.trans h.size, fun l hl => (h'.hdr l hl).trans (h.hdr l hl)⟩

/-- If `x` succeeds, so does `y`, with related results. -/
def Sim {α : Type} (R : α → α → Prop) (x y : Outcome α) : Prop :=
  ∀ a, x = ok a → ∃ a', y = ok a' ∧ R a a'

theorem Sim.bind {α β : Type} {R : α → α → Prop} {S : β → β → Prop} {x y : Outcome α}
    {f g : α → Outcome β} (h : Sim R x y) (hf : ∀ a a', R a a' → Sim S (f a) (g a')) :
    Sim S (x >>= f) (y >>= g) := by
  intro b hb
  cases x with
  | ok a =>
    obtain ⟨a', e, hr⟩ := h a rfl
    rw [e, ok_bind]
    exact hf a a' hr b hb
  | ub _ => cases hb
  | abort => cases hb

theorem Sim.ok {α : Type} {R : α → α → Prop} {a a' : α} (h : R a a') : Sim R (Outcome.ok a) (Outcome.ok a') :=
  fun b hb => by cases hb; exact ⟨a', rfl, h⟩

theorem Sim.same {α : Type} {x : Outcome α} : Sim Eq x x := fun a h => ⟨a, h, rfl⟩

theorem Sim.ub {α : Type} {R : α → α → Prop} {e : Fault} {y : Outcome α} : Sim R (Outcome.ub e) y :=
  fun _ h => by cases h

/-- Both buffers have the shape of `m0`. -/
def Both (H : Nat) (m0 m m' : Mem) : Prop := Like H m0 m ∧ Like H m0 m'

theorem Both.cross {H : Nat} {m0 m m' : Mem} (h : Both H m0 m m') : Like H m m' := h.1.symm.trans h.2

section
variable {H : Nat} {m0 m m' : Mem} {b : Build}

theorem chk_sim (h : Like H m m') (off len al : Nat) : Sim Eq (chk b m off len al) (chk b m' off len al) := by
  have : chk b m' off len al = chk b m off len al := by unfold chk; rw [h.addr, h.size]
  rw [this]; exact Sim.same

theorem load_sim (h : Like H m m') (off w : Nat) :
    Sim (fun _ _ => True) (load b m off w) (load b m' off w) :=
  Sim.bind (chk_sim h off w w) fun _ _ _ => Sim.ok trivial

theorem wr_like {off w v : Nat} (ho : H * 4 ≤ off) : Like H m (wr m off w v) :=
  ⟨rfl, rfl, fun l hl => rd_wr_disj m (by left; omega)⟩

theorem wrLanes_like {off vb w : Nat} {f : Nat → Nat} (ho : H * 4 ≤ off) :
    Like H m (wrLanes m off vb w f) :=
  ⟨rfl, rfl, fun l hl => (wrLanes_sameOff m off vb w f).rd (by left; omega)⟩

theorem store_sim (h : Both H m0 m m') {off w v v' : Nat} (ho : H * 4 ≤ off) :
    Sim (Both H m0) (store b m off w v) (store b m' off w v') :=
  Sim.bind (chk_sim h.cross off w w) fun _ _ _ =>
    Sim.ok ⟨h.1.trans (wr_like ho), h.2.trans (wr_like ho)⟩

theorem storeVec_sim (h : Both H m0 m m') {off vb w : Nat} {f f' : Nat → Nat} (ho : H * 4 ≤ off) :
    Sim (Both H m0) (storeVec b m off vb w f) (storeVec b m' off vb w f') :=
  Sim.bind (chk_sim h.cross off vb 1) fun _ _ _ =>
    Sim.ok ⟨h.1.trans (wrLanes_like ho), h.2.trans (wrLanes_like ho)⟩

theorem loadVec_sim (h : Like H m m') (off vb al w : Nat) :
    Sim (fun _ _ => True) (loadVec b m off vb al w) (loadVec b m' off vb al w) :=
  Sim.bind (chk_sim h off vb al) fun _ _ _ => Sim.ok trivial

theorem forFrom_sim {body : Nat → Mem → Outcome Mem}
    (hb : ∀ z m m', Both H m0 m m' → Sim (Both H m0) (body z m) (body z m')) (n : Nat) :
    ∀ a m m', Both H m0 m m' → Sim (Both H m0) (forFrom a n body m) (forFrom a n body m') := by
  induction n with
  | zero => intro a m m' h; exact Sim.ok h
  | succ n ih =>
    intro a m m' h
    exact Sim.bind (hb a m m' h) fun _ _ h' => ih (a + 1) _ _ h'

theorem bumpLoop_sim (h : Both H m0 m m') {base w a n : Nat} {sign : Bool} (ho : H * 4 ≤ base) :
    Sim (Both H m0) (bumpLoop b base w a n sign m) (bumpLoop b base w a n sign m') := by
  unfold bumpLoop
  refine forFrom_sim (fun z _ _ h => ?_) n a m m' h
  exact Sim.bind (load_sim h.cross _ _) fun _ _ _ => store_sim h (by omega)

theorem nodeUpdate_sim (h : Both H m0 m m') (c : NodeCfg) {off i : Nat} {sign : Bool} (ho : H * 4 ≤ off) :
    Sim (Both H m0) (nodeUpdate b c m off i sign) (nodeUpdate b c m' off i sign) := by
  have hk : ∀ j, H * 4 ≤ c.keyOff off j := fun j => by unfold NodeCfg.keyOff; omega
  unfold nodeUpdate
  by_cases hi : i = c.fanout
  · rw [if_pos hi, if_pos hi]; exact Sim.ok h
  · rw [if_neg hi, if_neg hi]
    refine Sim.bind (R := Eq) Sim.same fun _ _ _ => ?_
    dsimp only
    by_cases hs : c.simd b = true
    · rw [if_pos hs, if_pos hs]
      refine Sim.bind (R := Eq) Sim.same fun _ _ _ => ?_
      refine Sim.bind (loadVec_sim h.cross _ _ _ _) fun _ _ _ => ?_
      refine Sim.bind (storeVec_sim h ho) fun _ _ h1 => ?_
      refine Sim.bind (R := Eq) Sim.same fun _ _ _ => ?_
      refine Sim.bind (loadVec_sim h1.cross _ _ _ _) fun _ _ _ => ?_
      exact storeVec_sim h1 (hk _)
    · rw [if_neg hs, if_neg hs]
      by_cases hj : i / c.seg < c.num
      · rw [if_pos hj, if_pos hj]
        exact Sim.bind (bumpLoop_sim h ho) fun _ _ h1 => bumpLoop_sim h1 (hk _)
      · rw [if_neg hj, if_neg hj]; exact Sim.ub

theorem nodeSum_sim (h : Like H m m') (c : NodeCfg) (off i : Nat) :
    Sim (fun _ _ => True) (nodeSum b c m off i) (nodeSum b c m' off i) := by
  unfold nodeSum
  refine Sim.bind (R := Eq) Sim.same fun _ _ _ => ?_
  refine Sim.bind (load_sim h _ _) fun _ _ _ => ?_
  refine Sim.bind (load_sim h _ _) fun _ _ _ => ?_
  exact Sim.ok trivial

end

/-- Trees of the same shape, with the numbers of nodes at offset 0 and the nodes behind them. -/
structure LikeTree (H : Nat) (t t' : Tree) : Prop where
  size : t'.size = t.size
  num : t.num = some 0
  num' : t'.num = some 0
  ptr : t.ptr = some (4 * H)
  ptr' : t'.ptr = some (4 * H)
  mem : Like H t.mem t'.mem

section
variable {H : Nat} {t t' : Tree} {b : Build}

theorem LikeTree.self (h : LikeTree H t t') : LikeTree H t t :=
  ⟨rfl, h.num, h.num, h.ptr, h.ptr, Like.refl H _⟩

theorem LikeTree.base (h : LikeTree H t t') : t'.base = t.base := by
  unfold Tree.base; rw [h.ptr, h.ptr']

theorem LikeTree.nn (h : LikeTree H t t') {l : Nat} (hl : l < H) : t'.nn b l = t.nn b l := by
  unfold Tree.nn
  rw [h.num, h.num']
  show load b t'.mem (0 + l * 4) 4 = load b t.mem (0 + l * 4) 4
  unfold load chk
  rw [h.mem.addr, h.mem.size, Nat.zero_add, h.mem.hdr l hl]

/-- Result of `update`: again of the shape of `t`. -/
def UpTo (H : Nat) (t : Tree) (s s' : Tree) : Prop := LikeTree H t s ∧ LikeTree H t s'

theorem upTo_mem (h : LikeTree H t t') {m m' : Mem} (hm : Both H t.mem m m') :
    UpTo H t { t with mem := m } { t' with mem := m' } :=
  ⟨⟨rfl, h.num, h.num, h.ptr, h.ptr, hm.1⟩, ⟨h.size, h.num, h.num', h.ptr, h.ptr', hm.2⟩⟩

/-- Use of `m_ptr`. -/
theorem base_bind {α : Type} {S : α → α → Prop} (h : LikeTree H t t') {f g : Nat → Outcome α}
    (hf : Sim S (f (4 * H)) (g (4 * H))) : Sim S (t.base >>= f) (t'.base >>= g) := by
  have e : t.base = ok (4 * H) := by unfold Tree.base; rw [h.ptr]
  rw [h.base, e, ok_bind, ok_bind]; exact hf

theorem nn_bind {α : Type} {S : α → α → Prop} (h : LikeTree H t t') {l : Nat} (hl : l < H)
    {f g : Nat → Outcome α} (hf : ∀ k, Sim S (f k) (g k)) : Sim S (t.nn b l >>= f) (t'.nn b l >>= g) := by
  rw [h.nn hl]
  exact Sim.bind (R := Eq) Sim.same fun a a' e => by subst e; exact hf a

theorem update_sim (h : LikeTree H t t') (fam : TreeFam) {i : Nat} {sign : Bool} (hH : 1 ≤ H) (hM : H ≤ fam.maxH) :
    Sim (UpTo H t) (fam.update b H t i sign) (fam.update b H t' i sign) := by
  have h0 : Both H t.mem t.mem t'.mem := ⟨Like.refl H _, h.mem⟩
  have go : ∀ {m m' : Mem}, Both H t.mem m m' → Sim (UpTo H t)
      (Outcome.ok { t with mem := m }) (Outcome.ok { t' with mem := m' }) := fun hm => Sim.ok (upTo_mem h hm)
  cases fam with
  | avx2 =>
    have : H = 1 ∨ H = 2 ∨ H = 3 ∨ H = 4 := by
      have : H ≤ 4 := hM
      omega
    show Sim _ (avx2Update b H t i sign) (avx2Update b H t' i sign)
    unfold avx2Update
    rw [h.size]
    refine Sim.bind (R := Eq) Sim.same fun _ _ _ => ?_
    rcases this with rfl | rfl | rfl | rfl
    · refine base_bind h ?_
      refine Sim.bind (nodeUpdate_sim h0 _ (by omega)) fun _ _ h1 => go h1
    · refine base_bind h ?_
      refine Sim.bind (nodeUpdate_sim h0 _ (by omega)) fun _ _ h1 => ?_
      refine Sim.bind (nodeUpdate_sim h1 _ (by omega)) fun _ _ h2 => go h2
    · refine base_bind h ?_
      refine nn_bind h (by decide) fun n1 => ?_
      refine Sim.bind (nodeUpdate_sim h0 _ (by omega)) fun _ _ h1 => ?_
      refine Sim.bind (nodeUpdate_sim h1 _ (by omega)) fun _ _ h2 => ?_
      refine Sim.bind (nodeUpdate_sim h2 _ (by omega)) fun _ _ h3 => go h3
    · refine base_bind h ?_
      refine nn_bind h (by decide) fun n1 => ?_
      refine nn_bind h (by decide) fun n2 => ?_
      refine Sim.bind (nodeUpdate_sim h0 _ (by omega)) fun _ _ h1 => ?_
      refine Sim.bind (nodeUpdate_sim h1 _ (by omega)) fun _ _ h2 => ?_
      refine Sim.bind (nodeUpdate_sim h2 _ (by omega)) fun _ _ h3 => ?_
      refine Sim.bind (nodeUpdate_sim h3 _ (by omega)) fun _ _ h4 => go h4
  | avx512 =>
    have : H = 1 ∨ H = 2 ∨ H = 3 := by
      have : H ≤ 3 := hM
      omega
    show Sim _ (avx512Update b H t i sign) (avx512Update b H t' i sign)
    unfold avx512Update
    rw [h.size]
    refine Sim.bind (R := Eq) Sim.same fun _ _ _ => ?_
    rcases this with rfl | rfl | rfl
    · refine base_bind h ?_
      refine Sim.bind (nodeUpdate_sim h0 _ (by omega)) fun _ _ h1 => go h1
    · refine base_bind h ?_
      refine Sim.bind (nodeUpdate_sim h0 _ (by omega)) fun _ _ h1 => ?_
      refine Sim.bind (nodeUpdate_sim h1 _ (by omega)) fun _ _ h2 => go h2
    · refine base_bind h ?_
      refine nn_bind h (by decide) fun n1 => ?_
      refine Sim.bind (nodeUpdate_sim h0 _ (by omega)) fun _ _ h1 => ?_
      refine Sim.bind (nodeUpdate_sim h1 _ (by omega)) fun _ _ h2 => ?_
      refine Sim.bind (nodeUpdate_sim h2 _ (by omega)) fun _ _ h3 => go h3

theorem sum_sim (h : LikeTree H t t') (fam : TreeFam) {i : Nat} (hH : 1 ≤ H) (hM : H ≤ fam.maxH) :
    Sim (fun _ _ => True) (fam.sum b H t i) (fam.sum b H t' i) := by
  have hm := h.mem
  cases fam with
  | avx2 =>
    have : H = 1 ∨ H = 2 ∨ H = 3 ∨ H = 4 := by
      have : H ≤ 4 := hM
      omega
    show Sim _ (avx2Sum b H t i) (avx2Sum b H t' i)
    unfold avx2Sum
    rw [h.size]
    refine Sim.bind (R := Eq) Sim.same fun _ _ _ => ?_
    rcases this with rfl | rfl | rfl | rfl
    · exact base_bind h (nodeSum_sim hm _ _ _)
    · refine base_bind h ?_
      refine Sim.bind (nodeSum_sim hm _ _ _) fun _ _ _ => ?_
      refine Sim.bind (nodeSum_sim hm _ _ _) fun _ _ _ => Sim.ok trivial
    · refine base_bind h ?_
      refine nn_bind h (by decide) fun n1 => ?_
      refine Sim.bind (nodeSum_sim hm _ _ _) fun _ _ _ => ?_
      refine Sim.bind (nodeSum_sim hm _ _ _) fun _ _ _ => ?_
      refine Sim.bind (nodeSum_sim hm _ _ _) fun _ _ _ => Sim.ok trivial
    · refine base_bind h ?_
      refine nn_bind h (by decide) fun n1 => ?_
      refine nn_bind h (by decide) fun n2 => ?_
      refine Sim.bind (nodeSum_sim hm _ _ _) fun _ _ _ => ?_
      refine Sim.bind (nodeSum_sim hm _ _ _) fun _ _ _ => ?_
      refine Sim.bind (nodeSum_sim hm _ _ _) fun _ _ _ => ?_
      refine Sim.bind (nodeSum_sim hm _ _ _) fun _ _ _ => Sim.ok trivial
  | avx512 =>
    have : H = 1 ∨ H = 2 ∨ H = 3 := by
      have : H ≤ 3 := hM
      omega
    show Sim _ (avx512Sum b H t i) (avx512Sum b H t' i)
    unfold avx512Sum
    rw [h.size]
    refine Sim.bind (R := Eq) Sim.same fun _ _ _ => ?_
    rcases this with rfl | rfl | rfl
    · exact base_bind h (nodeSum_sim hm _ _ _)
    · refine base_bind h ?_
      refine Sim.bind (nodeSum_sim hm _ _ _) fun _ _ _ => ?_
      refine Sim.bind (nodeSum_sim hm _ _ _) fun _ _ _ => Sim.ok trivial
    · refine base_bind h ?_
      refine nn_bind h (by decide) fun n1 => ?_
      refine Sim.bind (nodeSum_sim hm _ _ _) fun _ _ _ => ?_
      refine Sim.bind (nodeSum_sim hm _ _ _) fun _ _ _ => ?_
      refine Sim.bind (nodeSum_sim hm _ _ _) fun _ _ _ => Sim.ok trivial

end

theorem lvlCounts_get (leaf : NodeCfg) (n : Nat) (cs : List NodeCfg) : (lvlCounts leaf n cs).length = cs.length + 1 := by
  induction cs with
  | nil => rfl
  | cons c cs ih => show (lvlCounts leaf n cs).length + 1 = _; rw [ih]; rfl

/-- Two trees over arrays of the same length at the same address have the same shape. -/
theorem TreeRep.like {fam : TreeFam} {b : Build} {H M M' : Nat} {vals vals' : List Nat} {t t' : Tree}
    (h : TreeRep fam b H M vals t) (h' : TreeRep fam b H M' vals' t') (hl : vals'.length = vals.length)
    (ha : t'.mem.addr = t.mem.addr) : LikeTree H t t' := by
  have hc : (fam.cs H).length + 1 = H := by
    have h1 := h.lo
    have h2 := h.hi
    cases fam with
    | avx2 =>
      have : H = 1 ∨ H = 2 ∨ H = 3 ∨ H = 4 := by
        have : H ≤ 4 := h2
        omega
      rcases this with rfl | rfl | rfl | rfl <;> rfl
    | avx512 =>
      have : H = 1 ∨ H = 2 ∨ H = 3 := by
        have : H ≤ 3 := h2
        omega
      rcases this with rfl | rfl | rfl <;> rfl
  have i := h.inv
  have i' := h'.inv
  unfold TreeFam.Inv at i i'
  rw [hl] at i'
  refine ⟨by rw [i.size, i'.size], i.num, i'.num, by rw [i.ptr, hc], by rw [i'.ptr, hc],
    ⟨ha, by rw [i.msize, i'.msize], fun l hlt => ?_⟩⟩
  have hlen : l < (lvlCounts fam.leaf vals.length (fam.cs H)).length := by rw [lvlCounts_get, hc]; exact hlt
  rw [i.hdr l _ (List.getElem?_eq_getElem hlen), i'.hdr l _ (List.getElem?_eq_getElem hlen)]

/-- Buffer and header are those of a tree for `n` counters; the counters may be anything. -/
def Shaped (fam : TreeFam) (b : Build) (H n : Nat) (t : Tree) : Prop :=
  ∃ r, TreeRep fam b H 2 (List.replicate n 1) r ∧ LikeTree H r t

section
variable {fam : TreeFam} {b : Build} {H M addr n : Nat} {vals : List Nat} {t : Tree}

theorem TreeFam.Valid.shaped (h : fam.Valid b H M addr vals) :
    ∃ t, fam.build b H addr vals = Outcome.ok t ∧ TreeRep fam b H M vals t ∧
      Shaped fam b H vals.length t := by
  obtain ⟨t, e, ht, ha⟩ := h.build
  have hv : fam.Valid b H 2 addr (List.replicate vals.length 1) :=
    ⟨by rw [List.length_replicate]; exact h.pos, by rw [List.length_replicate]; exact h.le,
      by rw [List.length_replicate]; exact h.height, by decide,
      fun v hv => by rw [List.eq_of_mem_replicate hv]; decide,
      h.debug.imp_right fun _ => by cases fam <;> decide, h.align⟩
  obtain ⟨r, _, hr, ha'⟩ := hv.build
  exact ⟨t, e, ht, r, hr, hr.like ht (by rw [List.length_replicate]) (by rw [ha, ha'])⟩

theorem Shaped.update (h : Shaped fam b H n t) {i : Nat} (s : Bool) (hi : i < n) :
    ∃ t', fam.update b H t i s = Outcome.ok t' ∧ Shaped fam b H n t' := by
  obtain ⟨r, hr, hl⟩ := h
  have e1 : (List.replicate n 1).getD i 0 = 1 := by
    rw [List.getD_eq_getElem?_getD, List.getElem?_replicate, if_pos hi]; rfl
  obtain ⟨r', e, _⟩ := hr.update (i := i) (s := s) (by rw [List.length_replicate]; exact hi)
    (fun _ => by rw [e1]; exact Nat.le_refl 1) (fun _ => by rw [e1]; exact Nat.le_refl 2)
  obtain ⟨t', e', hu⟩ := update_sim hl fam (i := i) (sign := s) hr.lo hr.hi r' e
  exact ⟨t', e', r, hr, hu.2⟩

theorem Shaped.updates (us : List (Nat × Bool)) : ∀ {t : Tree}, Shaped fam b H n t → (∀ u ∈ us, u.1 < n) →
    ∃ t', fam.updates b H t us = Outcome.ok t' ∧ Shaped fam b H n t' := by
  induction us with
  | nil => intro t h _; exact ⟨t, rfl, h⟩
  | cons u us ih =>
    intro t h hu
    obtain ⟨t1, e1, h1⟩ := h.update u.2 (hu u List.mem_cons_self)
    obtain ⟨t2, e2, h2⟩ := ih h1 fun v hv => hu v (List.mem_cons_of_mem _ hv)
    exact ⟨t2, by unfold TreeFam.updates; rw [e1, ok_bind, e2], h2⟩

theorem Shaped.sum (h : Shaped fam b H n t) {i : Nat} (hi : i < n) : ∃ v, fam.sum b H t i = Outcome.ok v := by
  obtain ⟨r, hr, hl⟩ := h
  obtain ⟨v, e, _⟩ := sum_sim hl fam hr.lo hr.hi _ (hr.sum (i := i) (by rw [List.length_replicate]; exact hi))
  exact ⟨v, e⟩

end

end MRS
