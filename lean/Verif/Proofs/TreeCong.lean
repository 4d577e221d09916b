import Verif.Proofs.TreeShape
import Verif.Proofs.Debug

/-!
# Updates add the same amount to a counter whatever it holds

`update` run on two trees of the same shape changes each stored number of both by the same amount,
modulo the range of that number.
-/

set_option autoImplicit false

namespace MRS
open Outcome Spec

/-- A node of class `c` at `off` stores a number of `w` bytes at `o`. -/
def NodeLane (c : NodeCfg) (off o w : Nat) : Prop :=
  (w = c.sumB ∧ ∃ s, s < c.num ∧ o = c.sumOff off s) ∨ (w = c.keyB ∧ ∃ j, j < c.fanout ∧ o = c.keyOff off j)

/-- The numbers at the offsets `L` have changed by the same amount from `m0` to `m` and from `m0'` to
`m'`. -/
structure Rel (H : Nat) (m0 m0' : Mem) (L : Nat → Nat → Prop) (m m' : Mem) : Prop where
  both : Both H m0 m m'
  par : ∀ o w, L o w → (rd m' o w + rd m0 o w) % 256 ^ w = (rd m o w + rd m0' o w) % 256 ^ w

/-- The number at `o` is one of the array of `cnt` numbers at `base`, or lies outside it. -/
def Apart (base w' cnt o w : Nat) : Prop :=
  (w = w' ∧ ∃ z, z < cnt ∧ o = base + z * w') ∨ o + w ≤ base ∨ base + cnt * w' ≤ o

theorem mod_shift {a a' x y d K : Nat} (h : (a' + x) % K = (a + y) % K) :
    ((a' + d) % K + x) % K = ((a + d) % K + y) % K := by
  rw [Nat.mod_add_mod, Nat.mod_add_mod, Nat.add_right_comm, Nat.add_right_comm a, ← Nat.mod_add_mod (a' + x), h,
    Nat.mod_add_mod]

section
variable {H : Nat} {m0 m0' m m' m1 m1' : Mem} {L : Nat → Nat → Prop} {b : Build}

theorem Rel.start (h : Like H m0 m0') : Rel H m0 m0' L m0 m0' :=
  ⟨⟨Like.refl H _, h⟩, fun o w _ => by rw [Nat.add_comm]⟩

theorem Rel.step (h : Rel H m0 m0' L m m') (hb : Both H m0 m1 m1')
    (hs : ∀ o w, L o w → ∃ d, rd m1 o w = (rd m o w + d) % 256 ^ w ∧ rd m1' o w = (rd m' o w + d) % 256 ^ w) :
    Rel H m0 m0' L m1 m1' := by
  refine ⟨hb, fun o w hl => ?_⟩
  obtain ⟨d, e, e'⟩ := hs o w hl
  rw [e, e']
  exact mod_shift (h.par o w hl)

theorem same_step {o w : Nat} (e : rd m1 o w = rd m o w) (e' : rd m1' o w = rd m' o w) :
    ∃ d, rd m1 o w = (rd m o w + d) % 256 ^ w ∧ rd m1' o w = (rd m' o w + d) % 256 ^ w :=
  ⟨0, by rw [Nat.add_zero, Nat.mod_eq_of_lt (rd_lt m o w), e],
    by rw [Nat.add_zero, Nat.mod_eq_of_lt (rd_lt m' o w), e']⟩

theorem storeVec_rel (h : Rel H m0 m0' L m m') {base vb w' cnt : Nat} (s : Nat → Nat) (ho : H * 4 ≤ base)
    (hw : 0 < w') (hv : vb = cnt * w') (ha : ∀ o w, L o w → Apart base w' cnt o w) :
    Sim (Rel H m0 m0' L) (storeVec b m base vb w' (addLanes w' (fun z => rd m (base + z * w') w') s))
      (storeVec b m' base vb w' (addLanes w' (fun z => rd m' (base + z * w') w') s)) := by
  refine Sim.bind (chk_sim h.both.cross base vb 1) fun _ _ _ => ?_
  refine Sim.ok (h.step ⟨h.both.1.trans (wrLanes_like ho), h.both.2.trans (wrLanes_like ho)⟩ fun o w hl => ?_)
  rcases ha o w hl with ⟨rfl, z, hz, rfl⟩ | hd | hd
  · have hz' : z * w + w ≤ vb := by
      have := Nat.mul_le_mul_right w (show z + 1 ≤ cnt from hz)
      rw [Nat.succ_mul] at this
      omega
    exact ⟨s z, by rw [rd_wrLanes hw hz']; exact Nat.mod_mod _ _, by rw [rd_wrLanes hw hz']; exact Nat.mod_mod _ _⟩
  · exact same_step ((wrLanes_sameOff m base vb w' _).rd (.inl hd)) ((wrLanes_sameOff m' base vb w' _).rd (.inl hd))
  · exact same_step ((wrLanes_sameOff m base vb w' _).rd (.inr (by omega)))
      ((wrLanes_sameOff m' base vb w' _).rd (.inr (by omega)))

theorem loadVec_rel (h : Like H m m') (off vb al w : Nat) :
    Sim (fun f f' => f = (fun z => rd m (off + z * w) w) ∧ f' = (fun z => rd m' (off + z * w) w))
      (loadVec b m off vb al w) (loadVec b m' off vb al w) :=
  Sim.bind (chk_sim h off vb al) fun _ _ _ => Sim.ok ⟨rfl, rfl⟩

theorem load_rel (h : Like H m m') (off w : Nat) :
    Sim (fun x x' => x = rd m off w ∧ x' = rd m' off w) (load b m off w) (load b m' off w) :=
  Sim.bind (chk_sim h off w w) fun _ _ _ => Sim.ok ⟨rfl, rfl⟩

theorem forFrom_rel {R : Mem → Mem → Prop} {body : Nat → Mem → Outcome Mem} (n : Nat) :
    ∀ a m m', (∀ z, a ≤ z → z < a + n → ∀ m m', R m m' → Sim R (body z m) (body z m')) → R m m' →
      Sim R (forFrom a n body m) (forFrom a n body m') := by
  induction n with
  | zero => intro a m m' _ h; exact Sim.ok h
  | succ n ih =>
    intro a m m' hb h
    exact Sim.bind (hb a (Nat.le_refl a) (by omega) m m' h) fun _ _ h' =>
      ih (a + 1) _ _ (fun z h1 h2 => hb z (by omega) (by omega)) h'

theorem bumpLoop_rel (h : Rel H m0 m0' L m m') {base w' a n cnt : Nat} {sign : Bool} (ho : H * 4 ≤ base)
    (hn : a + n ≤ cnt) (ha : ∀ o w, L o w → Apart base w' cnt o w) :
    Sim (Rel H m0 m0' L) (bumpLoop b base w' a n sign m) (bumpLoop b base w' a n sign m') := by
  unfold bumpLoop
  refine forFrom_rel n a m m' (fun z _ hz m m' h => ?_) h
  refine Sim.bind (load_rel h.both.cross _ _) fun x x' hx => ?_
  obtain ⟨rfl, rfl⟩ := hx
  refine Sim.bind (chk_sim h.both.cross _ _ _) fun _ _ _ => ?_
  refine Sim.ok (h.step ⟨h.both.1.trans (wr_like (by omega)), h.both.2.trans (wr_like (by omega))⟩ fun o w hl => ?_)
  rcases ha o w hl with ⟨rfl, y, hy, rfl⟩ | hd | hd
  · by_cases e : y = z
    · subst e
      exact ⟨if sign then 256 ^ w - 1 else 1, by rw [rd_wr_same]; exact Nat.mod_mod _ _,
        by rw [rd_wr_same]; exact Nat.mod_mod _ _⟩
    · have hd : base + y * w + w ≤ base + z * w ∨ base + z * w + w ≤ base + y * w := by
        by_cases hlt : y < z
        · have := Nat.mul_le_mul_right w (show y + 1 ≤ z from hlt)
          rw [Nat.succ_mul] at this
          exact .inl (by omega)
        · have := Nat.mul_le_mul_right w (show z + 1 ≤ y by omega)
          rw [Nat.succ_mul] at this
          exact .inr (by omega)
      exact same_step (rd_wr_disj m hd) (rd_wr_disj m' hd)
  · exact same_step (rd_wr_disj m (.inl (by omega))) (rd_wr_disj m' (.inl (by omega)))
  · have : z * w' + w' ≤ cnt * w' := by
      have := Nat.mul_le_mul_right w' (show z + 1 ≤ cnt by omega)
      rw [Nat.succ_mul] at this
      exact this
    exact same_step (rd_wr_disj m (.inr (by omega))) (rd_wr_disj m' (.inr (by omega)))

/-- The number at `o` belongs to the node at `off`, or lies outside it. -/
def Off (c : NodeCfg) (off o w : Nat) : Prop := NodeLane c off o w ∨ o + w ≤ off ∨ off + c.bytes ≤ o

theorem Off.sums {c : NodeCfg} (wf : c.WF) {off o w : Nat} (h : Off c off o w) : Apart off c.sumB c.num o w := by
  have hb := wf.bytes_eq
  rcases h with (⟨e, s, hs, ho⟩ | ⟨e, j, hj, ho⟩) | hd | hd
  · exact .inl ⟨e, s, hs, ho⟩
  · exact .inr (.inr (by rw [ho]; unfold NodeCfg.keyOff; omega))
  · exact .inr (.inl hd)
  · exact .inr (.inr (by omega))

theorem Off.keys {c : NodeCfg} (wf : c.WF) {off o w k : Nat} (hk : k < c.num) (h : Off c off o w) :
    Apart (c.keyOff off (k * c.seg)) c.keyB c.seg o w := by
  have hb := wf.bytes_eq
  have hseg : (k * c.seg + c.seg) ≤ c.fanout := by
    have := Nat.mul_le_mul_right c.seg (show k + 1 ≤ c.num from hk)
    rw [Nat.succ_mul] at this
    rw [wf.fanout_eq]; exact this
  have hse : (k * c.seg + c.seg) * c.keyB = k * c.seg * c.keyB + c.seg * c.keyB := Nat.add_mul _ _ _
  have hle := Nat.mul_le_mul_right c.keyB hseg
  rcases h with (⟨e, s, hs, ho⟩ | ⟨e, j, hj, ho⟩) | hd | hd
  · refine .inr (.inl ?_)
    have := Nat.mul_le_mul_right c.sumB (show s + 1 ≤ c.num from hs)
    rw [Nat.succ_mul] at this
    rw [ho, e]; unfold NodeCfg.keyOff NodeCfg.sumOff; omega
  · rw [ho, e]
    unfold NodeCfg.keyOff Apart
    by_cases h1 : j < k * c.seg
    · have := Nat.mul_le_mul_right c.keyB (show j + 1 ≤ k * c.seg from h1)
      rw [Nat.succ_mul] at this
      exact .inr (.inl (by omega))
    · by_cases h2 : j < k * c.seg + c.seg
      · refine .inl ⟨rfl, j - k * c.seg, by omega, ?_⟩
        have : j * c.keyB = k * c.seg * c.keyB + (j - k * c.seg) * c.keyB := by
          rw [← Nat.add_mul]; congr 1; omega
        omega
      · have := Nat.mul_le_mul_right c.keyB (show k * c.seg + c.seg ≤ j by omega)
        exact .inr (.inr (by omega))
  · exact .inr (.inl (by unfold NodeCfg.keyOff; omega))
  · exact .inr (.inr (by unfold NodeCfg.keyOff; omega))

theorem nodeUpdate_rel (h : Rel H m0 m0' L m m') {c : NodeCfg} (wf : c.WF) {off i : Nat} {sign : Bool}
    (ho : H * 4 ≤ off) (hi : i ≤ c.fanout) (hl : ∀ o w, L o w → Off c off o w) :
    Sim (Rel H m0 m0' L) (nodeUpdate b c m off i sign) (nodeUpdate b c m' off i sign) := by
  have hk : ∀ j, H * 4 ≤ c.keyOff off j := fun j => by unfold NodeCfg.keyOff; omega
  unfold nodeUpdate
  by_cases he : i = c.fanout
  · rw [if_pos he, if_pos he]; exact Sim.ok h
  · have hj : i / c.seg < c.num := wf.seg_lt (by omega)
    rw [if_neg he, if_neg he]
    refine Sim.bind (R := Eq) Sim.same fun _ _ _ => ?_
    dsimp only
    by_cases hs : c.simd b = true
    · rw [if_pos hs, if_pos hs]
      refine Sim.bind (R := Eq) Sim.same fun s1 s1' e1 => ?_
      subst e1
      refine Sim.bind (loadVec_rel h.both.cross _ _ _ _) fun v v' hv => ?_
      obtain ⟨rfl, rfl⟩ := hv
      refine Sim.bind (storeVec_rel h s1 ho wf.sumB_pos wf.vec_sum fun o w hlo => (hl o w hlo).sums wf)
        fun _ _ h1 => ?_
      refine Sim.bind (R := Eq) Sim.same fun s2 s2' e2 => ?_
      subst e2
      refine Sim.bind (loadVec_rel h1.both.cross _ _ _ _) fun v v' hv => ?_
      obtain ⟨rfl, rfl⟩ := hv
      exact storeVec_rel h1 s2 (hk _) wf.keyB_pos wf.vec_key fun o w hlo => (hl o w hlo).keys wf hj
    · rw [if_neg hs, if_neg hs, if_pos hj, if_pos hj]
      refine Sim.bind (bumpLoop_rel h ho (cnt := c.num) (by omega) fun o w hlo => (hl o w hlo).sums wf)
        fun _ _ h1 => ?_
      have := Nat.mod_lt i wf.seg_pos
      exact bumpLoop_rel h1 (hk _) (cnt := c.seg) (by omega) fun o w hlo => (hl o w hlo).keys wf hj

end

/-! ## The nodes of a tree -/

/-- A node of class `c` starts at offset `p`; levels root first, from offset `off`. -/
def LvlNode (leaf : NodeCfg) (n : Nat) : Nat → List NodeCfg → NodeCfg → Nat → Prop
  | off, [], c', p => c' = leaf ∧ ∃ idx, idx < ceilDiv n leaf.fanout ∧ p = off + idx * leaf.bytes
  | off, c :: cs, c', p => (c' = c ∧ ∃ idx, idx < ceilDiv n (c.fanout * span leaf cs) ∧ p = off + idx * c.bytes) ∨
      LvlNode leaf n (off + ceilDiv n (c.fanout * span leaf cs) * c.bytes) cs c' p

theorem LvlNode.ge {leaf : NodeCfg} {n : Nat} : ∀ {cs : List NodeCfg} {off : Nat} {c : NodeCfg} {p : Nat},
    LvlNode leaf n off cs c p → off ≤ p := by
  intro cs
  induction cs with
  | nil => intro off c p h; obtain ⟨_, idx, _, e⟩ := h; omega
  | cons d cs ih =>
    intro off c p h
    rcases h with ⟨_, idx, _, e⟩ | h
    · omega
    · have := ih h; omega

theorem level_apart {off k k' B : Nat} :
    off + k * B = off + k' * B ∨ off + k * B + B ≤ off + k' * B ∨ off + k' * B + B ≤ off + k * B := by
  rcases Nat.lt_trichotomy k k' with h | h | h
  · have := Nat.mul_le_mul_right B (show k + 1 ≤ k' from h)
    rw [Nat.succ_mul] at this
    exact .inr (.inl (by omega))
  · exact .inl (by rw [h])
  · have := Nat.mul_le_mul_right B (show k' + 1 ≤ k from h)
    rw [Nat.succ_mul] at this
    exact .inr (.inr (by omega))

/-- Two nodes are the same or do not overlap. -/
theorem LvlNode.apart {leaf : NodeCfg} {n : Nat} : ∀ {cs : List NodeCfg} {off : Nat} {c c' : NodeCfg} {p p' : Nat},
    LvlNode leaf n off cs c p → LvlNode leaf n off cs c' p' →
      (c = c' ∧ p = p') ∨ p + c.bytes ≤ p' ∨ p' + c'.bytes ≤ p := by
  intro cs
  induction cs with
  | nil =>
    intro off c c' p p' h h'
    obtain ⟨rfl, k, _, rfl⟩ := h
    obtain ⟨rfl, k', _, rfl⟩ := h'
    rcases level_apart (off := off) (k := k) (k' := k') (B := c'.bytes) with e | e | e
    · exact .inl ⟨rfl, e⟩
    · exact .inr (.inl e)
    · exact .inr (.inr e)
  | cons d cs ih =>
    intro off c c' p p' h h'
    have last : ∀ {k q}, k < ceilDiv n (d.fanout * span leaf cs) →
        LvlNode leaf n (off + ceilDiv n (d.fanout * span leaf cs) * d.bytes) cs q p' ∨
        LvlNode leaf n (off + ceilDiv n (d.fanout * span leaf cs) * d.bytes) cs q p →
        off + k * d.bytes + d.bytes ≤ off + ceilDiv n (d.fanout * span leaf cs) * d.bytes := by
      intro k q hk _
      have := Nat.mul_le_mul_right d.bytes (show k + 1 ≤ _ from hk)
      rw [Nat.succ_mul] at this
      omega
    rcases h with ⟨rfl, k, hk, rfl⟩ | h <;> rcases h' with ⟨rfl, k', hk', rfl⟩ | h'
    · rcases level_apart (off := off) (k := k) (k' := k') (B := c'.bytes) with e | e | e
      · exact .inl ⟨rfl, e⟩
      · exact .inr (.inl e)
      · exact .inr (.inr e)
    · have := h'.ge
      have := last hk (.inl h')
      exact .inr (.inl (by omega))
    · have := h.ge
      have := last hk' (.inr h)
      exact .inr (.inr (by omega))
    · exact ih h h'

/-- The numbers stored in the nodes of a tree. -/
def TreeLane (leaf : NodeCfg) (n off : Nat) (cs : List NodeCfg) (o w : Nat) : Prop :=
  ∃ c p, c.WF ∧ LvlNode leaf n off cs c p ∧ NodeLane c p o w

theorem NodeLane.inside {c : NodeCfg} (wf : c.WF) {p o w : Nat} (h : NodeLane c p o w) :
    p ≤ o ∧ o + w ≤ p + c.bytes := by
  rcases h with ⟨e, s, hs, ho⟩ | ⟨e, j, hj, ho⟩
  · have := wf.sum_in (off := p) hs
    have := wf.sum_bytes
    rw [ho, e]
    refine ⟨by unfold NodeCfg.sumOff; omega, by omega⟩
  · have := wf.key_in (off := p) hj
    rw [ho, e]
    refine ⟨by unfold NodeCfg.keyOff; omega, by omega⟩

theorem TreeLane.off {leaf : NodeCfg} {n off : Nat} {cs : List NodeCfg} {o w : Nat} {c : NodeCfg} {p : Nat}
    (h : TreeLane leaf n off cs o w) (hn : LvlNode leaf n off cs c p) : Off c p o w := by
  obtain ⟨c', p', wf, hn', hl⟩ := h
  have hin := hl.inside wf
  rcases hn.apart hn' with ⟨rfl, rfl⟩ | e | e
  · exact .inl hl
  · exact .inr (.inr (by omega))
  · exact .inr (.inl (by omega))

end MRS
