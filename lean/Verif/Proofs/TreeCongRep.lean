import Verif.Proofs.TreeCongUpdate

/-!
# Trees whose numbers are right modulo their range

`LvlCong` says of every number stored in a tree that it is congruent to a sum of integers, which may be
negative or too large.
-/

set_option autoImplicit false

namespace MRS
open Outcome Spec

/-- Sum of the first `k` integers. -/
def isum (Z : Nat → Int) : Nat → Int
  | 0 => 0
  | k + 1 => isum Z k + Z k

theorem isum_add (Z D : Nat → Int) (k : Nat) : isum (fun j => Z j + D j) k = isum Z k + isum D k := by
  induction k with
  | zero => rfl
  | succ k ih => show isum (fun j => Z j + D j) k + (Z k + D k) = _; rw [ih]; show _ = isum Z k + Z k + (isum D k + D k); omega

theorem isum_cast {Z : Nat → Int} {A : Nat → Nat} {k : Nat} (h : ∀ j, j < k → Z j = (A j : Int)) :
    isum Z k = (psum A k : Int) := by
  induction k with
  | zero => rfl
  | succ k ih =>
    show isum Z k + Z k = ((psum A k + A k : Nat) : Int)
    rw [ih fun j hj => h j (by omega), h k (by omega)]; omega

theorem isum_congr {Z Z' : Nat → Int} {k : Nat} (h : ∀ j, j < k → Z j = Z' j) : isum Z k = isum Z' k := by
  induction k with
  | zero => rfl
  | succ k ih => show isum Z k + Z k = isum Z' k + Z' k; rw [ih fun j hj => h j (by omega), h k (by omega)]

/-- The change of the array made by an update of entry `i`. -/
def unitI (i : Nat) (s : Bool) : Nat → Int := fun j => if j = i then stepI s else 0

theorem updA_unit {A : Nat → Nat} {i : Nat} {s : Bool} (hp : s = true → 1 ≤ A i) (j : Nat) :
    ((updA A i s j : Nat) : Int) = A j + unitI i s j := by
  unfold updA unitI stepI
  by_cases h : j = i
  · subst h
    cases s
    · simp
    · have := hp rfl
      simp; omega
  · rw [if_neg h, if_neg h]; omega

theorem psum_unit {A A1 : Nat → Nat} {D : Nat → Int} (h : ∀ j, (A1 j : Int) = A j + D j) (k : Nat) :
    (psum A1 k : Int) = psum A k + isum D k := by
  rw [← isum_cast (Z := fun j => (A1 j : Int)) fun _ _ => rfl, ← isum_cast (Z := fun j => (A j : Int)) fun _ _ => rfl,
    ← isum_add]
  exact isum_congr fun j _ => h j

/-- Every number of the node is congruent to the one that the prefix sums `S` require. -/
structure NodeCong (c : NodeCfg) (m : Mem) (off : Nat) (S : Nat → Int) : Prop where
  bnd : off + c.bytes ≤ m.size
  sums : ∀ s, s < c.num → ((256 ^ c.sumB : Nat) : Int) ∣ (rd m (c.sumOff off s) c.sumB : Int) - S (s * c.seg)
  keys : ∀ j, j < c.fanout → ((256 ^ c.keyB : Nat) : Int) ∣
    (rd m (c.keyOff off j) c.keyB : Int) - (S (j + 1) - S (c.seg * (j / c.seg)))

/-- Prefix sums of an inner node. -/
def innerI (Z : Nat → Int) (base step k : Nat) : Int := isum Z (base + (k - 1) * step) - isum Z base

/-- Prefix sums of a leaf. -/
def leafI (Z : Nat → Int) (base k : Nat) : Int := isum Z (base + k) - isum Z base

/-- Inner nodes are congruent to the sums of `ZI`, leaves to the sums of `ZL`. -/
def LvlCong (ZI ZL : Nat → Int) (n : Nat) (m : Mem) (leaf : NodeCfg) : Nat → List NodeCfg → Prop
  | off, [] => ∀ idx, idx < ceilDiv n leaf.fanout →
      NodeCong leaf m (off + idx * leaf.bytes) (leafI ZL (idx * leaf.fanout))
  | off, c :: cs => (∀ idx, idx < ceilDiv n (c.fanout * span leaf cs) →
      NodeCong c m (off + idx * c.bytes) (innerI ZI (idx * (c.fanout * span leaf cs)) (span leaf cs))) ∧
      LvlCong ZI ZL n m leaf (off + ceilDiv n (c.fanout * span leaf cs) * c.bytes) cs

theorem dvd_of_mod {a b K : Nat} (h : a % K = b % K) : (K : Int) ∣ (a : Int) - b := by
  refine Int.dvd_of_emod_eq_zero ((Int.emod_eq_emod_iff_emod_sub_eq_zero).1 ?_)
  rw [← Int.natCast_emod, ← Int.natCast_emod, h]

theorem eq_of_dvd {a b K : Nat} (h : (K : Int) ∣ (a : Int) - b) (ha : a < K) (hb : b < K) : a = b := by
  have e := (Int.emod_eq_emod_iff_emod_sub_eq_zero).2 (Int.emod_eq_zero_of_dvd h)
  rw [← Int.natCast_emod, ← Int.natCast_emod, Nat.mod_eq_of_lt ha, Nat.mod_eq_of_lt hb] at e
  exact Int.ofNat.inj e

section
variable {c : NodeCfg} {m m1 r r1 : Mem} {off : Nat} {S D : Nat → Int} {R R1 : Nat → Nat}

theorem seg_le (j : Nat) : c.seg * (j / c.seg) ≤ j := Nat.mul_div_le j c.seg

theorem NodeCong.step (h : NodeCong c m off S) (wf : c.WF) (hr : NodeRep c r off R) (hr1 : NodeRep c r1 off R1)
    (hm : MonoTo R c.fanout) (hm1 : MonoTo R1 c.fanout) (hz : m1.size = m.size)
    (hp : ∀ o w, NodeLane c off o w → (rd m1 o w + rd r o w) % 256 ^ w = (rd r1 o w + rd m o w) % 256 ^ w)
    (hD : ∀ k, k ≤ c.fanout → (R1 k : Int) = R k + D k) : NodeCong c m1 off (fun k => S k + D k) := by
  refine ⟨by rw [hz]; exact h.bnd, fun s hs => ?_, fun j hj => ?_⟩
  · have h1 := dvd_of_mod (hp _ _ (.inl ⟨rfl, s, hs, rfl⟩))
    have h2 := h.sums s hs
    have e1 := hr.sums s hs
    have e2 := hr1.sums s hs
    have e3 := hD (s * c.seg) (by rw [wf.fanout_eq]; exact Nat.mul_le_mul_right _ (by omega))
    have := Int.dvd_add h1 h2
    rw [e1, e2] at this
    refine Int.dvd_trans this ?_
    exact ⟨1, by rw [Int.mul_one]; simp only [Int.natCast_add]; omega⟩
  · have h1 := dvd_of_mod (hp _ _ (.inr ⟨rfl, j, hj, rfl⟩))
    have h2 := h.keys j hj
    have e1 := hr.keys j hj
    have e2 := hr1.keys j hj
    have hs := seg_le (c := c) j
    have e3 := hD (j + 1) (by omega)
    have e4 := hD (c.seg * (j / c.seg)) (by omega)
    have l1 := hm.le (show c.seg * (j / c.seg) ≤ j + 1 by omega) (by omega)
    have l2 := hm1.le (show c.seg * (j / c.seg) ≤ j + 1 by omega) (by omega)
    have := Int.dvd_add h1 h2
    rw [e1, e2] at this
    refine Int.dvd_trans this ?_
    exact ⟨1, by rw [Int.mul_one]; simp only [Int.natCast_add]; omega⟩

theorem NodeCong.of_rep (h : NodeRep c m off R) (hm : MonoTo R c.fanout)
    (wf : c.WF) (hS : ∀ k, k ≤ c.fanout → S k = (R k : Int)) : NodeCong c m off S := by
  refine ⟨h.bnd, fun s hs => ?_, fun j hj => ?_⟩
  · rw [h.sums s hs, hS _ (by rw [wf.fanout_eq]; exact Nat.mul_le_mul_right _ (by omega))]
    exact ⟨0, by omega⟩
  · have hs := seg_le (c := c) j
    have l1 := hm.le (show c.seg * (j / c.seg) ≤ j + 1 by omega) (by omega)
    rw [h.keys j hj, hS _ (by omega), hS _ (by omega)]
    exact ⟨0, by omega⟩

theorem NodeCong.rep (h : NodeCong c m off S) (hm : MonoTo R c.fanout) (wf : c.WF)
    (hS : ∀ k, k ≤ c.fanout → S k = (R k : Int)) (hs : ∀ k, k ≤ c.fanout → R k < 256 ^ c.sumB)
    (hk : ∀ j, j < c.fanout → R (j + 1) - R (c.seg * (j / c.seg)) < 256 ^ c.keyB) : NodeRep c m off R := by
  refine ⟨h.bnd, fun s hss => ?_, fun j hj => ?_⟩
  · have hle : s * c.seg ≤ c.fanout := by rw [wf.fanout_eq]; exact Nat.mul_le_mul_right _ (by omega)
    have h1 := h.sums s hss
    rw [hS _ hle] at h1
    exact eq_of_dvd h1 (rd_lt _ _ _) (hs _ hle)
  · have hsg := seg_le (c := c) j
    have l1 := hm.le (show c.seg * (j / c.seg) ≤ j + 1 by omega) (by omega)
    have h1 := h.keys j hj
    rw [hS _ (by omega), hS _ (by omega)] at h1
    refine eq_of_dvd (b := R (j + 1) - R (c.seg * (j / c.seg))) ?_ (rd_lt _ _ _) (hk j hj)
    rw [Int.ofNat_sub l1]; exact h1

end

/-! ## Padding to whole leaves -/

/-- The smallest multiple of the leaf size that is at least `n`. -/
def padTo (leaf : NodeCfg) (n : Nat) : Nat := ceilDiv n leaf.fanout * leaf.fanout

theorem eq_of_lt_iff {a b : Nat} (h : ∀ i, i < a ↔ i < b) : a = b := by
  apply Nat.le_antisymm
  · exact Nat.le_of_not_lt fun h1 => Nat.lt_irrefl b ((h b).1 h1)
  · exact Nat.le_of_not_lt fun h1 => Nat.lt_irrefl a ((h a).2 h1)

section
variable {leaf : NodeCfg} {n : Nat}

theorem padTo_ceil (hF : 0 < leaf.fanout) {f : Nat} (hf : 0 < f) (hd : leaf.fanout ∣ f) :
    ceilDiv (padTo leaf n) f = ceilDiv n f := by
  obtain ⟨g, rfl⟩ := hd
  refine eq_of_lt_iff fun i => ?_
  rw [ceilDiv_lt_iff hf, ceilDiv_lt_iff hf, show i * (leaf.fanout * g) = i * g * leaf.fanout by
    rw [Nat.mul_comm leaf.fanout g, Nat.mul_assoc]]
  unfold padTo
  rw [Nat.mul_lt_mul_right hF, ceilDiv_lt_iff hF]

theorem le_padTo (hF : 0 < leaf.fanout) : n ≤ padTo leaf n := by
  refine Nat.le_of_not_lt fun h => ?_
  unfold padTo at h
  rw [← ceilDiv_lt_iff hF] at h
  exact Nat.lt_irrefl _ h

theorem span_dvd (cs : List NodeCfg) : leaf.fanout ∣ span leaf cs := by
  induction cs with
  | nil => exact Nat.dvd_refl _
  | cons c cs ih => exact Nat.dvd_trans ih (Nat.dvd_mul_left _ _)

theorem span_pos {cs : List NodeCfg} (hF : 0 < leaf.fanout) (h : ∀ c ∈ cs, 0 < c.fanout) : 0 < span leaf cs := by
  induction cs with
  | nil => exact hF
  | cons c cs ih =>
    exact Nat.mul_pos (h c List.mem_cons_self) (ih fun d hd => h d (List.mem_cons_of_mem _ hd))

theorem pad_level {c : NodeCfg} {cs : List NodeCfg} (hF : 0 < leaf.fanout) (h : ∀ d ∈ c :: cs, 0 < d.fanout) :
    ceilDiv (padTo leaf n) (c.fanout * span leaf cs) = ceilDiv n (c.fanout * span leaf cs) :=
  padTo_ceil hF (Nat.mul_pos (h c List.mem_cons_self) (span_pos hF fun d hd => h d (List.mem_cons_of_mem _ hd)))
    (Nat.dvd_trans (span_dvd cs) (Nat.dvd_mul_left _ _))

theorem pad_counts (hF : 0 < leaf.fanout) {cs : List NodeCfg} (h : ∀ d ∈ cs, 0 < d.fanout) :
    lvlCounts leaf (padTo leaf n) cs = lvlCounts leaf n cs := by
  induction cs with
  | nil => show [_] = [_]; rw [padTo_ceil hF hF (Nat.dvd_refl _)]
  | cons c cs ih =>
    show _ :: _ = _ :: _
    rw [pad_level hF h, ih fun d hd => h d (List.mem_cons_of_mem _ hd)]

theorem pad_bytes (hF : 0 < leaf.fanout) {cs : List NodeCfg} (h : ∀ d ∈ cs, 0 < d.fanout) :
    lvlBytes leaf (padTo leaf n) cs = lvlBytes leaf n cs := by
  induction cs with
  | nil => show _ * _ = _ * _; rw [padTo_ceil hF hF (Nat.dvd_refl _)]
  | cons c cs ih =>
    show _ * _ + _ = _ * _ + _
    rw [pad_level hF h, ih fun d hd => h d (List.mem_cons_of_mem _ hd)]

theorem pad_cong {ZI ZL : Nat → Int} {m : Mem} (hF : 0 < leaf.fanout) {cs : List NodeCfg}
    (h : ∀ d ∈ cs, 0 < d.fanout) : ∀ off, LvlCong ZI ZL (padTo leaf n) m leaf off cs ↔ LvlCong ZI ZL n m leaf off cs := by
  induction cs with
  | nil => intro off; unfold LvlCong; rw [padTo_ceil hF hF (Nat.dvd_refl _)]
  | cons c cs ih =>
    intro off
    unfold LvlCong
    rw [pad_level hF h, ih fun d hd => h d (List.mem_cons_of_mem _ hd)]

end

/-! ## One update -/

theorem leaf_exact {M n : Nat} {A : Nat → Nat} {m : Mem} {leaf : NodeCfg} {off : Nat} (wf : leaf.WF)
    (h : LeafLvl M A n m leaf off) (hn : padTo leaf n = n) {idx : Nat} (hi : idx < ceilDiv n leaf.fanout) :
    NodeRep leaf m (off + idx * leaf.bytes) (fun k => psum A (idx * leaf.fanout + k) - psum A (idx * leaf.fanout)) := by
  obtain ⟨S, hS⟩ := h idx hi
  refine hS.rep.congr wf fun k hk => hS.val k hk ?_
  have := Nat.mul_le_mul_right leaf.fanout (show idx + 1 ≤ ceilDiv n leaf.fanout from hi)
  rw [Nat.succ_mul] at this
  unfold padTo at hn
  omega

theorem psum_shift_mono (A : Nat → Nat) (base F : Nat) : MonoTo (fun k => psum A (base + k) - psum A base) F := by
  intro k _
  have := psum_mono A (show base + k ≤ base + (k + 1) by omega)
  show psum A (base + k) - psum A base ≤ psum A (base + (k + 1)) - psum A base
  omega

theorem shift_unit {A A1 : Nat → Nat} {D : Nat → Int} (h : ∀ j, (A1 j : Int) = A j + D j) (base x : Nat)
    (hx : base ≤ x) : ((psum A1 x - psum A1 base : Nat) : Int) = ((psum A x - psum A base : Nat) : Int)
      + (isum D x - isum D base) := by
  have h1 := psum_unit h x
  have h2 := psum_unit h base
  have l1 := psum_mono A hx
  have l2 := psum_mono A1 hx
  omega

theorem LvlCong.step {ZI ZL D : Nat → Int} {A A1 : Nat → Nat} {M M' n : Nat} {m m1 r r1 : Mem} {leaf : NodeCfg}
    (hD : ∀ j, (A1 j : Int) = A j + D j) (hn : padTo leaf n = n) (hz : m1.size = m.size) (wl : leaf.WF) :
    ∀ {cs : List NodeCfg} {off : Nat}, (∀ c ∈ cs, c.WF) →
      LvlRep M A n r leaf off cs → LvlRep M' A1 n r1 leaf off cs →
      (∀ c p, c.WF → LvlNode leaf n off cs c p → ∀ o w, NodeLane c p o w →
        (rd m1 o w + rd r o w) % 256 ^ w = (rd r1 o w + rd m o w) % 256 ^ w) →
      LvlCong ZI ZL n m leaf off cs →
      LvlCong (fun j => ZI j + D j) (fun j => ZL j + D j) n m1 leaf off cs := by
  intro cs
  induction cs with
  | nil =>
    intro off _ hr hr1 hp h idx hi
    have e := leaf_exact wl hr hn hi
    have e1 := leaf_exact wl hr1 hn hi
    have := (h idx hi).step wl e e1 (psum_shift_mono _ _ _) (psum_shift_mono _ _ _) hz (hp _ _ wl ⟨rfl, idx, hi, rfl⟩)
      (D := leafI D (idx * leaf.fanout)) fun k _ => shift_unit hD _ _ (by omega)
    have e : (fun k => leafI ZL (idx * leaf.fanout) k + leafI D (idx * leaf.fanout) k)
        = leafI (fun j => ZL j + D j) (idx * leaf.fanout) := by
      funext k
      unfold leafI
      rw [isum_add, isum_add]; omega
    rw [← e]; exact this
  | cons c cs ih =>
    intro off hw hr hr1 hp h
    have wc := hw c List.mem_cons_self
    refine ⟨fun idx hi => ?_, ih (fun d hd => hw d (List.mem_cons_of_mem _ hd)) hr.2 hr1.2
      (fun c p hc hl => hp c p hc (.inr hl)) h.2⟩
    have := (h.1 idx hi).step wc (hr.1 idx hi) (hr1.1 idx hi) (innerS_mono _ _ _ _) (innerS_mono _ _ _ _) hz
      (hp _ _ wc (.inl ⟨rfl, idx, hi, rfl⟩)) (D := innerI D (idx * (c.fanout * span leaf cs)) (span leaf cs))
      fun k _ => shift_unit hD _ _ (by omega)
    have e : (fun k => innerI ZI (idx * (c.fanout * span leaf cs)) (span leaf cs) k
          + innerI D (idx * (c.fanout * span leaf cs)) (span leaf cs) k)
        = innerI (fun j => ZI j + D j) (idx * (c.fanout * span leaf cs)) (span leaf cs) := by
      funext k
      unfold innerI
      rw [isum_add, isum_add]; omega
    rw [← e]; exact this

/-! ## From exact to congruent and back -/

/-- The entries of the leaves, including those beyond the end of the array. -/
theorem leaf_full {M n : Nat} {A : Nat → Nat} {m : Mem} {leaf : NodeCfg} {off : Nat} (wf : leaf.WF)
    (h : LeafLvl M A n m leaf off) : ∃ B : Nat → Nat, (∀ j, j < n → B j = A j) ∧ (∀ j, B j ≤ M) ∧
      ∀ idx, idx < ceilDiv n leaf.fanout →
        NodeRep leaf m (off + idx * leaf.bytes) (fun k => psum B (idx * leaf.fanout + k) - psum B (idx * leaf.fanout)) := by
  have hF : 0 < leaf.fanout := by rw [wf.fanout_eq]; exact Nat.mul_pos wf.num_pos wf.seg_pos
  have hx : ∀ idx, ∃ S, idx < ceilDiv n leaf.fanout → LeafRep M A n m leaf (off + idx * leaf.bytes) (idx * leaf.fanout) S :=
    fun idx => by
      by_cases hi : idx < ceilDiv n leaf.fanout
      · obtain ⟨S, hS⟩ := h idx hi
        exact ⟨S, fun _ => hS⟩
      · exact ⟨fun _ => 0, fun h => absurd h hi⟩
  refine ⟨fun j => if j / leaf.fanout < ceilDiv n leaf.fanout then
      Classical.choose (hx (j / leaf.fanout)) (j % leaf.fanout + 1) - Classical.choose (hx (j / leaf.fanout)) (j % leaf.fanout)
    else 0, fun j hj => ?_, fun j => ?_, fun idx hi => ?_⟩
  · have hq : j / leaf.fanout < ceilDiv n leaf.fanout := by
      rw [ceilDiv_lt_iff hF]
      have := Nat.div_mul_le_self j leaf.fanout
      omega
    have hS := Classical.choose_spec (hx (j / leaf.fanout)) hq
    have hm := Nat.mod_lt j hF
    have hdm : j / leaf.fanout * leaf.fanout + j % leaf.fanout = j := by
      rw [Nat.mul_comm]; exact Nat.div_add_mod j leaf.fanout
    show (if _ then _ else _) = _
    rw [if_pos hq, hS.val _ (by omega) (by omega), hS.val _ (by omega) (by omega), ← Nat.add_assoc, hdm, psum_succ]
    have := psum_mono A (show j / leaf.fanout * leaf.fanout ≤ j by omega)
    omega
  · show (if _ then _ else _) ≤ M
    by_cases hq : j / leaf.fanout < ceilDiv n leaf.fanout
    · rw [if_pos hq]
      have hS := Classical.choose_spec (hx (j / leaf.fanout)) hq
      have := hS.step _ (Nat.mod_lt j hF)
      omega
    · rw [if_neg hq]; omega
  · have hS := Classical.choose_spec (hx idx) hi
    refine hS.rep.congr wf fun k hk => ?_
    induction k with
    | zero => rw [hS.zero, Nat.add_zero]; omega
    | succ k ih =>
      have e := ih (by omega)
      have h1 : (idx * leaf.fanout + k) / leaf.fanout = idx := by
        rw [Nat.add_comm, Nat.add_mul_div_right _ _ hF, Nat.div_eq_of_lt (by omega)]; omega
      have h2 : (idx * leaf.fanout + k) % leaf.fanout = k := by
        rw [Nat.add_comm, Nat.add_mul_mod_self_right, Nat.mod_eq_of_lt (by omega)]
      have hmo := hS.mono k (by omega)
      rw [← Nat.add_assoc, psum_succ, h1, h2, if_pos hi]
      have hps := psum_mono (fun j => if j / leaf.fanout < ceilDiv n leaf.fanout then
        Classical.choose (hx (j / leaf.fanout)) (j % leaf.fanout + 1) - Classical.choose (hx (j / leaf.fanout)) (j % leaf.fanout)
        else 0) (show idx * leaf.fanout ≤ idx * leaf.fanout + k by omega)
      omega

theorem LvlRep.cong {M n : Nat} {A : Nat → Nat} {m : Mem} {leaf : NodeCfg} (wl : leaf.WF) :
    ∀ {cs : List NodeCfg} {off : Nat}, (∀ c ∈ cs, c.WF) → LvlRep M A n m leaf off cs →
      ∃ B : Nat → Nat, (∀ j, j < n → B j = A j) ∧ (∀ j, B j ≤ M) ∧
        LvlCong (fun j => (A j : Int)) (fun j => (B j : Int)) n m leaf off cs := by
  intro cs
  induction cs with
  | nil =>
    intro off _ h
    obtain ⟨B, h1, h2, h3⟩ := leaf_full wl h
    refine ⟨B, h1, h2, fun idx hi => (NodeCong.of_rep (h3 idx hi) (psum_shift_mono _ _ _) wl fun k _ => ?_)⟩
    unfold leafI
    rw [isum_cast (A := B) fun _ _ => rfl, isum_cast (A := B) fun _ _ => rfl]
    have := psum_mono B (show idx * leaf.fanout ≤ idx * leaf.fanout + k by omega)
    omega
  | cons c cs ih =>
    intro off hw h
    obtain ⟨B, h1, h2, h3⟩ := ih (fun d hd => hw d (List.mem_cons_of_mem _ hd)) h.2
    refine ⟨B, h1, h2, fun idx hi => ?_, h3⟩
    refine NodeCong.of_rep (h.1 idx hi) (innerS_mono _ _ _ _) (hw c List.mem_cons_self) fun k _ => ?_
    unfold innerI innerS
    rw [isum_cast (A := A) fun _ _ => rfl, isum_cast (A := A) fun _ _ => rfl]
    have := psum_mono A (show idx * (c.fanout * span leaf cs) ≤ idx * (c.fanout * span leaf cs) + (k - 1) * span leaf cs by omega)
    omega

/-- Every level has room for values up to `M`. -/
def LvlFits (M : Nat) (leaf : NodeCfg) : List NodeCfg → Prop
  | [] => LevelFits M leaf 1
  | c :: cs => LevelFits M c (span leaf cs) ∧ LvlFits M leaf cs

theorem psum_gap_le {B : Nat → Nat} {M : Nat} (h : ∀ j, B j ≤ M) (a d : Nat) : psum B (a + d) - psum B a ≤ d * M := by
  have := psum_diff_le h a d
  omega

theorem key_gap {B : Nat → Nat} {M F j x y : Nat} (h : ∀ j, B j ≤ M) (hxy : x ≤ y) (hF : y - x ≤ F) (_ : j = j) :
    psum B y - psum B x ≤ F * M := by
  have := psum_gap_le h x (y - x)
  rw [show x + (y - x) = y by omega] at this
  exact Nat.le_trans this (Nat.mul_le_mul_right M hF)

theorem LvlCong.rep {M n : Nat} {A B : Nat → Nat} {m : Mem} {leaf : NodeCfg} (wl : leaf.WF) (hA : ∀ j, A j ≤ M)
    (hB : ∀ j, B j ≤ M) (hAB : ∀ j, j < n → B j = A j) : ∀ {cs : List NodeCfg} {off : Nat}, (∀ c ∈ cs, c.WF) →
      LvlFits M leaf cs → LvlCong (fun j => (A j : Int)) (fun j => (B j : Int)) n m leaf off cs →
      LvlRep M A n m leaf off cs := by
  intro cs
  induction cs with
  | nil =>
    intro off _ hf h idx hi
    have hf : LevelFits M leaf 1 := hf
    refine ⟨fun k => psum B (idx * leaf.fanout + k) - psum B (idx * leaf.fanout),
      (h idx hi).rep (psum_shift_mono _ _ _) wl (fun k _ => ?_) (fun k hk => ?_) fun j hj => ?_, by simp,
      psum_shift_mono _ _ _, fun k _ => ?_, fun k _ hk => ?_⟩
    · unfold leafI
      rw [isum_cast (A := B) fun _ _ => rfl, isum_cast (A := B) fun _ _ => rfl]
      have := psum_mono B (show idx * leaf.fanout ≤ idx * leaf.fanout + k by omega)
      omega
    · have h1 := psum_gap_le hB (idx * leaf.fanout) k
      have h2 := Nat.mul_le_mul_right M hk
      have := hf.sum
      rw [Nat.mul_one] at this
      show psum B (idx * leaf.fanout + k) - psum B (idx * leaf.fanout) < _
      omega
    · have hsg := seg_le (c := leaf) j
      have hlt := Nat.div_add_mod j leaf.seg
      have hml := Nat.mod_lt j wl.seg_pos
      have h1 := key_gap (F := leaf.seg) (j := j) hB
        (show idx * leaf.fanout + leaf.seg * (j / leaf.seg) ≤ idx * leaf.fanout + (j + 1) by omega) (by omega) rfl
      have := hf.key
      rw [Nat.mul_one] at this
      show psum B (idx * leaf.fanout + (j + 1)) - psum B (idx * leaf.fanout)
        - (psum B (idx * leaf.fanout + leaf.seg * (j / leaf.seg)) - psum B (idx * leaf.fanout)) < _
      have := psum_mono B (show idx * leaf.fanout ≤ idx * leaf.fanout + leaf.seg * (j / leaf.seg) by omega)
      omega
    · have := hB (idx * leaf.fanout + k)
      show psum B (idx * leaf.fanout + (k + 1)) - _ ≤ psum B (idx * leaf.fanout + k) - _ + M
      rw [← Nat.add_assoc, psum_succ]
      omega
    · have e : ∀ x, x ≤ n → psum B x = psum A x := by
        intro x
        induction x with
        | zero => intro _; rfl
        | succ x ih => intro hx; rw [psum_succ, psum_succ, ih (by omega), hAB x (by omega)]
      show psum B _ - psum B _ = _
      rw [e _ hk, e _ (by omega)]
  | cons c cs ih =>
    intro off hw hf h
    have wc := hw c List.mem_cons_self
    refine ⟨fun idx hi => ?_, ih (fun d hd => hw d (List.mem_cons_of_mem _ hd)) hf.2 h.2⟩
    refine (h.1 idx hi).rep (innerS_mono _ _ _ _) wc (fun k _ => ?_) (fun k hk => ?_) fun j hj => ?_
    · unfold innerI innerS
      rw [isum_cast (A := A) fun _ _ => rfl, isum_cast (A := A) fun _ _ => rfl]
      have := psum_mono A (show idx * (c.fanout * span leaf cs) ≤ idx * (c.fanout * span leaf cs) + (k - 1) * span leaf cs by omega)
      omega
    · have := innerS_node_lt wc hA hf.1 (idx * (c.fanout * span leaf cs)) k hk
      omega
    · have hsg := seg_le (c := c) j
      have hlt := Nat.div_add_mod j c.seg
      have hml := Nat.mod_lt j wc.seg_pos
      have hle : (c.seg * (j / c.seg) - 1) * span leaf cs ≤ j * span leaf cs := Nat.mul_le_mul_right _ (by omega)
      have hle2 : j * span leaf cs ≤ (c.seg * (j / c.seg) - 1 + c.seg) * span leaf cs := Nat.mul_le_mul_right _ (by omega)
      rw [Nat.add_mul] at hle2
      have h1 := key_gap (F := c.seg * span leaf cs) (j := j) hA
        (show idx * (c.fanout * span leaf cs) + (c.seg * (j / c.seg) - 1) * span leaf cs
          ≤ idx * (c.fanout * span leaf cs) + j * span leaf cs by omega) (by omega) rfl
      have := hf.1.key
      unfold innerS
      rw [Nat.add_sub_cancel]
      have := psum_mono A (show idx * (c.fanout * span leaf cs)
        ≤ idx * (c.fanout * span leaf cs) + (c.seg * (j / c.seg) - 1) * span leaf cs by omega)
      omega

end MRS
