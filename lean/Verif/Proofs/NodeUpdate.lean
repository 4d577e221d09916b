import Verif.Proofs.NodeBasic

/-! # `update` of a node: SIMD and scalar bodies meet the same contract -/

set_option autoImplicit false

namespace MRS
open Outcome

theorem bumpLoop_ok {b : Build} {base w a n : Nat} {sign : Bool} {m : Mem}
    (hsz : base + (a + n) * w ≤ m.size)
    (hal : ∀ z, b.strictAlign = true → (m.addr + (base + z * w)) % w = 0) :
    ∃ m', bumpLoop b base w a n sign m = ok m' ∧ SameOff m m' (base + a * w) (base + (a + n) * w) ∧
      ∀ z, a ≤ z → z < a + n → rd m' (base + z * w) w = bump w sign (rd m (base + z * w) w) := by
  have key := forFrom_inv (body := fun z m => do
      let x ← load b m (base + z * w) w
      store b m (base + z * w) w (bump w sign x))
    (fun i m' => SameOff m m' (base + a * w) (base + i * w) ∧
      ∀ z, a ≤ z → z < i → rd m' (base + z * w) w = bump w sign (rd m (base + z * w) w))
    n a m ⟨SameOff.refl _ _ _, fun z h1 h2 => by omega⟩ ?_
  · obtain ⟨m', h1, h2, h3⟩ := key
    exact ⟨m', h1, h2, h3⟩
  · rintro i m1 hai hin ⟨hs, hv⟩
    have e1 : (i + 1) * w = i * w + w := Nat.succ_mul _ _
    have e2 : a * w ≤ i * w := Nat.mul_le_mul_right _ hai
    have e3 : (i + 1) * w ≤ (a + n) * w := Nat.mul_le_mul_right _ hin
    have hsz1 : base + i * w + w ≤ m1.size := by rw [hs.size]; omega
    have hal1 : b.strictAlign = true → (m1.addr + (base + i * w)) % w = 0 := by
      rw [hs.addr]; exact hal i
    refine ⟨wr m1 (base + i * w) w (bump w sign (rd m1 (base + i * w) w)), ?_, ?_, ?_⟩
    · rw [load_ok hsz1 hal1]
      simp only [ok_bind]
      rw [store_ok hsz1 hal1]
    · exact (hs.mono (Nat.le_refl _) (by omega)).trans
        ((wr_sameOff m1 (base + i * w) w _).mono (by omega) (by omega))
    · intro z h1 h2
      by_cases hz : z = i
      · subst hz
        rw [rd_wr_same, hs.rd (by omega)]
        exact Nat.mod_eq_of_lt (Nat.mod_lt _ (Nat.pow_pos (by decide)))
      · have e4 : z * w + w ≤ i * w := by
          rw [← Nat.succ_mul]; exact Nat.mul_le_mul_right _ (by omega)
        rw [rd_wr_disj _ (by omega)]
        exact hv z h1 (by omega)

theorem bump_eq {w x y : Nat} {sign : Bool} (hy : y < 256 ^ w) (hx : x < 256 ^ w)
    (h : if sign then y + 1 = x else y = x + 1) : bump w sign x = y := by
  unfold bump
  cases sign
  · simp only [Bool.false_eq_true, if_false] at h ⊢
    rw [← h, Nat.mod_eq_of_lt hy]
  · simp only [if_true] at h ⊢
    have : x + (256 ^ w - 1) = y + 256 ^ w := by omega
    rw [this, Nat.add_mod_right, Nat.mod_eq_of_lt hy]

theorem lane_zero {w x : Nat} (hx : x < 256 ^ w) : (x + laneOfInt w 0) % 256 ^ w = x := by
  simp [laneOfInt, Nat.mod_eq_of_lt hx]

theorem lane_step {w x : Nat} {sign : Bool} (hw : 0 < w) :
    (x + laneOfInt w (stepI sign)) % 256 ^ w = bump w sign x := by
  have hp : 256 ≤ 256 ^ w := by
    calc 256 = 256 ^ 1 := rfl
      _ ≤ 256 ^ w := Nat.pow_le_pow_right (by decide) hw
  have e : laneOfInt w (stepI sign) = if sign then 256 ^ w - 1 else 1 := by
    unfold laneOfInt
    generalize 256 ^ w = N at hp
    cases sign
    · simp only [stepI, Bool.false_eq_true, if_false]
      rw [Int.emod_eq_of_lt (by omega) (by omega)]; rfl
    · simp only [stepI, if_true]
      have : (-1 : Int) % (N : Int) = (N : Int) - 1 := by
        rw [← Int.add_emod_right, Int.emod_eq_of_lt (by omega) (by omega)]; omega
      rw [this]; omega
  unfold bump
  rw [e]

/-- Prefix sums after adding `+1` / `-1` to entry `i`. -/
def bumpS (S : Nat → Nat) (i : Nat) (sign : Bool) : Nat → Nat :=
  fun k => if i < k then (if sign then S k - 1 else S k + 1) else S k

/-- What both bodies of `update` do to the bytes of the node. -/
structure UpdBytes (c : NodeCfg) (m m' : Mem) (off i : Nat) (sign : Bool) : Prop where
  same : SameOff m m' off (off + c.bytes)
  sumLo : ∀ z, z < c.num → z ≤ i / c.seg → rd m' (c.sumOff off z) c.sumB = rd m (c.sumOff off z) c.sumB
  sumHi : ∀ z, z < c.num → i / c.seg < z →
    rd m' (c.sumOff off z) c.sumB = bump c.sumB sign (rd m (c.sumOff off z) c.sumB)
  keyOther : ∀ j, j < c.fanout → j / c.seg ≠ i / c.seg ∨ j < i →
    rd m' (c.keyOff off j) c.keyB = rd m (c.keyOff off j) c.keyB
  keyHi : ∀ j, j < c.fanout → j / c.seg = i / c.seg → i ≤ j →
    rd m' (c.keyOff off j) c.keyB = bump c.keyB sign (rd m (c.keyOff off j) c.keyB)

theorem UpdBytes.rep {c : NodeCfg} {m m' : Mem} {off i : Nat} {sign : Bool} {S : Nat → Nat}
    (wf : c.WF) (h : UpdBytes c m m' off i sign) (hr : NodeRep c m off S)
    (hm : MonoTo S c.fanout) (hi : i < c.fanout)
    (hpos : sign = true → S i + 1 ≤ S (i + 1))
    (hbs : sign = false → ∀ s, s < c.num → S (s * c.seg) + 1 < 256 ^ c.sumB)
    (hbk : sign = false → ∀ j, j < c.fanout → j / c.seg = i / c.seg →
      S (j + 1) - S (c.seg * (j / c.seg)) + 1 < 256 ^ c.keyB) :
    NodeRep c m' off (bumpS S i sign) := by
  have hseg := wf.seg_pos
  have hF := wf.fanout_eq
  have hi1 : c.seg * (i / c.seg) ≤ i := Nat.mul_div_le _ _
  have hi2 : i < c.seg * (i / c.seg) + c.seg := by
    have := Nat.lt_mul_div_succ i hseg; rw [Nat.mul_succ] at this; exact this
  refine ⟨by rw [h.same.size]; exact hr.bnd, ?_, ?_⟩
  · intro s hs
    by_cases hsi : s ≤ i / c.seg
    · rw [h.sumLo s hs hsi, hr.sums s hs]
      have : s * c.seg ≤ c.seg * (i / c.seg) := by
        rw [Nat.mul_comm c.seg]; exact Nat.mul_le_mul_right _ hsi
      unfold bumpS; rw [if_neg (by omega)]
    · have h1 : c.seg * (i / c.seg) + c.seg ≤ s * c.seg := by
        rw [← Nat.mul_succ, Nat.mul_comm]; exact Nat.mul_le_mul_right _ (by omega)
      have h2 : s * c.seg ≤ c.fanout := by rw [hF]; exact Nat.mul_le_mul_right _ (by omega)
      have h3 := hm.le (a := i + 1) (b := s * c.seg) (by omega) h2
      rw [h.sumHi s hs (by omega), hr.sums s hs]
      have hlt := hr.sum_lt hs
      unfold bumpS; rw [if_pos (by omega)]
      cases sign
      · simp only [Bool.false_eq_true, if_false]
        exact bump_eq (hbs rfl s hs) hlt (by simp)
      · simp only [if_true]
        have := hpos rfl
        exact bump_eq (by omega) hlt (by simp; omega)
  · intro j hj
    have hj1 : c.seg * (j / c.seg) ≤ j := Nat.mul_div_le _ _
    have hj2 : j < c.seg * (j / c.seg) + c.seg := by
      have := Nat.lt_mul_div_succ j hseg; rw [Nat.mul_succ] at this; exact this
    have hkl := hr.key_lt hj
    by_cases hsame : j / c.seg = i / c.seg
    · by_cases hij : i ≤ j
      · rw [h.keyHi j hj hsame hij, hr.keys j hj]
        have h3 := hm.le (a := i + 1) (b := j + 1) (by omega) (by omega)
        have h4 := hm.le (a := c.seg * (j / c.seg)) (b := i) (by rw [hsame]; exact hi1) (by omega)
        unfold bumpS
        rw [if_pos (show i < j + 1 by omega), if_neg (show ¬ i < c.seg * (j / c.seg) by rw [hsame]; omega)]
        cases sign
        · simp only [Bool.false_eq_true, if_false]
          have h5 := hbk rfl j hj hsame
          have h6 := hm i hi
          exact bump_eq (by omega) hkl (by simp; omega)
        · simp only [if_true]
          have := hpos rfl
          exact bump_eq (by omega) hkl (by simp; omega)
      · rw [h.keyOther j hj (Or.inr (by omega)), hr.keys j hj]
        unfold bumpS
        rw [if_neg (show ¬ i < j + 1 by omega), if_neg (show ¬ i < c.seg * (j / c.seg) by omega)]
    · rw [h.keyOther j hj (Or.inl hsame), hr.keys j hj]
      unfold bumpS
      by_cases hlt : j / c.seg < i / c.seg
      · have h1 : c.seg * (j / c.seg) + c.seg ≤ c.seg * (i / c.seg) := by
          rw [← Nat.mul_succ]; exact Nat.mul_le_mul_left _ hlt
        rw [if_neg (show ¬ i < j + 1 by omega), if_neg (show ¬ i < c.seg * (j / c.seg) by omega)]
      · have h1 : c.seg * (i / c.seg) + c.seg ≤ c.seg * (j / c.seg) := by
          rw [← Nat.mul_succ]; exact Nat.mul_le_mul_left _ (by omega)
        have h3 := hm.le (a := i + 1) (b := c.seg * (j / c.seg)) (by omega) (by omega)
        rw [if_pos (show i < j + 1 by omega), if_pos (show i < c.seg * (j / c.seg) by omega)]
        cases sign
        · simp only [Bool.false_eq_true, if_false]; omega
        · simp only [if_true]
          have := hpos rfl
          omega

theorem nodeUpdate_bytes {b : Build} {c : NodeCfg} {m : Mem} {off i : Nat} {sign : Bool}
    (wf : c.WF) (hb : off + c.bytes ≤ m.size) (ha : AlignOK b c m.addr off)
    (hu : UpOK b c m.addr off) (hi : i < c.fanout) :
    ∃ m', nodeUpdate b c m off i sign = ok m' ∧ UpdBytes c m m' off i sign := by
  have hseg := wf.seg_pos
  have hF := wf.fanout_eq
  have hbytes := wf.bytes_eq
  have hj := wf.seg_lt hi
  have hk := Nat.mod_lt i hseg
  have hdm := Nat.div_add_mod i c.seg
  have hjs : (i / c.seg) * c.seg + c.seg ≤ c.fanout := by
    rw [← Nat.succ_mul, hF]; exact Nat.mul_le_mul_right _ hj
  have hkey0 : c.keyOff off ((i / c.seg) * c.seg) + c.vecB ≤ off + c.bytes := by
    have : ((i / c.seg) * c.seg + c.seg) * c.keyB ≤ c.fanout * c.keyB := Nat.mul_le_mul_right _ hjs
    rw [Nat.add_mul] at this
    rw [wf.vec_key]; simp only [NodeCfg.keyOff]; omega
  have hkey1 : off + c.num * c.sumB ≤ c.keyOff off ((i / c.seg) * c.seg) := by
    simp only [NodeCfg.keyOff]; omega
  -- keys of other segments do not overlap segment `i / seg`
  have hother : ∀ j, j < c.fanout → j / c.seg ≠ i / c.seg →
      c.keyOff off j + c.keyB ≤ c.keyOff off ((i / c.seg) * c.seg) ∨
      c.keyOff off ((i / c.seg) * c.seg) + c.vecB ≤ c.keyOff off j := by
    intro j hjF hne
    have hj1 : c.seg * (j / c.seg) ≤ j := Nat.mul_div_le _ _
    have hj2 : j < c.seg * (j / c.seg) + c.seg := by
      have := Nat.lt_mul_div_succ j hseg; rw [Nat.mul_succ] at this; exact this
    rw [wf.vec_key]; simp only [NodeCfg.keyOff]
    rcases Nat.lt_or_gt_of_ne hne with h | h
    · left
      have h1 : c.seg * (j / c.seg) + c.seg ≤ c.seg * (i / c.seg) := by
        rw [← Nat.mul_succ]; exact Nat.mul_le_mul_left _ h
      have h2 : (j + 1) * c.keyB ≤ (i / c.seg * c.seg) * c.keyB :=
        Nat.mul_le_mul_right _ (by rw [Nat.mul_comm (i / c.seg)]; omega)
      rw [Nat.succ_mul] at h2; omega
    · right
      have h1 : c.seg * (i / c.seg) + c.seg ≤ c.seg * (j / c.seg) := by
        rw [← Nat.mul_succ]; exact Nat.mul_le_mul_left _ h
      have h2 : (i / c.seg * c.seg + c.seg) * c.keyB ≤ j * c.keyB :=
        Nat.mul_le_mul_right _ (by rw [Nat.mul_comm (i / c.seg)]; omega)
      rw [Nat.add_mul] at h2; omega
  -- keys of the segment, by position inside the segment
  have hin : ∀ j, j < c.fanout → j / c.seg = i / c.seg →
      j % c.seg < c.seg ∧ c.keyOff off j = c.keyOff off ((i / c.seg) * c.seg) + (j % c.seg) * c.keyB := by
    intro j hjF he
    refine ⟨Nat.mod_lt _ hseg, ?_⟩
    have h1 : j = (i / c.seg) * c.seg + j % c.seg := by
      have := Nat.div_add_mod j c.seg; rw [he, Nat.mul_comm] at this; exact this.symm
    have h2 : j * c.keyB = ((i / c.seg) * c.seg) * c.keyB + (j % c.seg) * c.keyB := by
      rw [← Nat.add_mul, ← h1]
    simp only [NodeCfg.keyOff]; omega
  have hle : ∀ j, j / c.seg = i / c.seg → (i ≤ j ↔ i % c.seg ≤ j % c.seg) := by
    intro j he
    have h1 := Nat.div_add_mod j c.seg
    rw [he] at h1
    omega
  unfold nodeUpdate
  rw [if_neg (by omega), massert_ok (decide_eq_true hi)]
  simp only [ok_bind]
  by_cases hsimd : c.simd b = true
  · -- SIMD body
    rw [if_pos hsimd]
    obtain ⟨row1, hr1, hv1⟩ := wf.sumTab_ok _ hj sign
    obtain ⟨row2, hr2, hv2⟩ := wf.keyTab_ok _ hk sign
    have halv : b.strictAlign = true → (m.addr + off) % (if c.sumAligned then c.vecB else 1) = 0 := by
      intro hs
      cases hsa : c.sumAligned
      · simp [Nat.mod_one]
      · simpa using hu hs hsa hsimd
    have hvec : c.vecB ≤ c.bytes := by rw [wf.vec_sum]; exact wf.sum_bytes
    simp only [loadRow, hr1, hr2, ok_bind]
    rw [loadVec_ok (by omega) halv]
    simp only [ok_bind]
    rw [storeVec_ok (by omega)]
    simp only [ok_bind]
    rw [loadVec_ok (al := 1) (by simp only [wrLanes]; omega) (fun _ => Nat.mod_one _)]
    simp only [ok_bind]
    rw [storeVec_ok (by simp only [wrLanes]; omega)]
    refine ⟨_, rfl, ?_⟩
    generalize hm1 : wrLanes m off c.vecB c.sumB _ = m1
    have hs1 : SameOff m m1 off (off + c.num * c.sumB) := by
      rw [← hm1, ← wf.vec_sum]; exact wrLanes_sameOff _ _ _ _ _
    generalize hm2 : wrLanes m1 (c.keyOff off ((i / c.seg) * c.seg)) c.vecB c.keyB _ = m2
    have hs2 : SameOff m1 m2 (c.keyOff off ((i / c.seg) * c.seg))
        (c.keyOff off ((i / c.seg) * c.seg) + c.vecB) := by
      rw [← hm2]; exact wrLanes_sameOff _ _ _ _ _
    have hsums : ∀ z, z < c.num → rd m2 (c.sumOff off z) c.sumB
        = (rd m (c.sumOff off z) c.sumB + laneOfInt c.sumB (row1.getD z 0)) % 256 ^ c.sumB := by
      intro z hz
      have hzin := wf.sum_in (off := off) hz
      rw [hs2.rd (by omega), ← hm1]
      rw [show c.sumOff off z = off + z * c.sumB from rfl, rd_wrLanes wf.sumB_pos]
      · simp only [addLanes, Nat.mod_mod]
      · rw [wf.vec_sum, ← Nat.succ_mul]; exact Nat.mul_le_mul_right _ hz
    have hkeys : ∀ j, j < c.fanout → j / c.seg = i / c.seg → rd m2 (c.keyOff off j) c.keyB
        = (rd m (c.keyOff off j) c.keyB + laneOfInt c.keyB (row2.getD (j % c.seg) 0)) % 256 ^ c.keyB := by
      intro j hjF he
      obtain ⟨hz, hoff⟩ := hin j hjF he
      have hkin := wf.key_in (off := off) hjF
      rw [hoff, ← hm2, rd_wrLanes wf.keyB_pos]
      · simp only [addLanes, Nat.mod_mod]
        rw [← hoff, hs1.rd (by omega)]
      · rw [wf.vec_key, ← Nat.succ_mul]; exact Nat.mul_le_mul_right _ hz
    refine ⟨?_, ?_, ?_, ?_, ?_⟩
    · exact (hs1.mono (Nat.le_refl _) (by omega)).trans (hs2.mono (by omega) (by omega))
    · intro z hz hzj
      rw [hsums z hz, hv1 z hz, if_pos hzj]
      exact lane_zero (rd_lt _ _ _)
    · intro z hz hzj
      rw [hsums z hz, hv1 z hz, if_neg (by omega)]
      exact lane_step wf.sumB_pos
    · intro j hjF hcase
      have hkin := wf.key_in (off := off) hjF
      by_cases he : j / c.seg = i / c.seg
      · have hji : j < i := by
          rcases hcase with h | h
          · exact absurd he h
          · exact h
        have := hle j he
        rw [hkeys j hjF he, hv2 _ (hin j hjF he).1, if_pos (by omega)]
        exact lane_zero (rd_lt _ _ _)
      · rw [hs2.rd (hother j hjF he), hs1.rd (by omega)]
    · intro j hjF he hij
      have := hle j he
      rw [hkeys j hjF he, hv2 _ (hin j hjF he).1, if_neg (by omega)]
      exact lane_step wf.keyB_pos
  · -- scalar body
    rw [if_neg hsimd, if_pos hj]
    have hn1 : i / c.seg + 1 + (c.num - (i / c.seg + 1)) = c.num := by omega
    obtain ⟨m1, e1, hs1, hv1⟩ := bumpLoop_ok (b := b) (base := off) (w := c.sumB)
      (a := i / c.seg + 1) (n := c.num - (i / c.seg + 1)) (sign := sign) (m := m)
      (by rw [hn1]; have := wf.sum_bytes; omega) (fun z => ha.sum wf z)
    rw [hn1] at hs1 hv1
    have hn2 : i % c.seg + (c.seg - i % c.seg) = c.seg := by omega
    obtain ⟨m2, e2, hs2, hv2⟩ := bumpLoop_ok (b := b)
      (base := c.keyOff off ((i / c.seg) * c.seg)) (w := c.keyB)
      (a := i % c.seg) (n := c.seg - i % c.seg) (sign := sign) (m := m1)
      (by rw [hn2, ← wf.vec_key, hs1.size]; omega)
      (fun z hs => by
        rw [hs1.addr]
        have := ha.key wf ((i / c.seg) * c.seg + z) hs
        simp only [NodeCfg.keyOff, Nat.add_mul] at this ⊢
        rw [← this]; congr 1; omega)
    rw [hn2, ← wf.vec_key] at hs2
    rw [hn2] at hv2
    rw [e1]
    simp only [ok_bind]
    rw [e2]
    refine ⟨m2, rfl, ?_⟩
    have hs1' : SameOff m m1 off (off + c.num * c.sumB) := hs1.mono (by omega) (Nat.le_refl _)
    have hs2' := hs2.mono (lo' := c.keyOff off ((i / c.seg) * c.seg)) (by omega) (Nat.le_refl _)
    refine ⟨?_, ?_, ?_, ?_, ?_⟩
    · exact (hs1'.mono (Nat.le_refl _) (by omega)).trans (hs2'.mono (by omega) (by omega))
    · intro z hz hzj
      have hzin := wf.sum_in (off := off) hz
      rw [hs2'.rd (by omega), hs1.rd]
      left
      have : (z + 1) * c.sumB ≤ (i / c.seg + 1) * c.sumB := Nat.mul_le_mul_right _ (by omega)
      rw [Nat.succ_mul] at this
      simp only [NodeCfg.sumOff]; omega
    · intro z hz hzj
      have hzin := wf.sum_in (off := off) hz
      rw [hs2'.rd (by omega)]
      exact hv1 z hzj hz
    · intro j hjF hcase
      have hkin := wf.key_in (off := off) hjF
      by_cases he : j / c.seg = i / c.seg
      · have hji : j < i := by
          rcases hcase with h | h
          · exact absurd he h
          · exact h
        have h1 := hle j he
        obtain ⟨hz, hoff⟩ := hin j hjF he
        have : (j % c.seg + 1) * c.keyB ≤ (i % c.seg) * c.keyB := Nat.mul_le_mul_right _ (by omega)
        rw [Nat.succ_mul] at this
        rw [hs2.rd (by omega), hs1'.rd (by omega)]
      · rw [hs2'.rd (hother j hjF he), hs1'.rd (by omega)]
    · intro j hjF he hij
      have hkin := wf.key_in (off := off) hjF
      have h1 := hle j he
      obtain ⟨hz, hoff⟩ := hin j hjF he
      rw [hoff, hv2 _ (by omega) hz, ← hoff, hs1'.rd (by omega)]

/-- Contract of `update` for every node class, SIMD and scalar. -/
theorem nodeUpdate_ok {b : Build} {c : NodeCfg} {m : Mem} {off i : Nat} {sign : Bool}
    {S : Nat → Nat} (wf : c.WF) (hr : NodeRep c m off S) (ha : AlignOK b c m.addr off)
    (hu : UpOK b c m.addr off)
    (hm : MonoTo S c.fanout) (hi : i ≤ c.fanout)
    (hpos : sign = true → i < c.fanout → S i + 1 ≤ S (i + 1))
    (hbs : sign = false → ∀ s, s < c.num → S (s * c.seg) + 1 < 256 ^ c.sumB)
    (hbk : sign = false → ∀ j, j < c.fanout → j / c.seg = i / c.seg →
      S (j + 1) - S (c.seg * (j / c.seg)) + 1 < 256 ^ c.keyB) :
    ∃ m', nodeUpdate b c m off i sign = ok m' ∧ NodeRep c m' off (bumpS S i sign) ∧
      SameOff m m' off (off + c.bytes) := by
  by_cases hiF : i = c.fanout
  · refine ⟨m, by simp [nodeUpdate, hiF], ⟨hr.bnd, ?_, ?_⟩, SameOff.refl _ _ _⟩
    · intro s hs
      have : s * c.seg ≤ c.fanout := by
        rw [wf.fanout_eq]; exact Nat.mul_le_mul_right _ (by omega)
      rw [hr.sums s hs]; unfold bumpS; rw [if_neg (by omega)]
    · intro j hj
      have : c.seg * (j / c.seg) ≤ j := Nat.mul_div_le _ _
      rw [hr.keys j hj]; unfold bumpS
      rw [if_neg (show ¬ i < j + 1 by omega), if_neg (show ¬ i < c.seg * (j / c.seg) by omega)]
  · have hi' : i < c.fanout := by omega
    obtain ⟨m', e, hub⟩ := nodeUpdate_bytes (sign := sign) wf hr.bnd ha hu hi'
    exact ⟨m', e, hub.rep wf hr hm hi' (fun h => hpos h hi') hbs hbk, hub.same⟩

end MRS
