import Verif.Proofs.TreeRep

/-! # `segment_tree::build` establishes the representation of every level -/

set_option autoImplicit false

namespace MRS
open Outcome Spec

theorem psum_shift {f A : Nat → Nat} {base k : Nat} (h : ∀ j, j < k → f j = A (base + j)) :
    psum f k + psum A base = psum A (base + k) := by
  induction k with
  | zero => simp [psum]
  | succ k ih =>
    have := ih (fun j hj => h j (by omega))
    show psum f k + f k + psum A base = psum A (base + k) + A (base + k)
    rw [h k (by omega)]; omega

theorem psum_le_mul {f : Nat → Nat} {M a d : Nat} (h : ∀ j, j < a + d → f j ≤ M) :
    psum f (a + d) ≤ psum f a + d * M := by
  induction d with
  | zero => simp
  | succ d ih =>
    have h1 := ih (fun j hj => h j (by omega))
    have h2 := h (a + d) (by omega)
    show psum f (a + d) + f (a + d) ≤ _
    rw [Nat.succ_mul]; omega

theorem NodeRep.congr {c : NodeCfg} {m : Mem} {off : Nat} {S S' : Nat → Nat} (wf : c.WF)
    (h : NodeRep c m off S) (he : ∀ k, k ≤ c.fanout → S k = S' k) : NodeRep c m off S' := by
  refine ⟨h.bnd, ?_, ?_⟩
  · intro s hs
    rw [← he _ (by rw [wf.fanout_eq]; exact Nat.mul_le_mul_right _ (by omega))]
    exact h.sums s hs
  · intro j hj
    have := Nat.mul_div_le j c.seg
    rw [← he _ (by omega), ← he _ (by omega)]
    exact h.keys j hj

/-- The input of `build`: `n` values `A 0 .. A (n-1)`, each at most `M`; in debug builds each
at most the bound of the assertion. -/
structure InputOK (b : Build) (fam : Family) (M : Nat) (A : Nat → Nat) (input : Vec Nat) (n : Nat) :
    Prop where
  len : input.len = n
  val : ∀ j, j < n → input.f j = A j
  le : ∀ j, A j ≤ M
  zero : ∀ j, n ≤ j → A j = 0
  dbg : b.ndebug = true ∨ ∀ j, A j ≤ fam.maxVal

theorem fillLeaf_ok {b : Build} {fam : Family} {M n base : Nat} {A : Nat → Nat} {input tmp : Vec Nat}
    (hin : InputOK b fam M A input n) (hl : tmp.len = fam.leaf.fanout)
    (ht : ∀ j, tmp.f j ≤ M) :
    ∃ tmp', fillLeaf b fam input n base tmp = ok tmp' ∧ tmp'.len = fam.leaf.fanout ∧
      (∀ j, tmp'.f j ≤ M) ∧
      (∀ j, j < fam.leaf.fanout → base + j < n → tmp'.f j = A (base + j)) := by
  unfold fillLeaf
  obtain ⟨tmp', e, h1, h2, h3⟩ := forN_inv
    (body := fun j (tmp : Vec Nat) => do
      let val ← input.get (base + j)
      massert b (decide (val ≤ fam.maxVal))
      tmp.set j val)
    (fun i (t : Vec Nat) => t.len = fam.leaf.fanout ∧ (∀ j, t.f j ≤ M) ∧
      (∀ j, j < i → t.f j = A (base + j)))
    (min fam.leaf.fanout (n - base)) tmp ⟨hl, ht, fun j hj => by omega⟩
    (by
      rintro i t hi ⟨a1, a2, a3⟩
      have hlen := hin.len
      have hv := hin.val (base + i) (by omega)
      rw [Vec.get_ok (by omega)]
      simp only [ok_bind]
      have hass : massert b (decide (input.f (base + i) ≤ fam.maxVal)) = ok () := by
        rcases hin.dbg with h | h
        · simp [massert, h]
        · rw [massert_ok]
          rw [hv]; exact decide_eq_true (h _)
      rw [hass]
      simp only [ok_bind]
      rw [Vec.set_ok _ (by omega)]
      refine ⟨_, rfl, a1, ?_, ?_⟩
      · intro j
        show (if j = i then input.f (base + i) else t.f j) ≤ M
        split
        · rw [hv]; exact hin.le _
        · exact a2 j
      · intro j hj
        show (if j = i then input.f (base + i) else t.f j) = _
        split
        · rename_i h; rw [h, hv]
        · exact a3 j (by omega))
  refine ⟨tmp', e, h1, h2, ?_⟩
  intro j hj hjn
  exact h3 j (by omega)

theorem buildLeaves_ok {b : Build} {fam : Family} {M n begin_ nodes : Nat} {A : Nat → Nat}
    {input : Vec Nat} {m : Mem} (wf : fam.leaf.WF) (hf : LevelFits M fam.leaf 1)
    (hin : InputOK b fam M A input n) (hn : nodes = ceilDiv n fam.leaf.fanout)
    (hb : begin_ + nodes * fam.leaf.bytes ≤ m.size)
    (ha : ∀ idx, idx < nodes → AlignOK b fam.leaf m.addr (begin_ + idx * fam.leaf.bytes)) :
    ∃ m', buildLeaves b fam input n begin_ nodes m = ok m' ∧
      LeafLvl M A n m' fam.leaf begin_ ∧
      SameOff m m' begin_ (begin_ + nodes * fam.leaf.bytes) := by
  unfold buildLeaves
  obtain ⟨st, e, h1, h2, h3, h4⟩ := forN_inv
    (body := fun i (st : Mem × Vec Nat) => do
      let tmp ← fillLeaf b fam input n (i * fam.leaf.fanout) st.2
      let m ← nodeBuild b fam.leaf tmp (begin_ + i * fam.leaf.bytes) st.1
      ok (m, tmp))
    (fun i (st : Mem × Vec Nat) => st.2.len = fam.leaf.fanout ∧ (∀ j, st.2.f j ≤ M) ∧
      SameOff m st.1 begin_ (begin_ + i * fam.leaf.bytes) ∧
      (∀ idx, idx < i → ∃ S,
        LeafRep M A n st.1 fam.leaf (begin_ + idx * fam.leaf.bytes) (idx * fam.leaf.fanout) S))
    nodes (m, ⟨fam.leaf.fanout, fun _ => 0⟩)
    ⟨rfl, fun j => Nat.zero_le _, SameOff.refl _ _ _, fun idx h => by omega⟩
    (by
      rintro i ⟨m1, tmp⟩ hi ⟨a1, a2, a3, a4⟩
      simp only at a1 a2 a3 a4
      obtain ⟨tmp', e1, b1, b2, b3⟩ := fillLeaf_ok (base := i * fam.leaf.fanout) hin a1 a2
      simp only [e1, ok_bind]
      have hin1 : (i + 1) * fam.leaf.bytes ≤ nodes * fam.leaf.bytes := Nat.mul_le_mul_right _ hi
      rw [Nat.succ_mul] at hin1
      have hle : ∀ {a d : Nat}, a + d ≤ fam.leaf.fanout →
          psum tmp'.f (a + d) ≤ psum tmp'.f a + d * M := fun h => psum_le_mul fun j _ => b2 j
      obtain ⟨m2, e2, c1, c2⟩ := nodeBuild_ok (b := b) (m := m1) (off := begin_ + i * fam.leaf.bytes)
        wf b1 (by rw [a3.size]; omega) (by rw [a3.addr]; exact ha i hi)
        (by
          intro j hj
          have hj1 : fam.leaf.seg * (j / fam.leaf.seg) ≤ j := Nat.mul_div_le _ _
          have hj2 : j < fam.leaf.seg * (j / fam.leaf.seg) + fam.leaf.seg := by
            have := Nat.lt_mul_div_succ j wf.seg_pos; rw [Nat.mul_succ] at this; exact this
          have h := hle (a := fam.leaf.seg * (j / fam.leaf.seg))
            (d := j + 1 - fam.leaf.seg * (j / fam.leaf.seg)) (by omega)
          rw [show fam.leaf.seg * (j / fam.leaf.seg) + (j + 1 - fam.leaf.seg * (j / fam.leaf.seg))
            = j + 1 by omega] at h
          have h3 : (j + 1 - fam.leaf.seg * (j / fam.leaf.seg)) * M ≤ fam.leaf.seg * 1 * M :=
            Nat.mul_le_mul_right _ (by omega)
          have := hf.key
          omega)
        (by
          intro s hs
          have hsF : s * fam.leaf.seg ≤ fam.leaf.fanout := by
            rw [wf.fanout_eq]; exact Nat.mul_le_mul_right _ (by omega)
          have h := hle (a := 0) (d := s * fam.leaf.seg) (by omega)
          rw [Nat.zero_add] at h
          have h3 : (s * fam.leaf.seg) * M ≤ fam.leaf.fanout * 1 * M :=
            Nat.mul_le_mul_right _ (by omega)
          have := hf.sum
          have h0 : psum tmp'.f 0 = 0 := rfl
          omega)
      rw [e2]
      refine ⟨_, rfl, b1, b2, ?_, ?_⟩
      · rw [Nat.succ_mul, ← Nat.add_assoc]
        exact (a3.mono (Nat.le_refl _) (by omega)).trans (c2.mono (by omega) (Nat.le_refl _))
      · intro idx hidx
        by_cases h : idx = i
        · subst h
          refine ⟨psum tmp'.f, c1, rfl, psum_monoTo _ _, ?_, ?_⟩
          · intro k _
            have := b2 k
            show psum tmp'.f k + tmp'.f k ≤ _
            omega
          · intro k hk hkn
            have := psum_shift (f := tmp'.f) (A := A) (base := idx * fam.leaf.fanout) (k := k)
              (fun j hj => b3 j (by omega) (by omega))
            omega
        · obtain ⟨S, hS⟩ := a4 idx (by omega)
          have : (idx + 1) * fam.leaf.bytes ≤ i * fam.leaf.bytes := Nat.mul_le_mul_right _ (by omega)
          rw [Nat.succ_mul] at this
          exact ⟨S, hS.rep.frame wf c2 (by omega), hS.zero, hS.mono, hS.step, hS.val⟩)
  rw [e]
  refine ⟨st.1, rfl, ?_, h3⟩
  intro idx hidx
  exact h4 idx (by omega)

theorem childSum_ok {c : NodeCfg} {M n base step : Nat} {A : Nat → Nat} {input : Vec Nat}
    (hlen : input.len = n) (hval : ∀ j, j < n → input.f j = A j) (hA : ∀ j, A j ≤ M)
    (hz : ∀ j, n ≤ j → A j = 0) (hfit : step * M < 256 ^ c.keyB) :
    childSum c input n base step = ok (psum A (base + step) - psum A base) := by
  unfold childSum
  have hmono : ∀ k, k ≤ step → psum A (base + k) - psum A base < 256 ^ c.keyB := by
    intro k hk
    have h1 := psum_diff_le hA base k
    have h2 : k * M ≤ step * M := Nat.mul_le_mul_right _ hk
    omega
  obtain ⟨s, e, h⟩ := forN_inv
    (body := fun k s => do
      let v ← input.get (base + k)
      ok ((s + v) % 256 ^ c.keyB))
    (fun i s => s = psum A (base + i) - psum A base)
    (min step (n - base)) 0 (by simp)
    (by
      rintro i s hi rfl
      rw [Vec.get_ok (by omega)]
      refine ⟨_, rfl, ?_⟩
      rw [hval _ (by omega)]
      have e1 : psum A (base + (i + 1)) = psum A (base + i) + A (base + i) := rfl
      have h1 := psum_mono A (show base ≤ base + i by omega)
      have h2 := hmono (i + 1) (by omega)
      rw [show psum A (base + i) - psum A base + A (base + i)
        = psum A (base + (i + 1)) - psum A base by omega]
      exact Nat.mod_eq_of_lt h2)
  rw [e, h]
  congr 2
  by_cases hc : step ≤ n - base
  · rw [Nat.min_eq_left hc]
  · rw [Nat.min_eq_right (by omega)]
    by_cases hb : base ≤ n
    · rw [show base + (n - base) = n by omega, psum_beyond hz (show n ≤ base + step by omega)]
    · rw [psum_beyond hz (show n ≤ base + step by omega),
        psum_beyond hz (show n ≤ base + (n - base) by omega)]

theorem fillInner_ok {c : NodeCfg} {M n base step : Nat} {A : Nat → Nat} {input tmp : Vec Nat}
    (wf : c.WF) (hlen : input.len = n) (hval : ∀ j, j < n → input.f j = A j) (hA : ∀ j, A j ≤ M)
    (hz : ∀ j, n ≤ j → A j = 0) (hf : LevelFits M c step) (ht : tmp.len = c.fanout) :
    ∃ tmp', fillInner c input n base step tmp = ok tmp' ∧ tmp'.len = c.fanout ∧
      ∀ k, k ≤ c.fanout → psum tmp'.f k = innerS A base step k := by
  have hF : 0 < c.fanout := by
    rw [wf.fanout_eq]; exact Nat.mul_pos wf.num_pos wf.seg_pos
  have hfit : step * M < 256 ^ c.keyB := by
    have := hf.key
    have h2 : 1 * step * M ≤ c.seg * step * M :=
      Nat.mul_le_mul_right _ (Nat.mul_le_mul_right _ wf.seg_pos)
    rw [Nat.one_mul] at h2
    omega
  let v : Nat → Nat := fun k => psum A (base + k * step + step) - psum A (base + k * step)
  unfold fillInner
  obtain ⟨t1, e1, h1, h2⟩ := forN_inv
    (body := fun k (tmp : Vec Nat) => do
      let s ← childSum c input n (base + k * step) step
      tmp.set k s)
    (fun i (t : Vec Nat) => t.len = c.fanout ∧ ∀ k, k < i → t.f k = v k)
    c.fanout tmp ⟨ht, fun k hk => by omega⟩
    (by
      rintro i t hi ⟨a1, a2⟩
      rw [childSum_ok hlen hval hA hz hfit]
      simp only [ok_bind]
      rw [Vec.set_ok _ (by omega)]
      refine ⟨_, rfl, a1, ?_⟩
      intro k hk
      show (if k = i then _ else t.f k) = _
      split
      · rename_i h; rw [h]
      · exact a2 k (by omega))
  rw [e1]
  simp only [ok_bind]
  obtain ⟨t2, e2, h3, h4, h5⟩ := forN_inv
    (body := fun t (tmp : Vec Nat) => do
      let x ← tmp.get (c.fanout - 1 - t - 1)
      tmp.set (c.fanout - 1 - t) x)
    (fun i (t : Vec Nat) => t.len = c.fanout ∧ (∀ k, k < c.fanout - i → t.f k = v k) ∧
      (∀ k, c.fanout - i ≤ k → k < c.fanout → t.f k = v (k - 1)))
    (c.fanout - 1) t1 ⟨h1, fun k hk => h2 k (by omega), fun k hk hk2 => by omega⟩
    (by
      rintro i t hi ⟨a1, a2, a3⟩
      rw [Vec.get_ok (by omega)]
      simp only [ok_bind]
      rw [Vec.set_ok _ (by omega)]
      refine ⟨_, rfl, a1, ?_, ?_⟩
      · intro k hk
        show (if k = c.fanout - 1 - i then _ else t.f k) = _
        rw [if_neg (show k ≠ c.fanout - 1 - i by omega)]
        exact a2 k (by omega)
      · intro k hk hk2
        show (if k = c.fanout - 1 - i then _ else t.f k) = _
        split
        · rename_i h
          rw [a2 _ (by omega), h]
        · exact a3 k (by omega) hk2)
  rw [e2]
  simp only [ok_bind]
  rw [Vec.set_ok _ (by omega)]
  refine ⟨_, rfl, h3, ?_⟩
  intro k
  induction k with
  | zero => intro _; rw [innerS_zero]; rfl
  | succ k ih =>
    intro hk
    show psum _ k + (if k = 0 then 0 else t2.f k) = _
    rw [ih (by omega)]
    by_cases hk0 : k = 0
    · subst hk0; simp [innerS]
    · rw [if_neg hk0, h5 k (by omega) (by omega)]
      show innerS A base step k +
        (psum A (base + (k - 1) * step + step) - psum A (base + (k - 1) * step)) = _
      unfold innerS
      have e3 : (k + 1 - 1) * step = (k - 1) * step + step := by
        rw [← Nat.succ_mul]; congr 1; omega
      rw [e3, Nat.add_assoc]
      have h6 := psum_mono A (show base ≤ base + (k - 1) * step by omega)
      have h7 := psum_mono A (show base + (k - 1) * step ≤ base + ((k - 1) * step + step) by omega)
      omega

theorem buildInner_ok {b : Build} {c : NodeCfg} {M n begin_ nodes step : Nat} {A : Nat → Nat}
    {input : Vec Nat} {m : Mem} (wf : c.WF) (hf : LevelFits M c step)
    (hlen : input.len = n) (hval : ∀ j, j < n → input.f j = A j) (hA : ∀ j, A j ≤ M)
    (hz : ∀ j, n ≤ j → A j = 0)
    (hn : nodes = ceilDiv n (c.fanout * step))
    (hb : begin_ + nodes * c.bytes ≤ m.size)
    (ha : ∀ idx, idx < nodes → AlignOK b c m.addr (begin_ + idx * c.bytes)) :
    ∃ m', buildInner b c input n begin_ nodes step m = ok m' ∧
      InnerLvl A n m' c step begin_ ∧
      SameOff m m' begin_ (begin_ + nodes * c.bytes) := by
  unfold buildInner
  obtain ⟨st, e, h1, h3, h4⟩ := forN_inv
    (body := fun i (st : Mem × Vec Nat) => do
      let tmp ← fillInner c input n (i * (c.fanout * step)) step st.2
      let m ← nodeBuild b c tmp (begin_ + i * c.bytes) st.1
      ok (m, tmp))
    (fun i (st : Mem × Vec Nat) => st.2.len = c.fanout ∧
      SameOff m st.1 begin_ (begin_ + i * c.bytes) ∧
      (∀ idx, idx < i →
        NodeRep c st.1 (begin_ + idx * c.bytes) (innerS A (idx * (c.fanout * step)) step)))
    nodes (m, ⟨c.fanout, fun _ => 0⟩)
    ⟨rfl, SameOff.refl _ _ _, fun idx h => by omega⟩
    (by
      rintro i ⟨m1, tmp⟩ hi ⟨a1, a3, a4⟩
      simp only at a1 a3 a4
      obtain ⟨tmp', e1, b1, b2⟩ := fillInner_ok (base := i * (c.fanout * step)) wf hlen hval hA hz hf a1
      simp only [e1, ok_bind]
      have hin1 : (i + 1) * c.bytes ≤ nodes * c.bytes := Nat.mul_le_mul_right _ hi
      rw [Nat.succ_mul] at hin1
      obtain ⟨m2, e2, c1, c2⟩ := nodeBuild_ok (b := b) (m := m1) (off := begin_ + i * c.bytes)
        wf b1 (by rw [a3.size]; omega) (by rw [a3.addr]; exact ha i hi)
        (by
          intro j hj
          have := Nat.mul_div_le j c.seg
          rw [b2 _ (by omega), b2 _ (by omega)]
          have := inner_key (step := step) wf hA (i * (c.fanout * step)) hj
          have := hf.key
          omega)
        (by
          intro s hs
          have hsF : s * c.seg ≤ c.fanout := by
            rw [wf.fanout_eq]; exact Nat.mul_le_mul_right _ (by omega)
          rw [b2 _ hsF]
          have := innerS_node_lt wf hA hf (i * (c.fanout * step)) _ hsF
          omega)
      rw [e2]
      refine ⟨_, rfl, b1, ?_, ?_⟩
      · rw [Nat.succ_mul, ← Nat.add_assoc]
        exact (a3.mono (Nat.le_refl _) (by omega)).trans (c2.mono (by omega) (Nat.le_refl _))
      · intro idx hidx
        by_cases h : idx = i
        · subst h
          exact c1.congr wf b2
        · have : (idx + 1) * c.bytes ≤ i * c.bytes := Nat.mul_le_mul_right _ (by omega)
          rw [Nat.succ_mul] at this
          exact (a4 idx (by omega)).frame wf c2 (by omega))
  rw [e]
  refine ⟨st.1, rfl, ?_, h3⟩
  intro idx hidx
  exact h4 idx (by omega)

/-- One upper level of the construction. -/
theorem buildUppers_step {b : Build} {c : NodeCfg} {cs : List NodeCfg} {M n off nodes step begin_ h : Nat}
    {A : Nat → Nat} {input counts : Vec Nat} {m : Mem} (wf : c.WF) (hf : LevelFits M c step)
    (hlen : input.len = n) (hval : ∀ j, j < n → input.f j = A j) (hA : ∀ j, A j ≤ M)
    (hz : ∀ j, n ≤ j → A j = 0)
    (hget : counts.get h = ok nodes) (hn : nodes = ceilDiv n (c.fanout * step))
    (hbeg : begin_ = off + nodes * c.bytes) (hbm : begin_ ≤ m.size) (hsz : m.size < W64)
    (hst : step * c.fanout < W64)
    (ha : ∀ idx, idx < nodes → AlignOK b c m.addr (off + idx * c.bytes)) :
    ∃ m', buildUppers b input n counts (c :: cs) ⟨m, begin_, step, h + 1⟩
        = buildUppers b input n counts cs ⟨m', off, c.fanout * step, h⟩ ∧
      InnerLvl A n m' c step off ∧ SameOff m m' off (off + nodes * c.bytes) := by
  obtain ⟨m', e, h1, h2⟩ := buildInner_ok (b := b) (begin_ := off) (m := m) wf hf hlen hval hA hz hn
    (by omega) ha
  refine ⟨m', ?_, h1, h2⟩
  rw [buildUppers]
  rw [if_pos (Nat.succ_pos h)]
  simp only [Nat.add_sub_cancel, hget, ok_bind]
  have e1 : mul64 nodes c.bytes = nodes * c.bytes := mul64_eq (by omega)
  have e2 : sub64 begin_ (nodes * c.bytes) = off := by rw [sub64_eq (by omega) (by omega)]; omega
  rw [e1, e2, e]
  simp only [ok_bind]
  rw [mul64_eq hst, Nat.mul_comm step]

end MRS
