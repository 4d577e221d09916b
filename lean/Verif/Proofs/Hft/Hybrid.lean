import Verif.Proofs.Hft.Blocks

/-! # Hybrid -/

set_option autoImplicit false

namespace MRS.Hft
open Outcome Spec.Tree

/-- Elements per block. -/
def HCfg.C (c : HCfg) : Nat := 2 ^ c.cut

theorem HCfg.C_pos (c : HCfg) : 0 < c.C := Nat.two_pow_pos _

theorem HCfg.shr (c : HCfg) (x : Nat) : x >>> c.cut = x / c.C := Nat.shiftRight_eq_div_pow _ _

theorem HCfg.and (c : HCfg) (x : Nat) : x &&& c.bottomSize = x % c.C := by
  unfold HCfg.bottomSize HCfg.C
  exact Nat.and_two_pow_sub_one_eq_mod _ _

theorem HCfg.bot_succ (c : HCfg) : c.bottomSize + 1 = c.C := by
  have := c.C_pos
  unfold HCfg.bottomSize HCfg.C at *
  omega

/-- What the object holds. -/
structure HHolds (c : HCfg) (A : List Int) (o : Hybrid) : Prop where
  size : o.size = A.length
  top : ObjHolds c.topCfg (topArr c.C A).length (pre (topArr c.C A)) c.top o.top
  flen : o.forest.len = A.length / c.C + 1
  bot : ∀ i, i ≤ A.length / c.C →
    ObjHolds c.cfg (botArr c.C A i).length (pre (botArr c.C A i)) c.bottom (o.forest.f i)

/-- What the two classes need. -/
structure HFits (c : HCfg) (n : Nat) : Prop where
  top : Fits c.topCfg (n / c.C) c.top
  bot : ∀ m, m ≤ n → m ≤ c.C - 1 → Fits c.cfg m c.bottom
  bound : c.top.compressed = true → c.cfg.bound * 2 ^ c.cut < W64

theorem HFits.topA {c : HCfg} {A : List Int} (h : HFits c A.length) :
    Fits c.topCfg (topArr c.C A).length c.top := by rw [topArr_length]; exact h.top

theorem HFits.botA {c : HCfg} {A : List Int} (h : HFits c A.length) (i : Nat) :
    Fits c.cfg (botArr c.C A i).length c.bottom :=
  h.bot _ (by rw [botArr_length]; omega) (by rw [botArr_length]; omega)

/-- Elements within bounds, for the classes that need it. -/
def HB (c : HCfg) (A : List Int) : Prop :=
  c.top.compressed = true ∨ c.bottom.compressed = true → Within c.cfg.bound A

theorem HB.top {c : HCfg} {A : List Int} (hf : HFits c A.length) (h : HB c A) :
    c.top.compressed = true → Within c.topCfg.bound (topArr c.C A) := by
  intro hk
  have := topArr_within (C := c.C) (h (Or.inl hk))
  rwa [show c.topCfg.bound = c.cfg.bound * c.C from Nat.mod_eq_of_lt (hf.bound hk)]

theorem HB.bot {c : HCfg} {A : List Int} (h : HB c A) (i : Nat) :
    c.bottom.compressed = true → Within c.cfg.bound (botArr c.C A i) :=
  fun hk => botArr_within (h (Or.inr hk)) i

/-! ## Construction -/

theorem bsize_eq (c : HCfg) {A : List Int} {i : Nat} (hi : i ≤ A.length / c.C) :
    c.bsize A.length ((c.bottomSize + 1) * i) = (botArr c.C A i).length := by
  have hC := c.C_pos
  have hs := c.bot_succ
  unfold HCfg.bsize
  rw [c.and, botArr_length, hs, Nat.mul_comm c.C i]
  have h1 : i * c.C ≤ A.length := Nat.le_trans (Nat.mul_le_mul_right _ hi) (Nat.div_mul_le_self _ _)
  split
  · omega
  · rename_i h
    have hlt : A.length / c.C < i + 1 := by
      rw [Nat.div_lt_iff_lt_mul hC, Nat.add_mul, Nat.one_mul]; omega
    have e : A.length / c.C = i := by omega
    have hdm := Nat.div_add_mod A.length c.C
    rw [e, Nat.mul_comm] at hdm
    omega

/-- The array of the last elements of the blocks, with the first `k` completed to block sums. -/
def mixArr (C : Nat) (A : List Int) (k : Nat) : List Int :=
  (List.range (A.length / C)).map fun i =>
    if i < k then pre A ((i + 1) * C) - pre A (i * C) else A.getD ((i + 1) * C - 1) 0

theorem mixArr_length (C : Nat) (A : List Int) (k : Nat) : (mixArr C A k).length = A.length / C := by
  simp [mixArr]

theorem mixArr_getD {C : Nat} {A : List Int} {k i : Nat} (h : i < A.length / C) :
    (mixArr C A k).getD i 0 =
      if i < k then pre A ((i + 1) * C) - pre A (i * C) else A.getD ((i + 1) * C - 1) 0 := by
  simp [mixArr, List.getD_eq_getElem?_getD, h]

theorem mixArr_all (C : Nat) (A : List Int) : mixArr C A (A.length / C) = topArr C A := by
  apply ext_getD
  · rw [mixArr_length, topArr_length]
  · intro i hi
    rw [mixArr_length] at hi
    rw [mixArr_getD hi, topArr_getD hi, if_pos hi]

theorem mixArr_step {C : Nat} {A : List Int} {k : Nat} (hC : 0 < C) (hk : k < A.length / C) :
    addAt (mixArr C A k) (k + 1) (pre (botArr C A k) (botArr C A k).length) = mixArr C A (k + 1) := by
  have hle : (k + 1) * C ≤ A.length :=
    Nat.le_trans (Nat.mul_le_mul_right _ hk) (Nat.div_mul_le_self _ _)
  rw [Nat.add_mul, Nat.one_mul] at hle
  have hbl : (botArr C A k).length = C - 1 := by rw [botArr_length]; omega
  apply ext_getD
  · rw [addAt_length, mixArr_length, mixArr_length]
  · intro i hi
    rw [addAt_length, mixArr_length] at hi
    rw [addAt_getD _ _ _ _ (by omega) (by rw [mixArr_length]; omega), mixArr_getD hi, mixArr_getD hi]
    by_cases h : i = k
    · subst h
      rw [if_neg (by omega), if_pos (by omega), if_pos (by omega), hbl, pre_botArr (Nat.le_refl _)]
      have e : pre A ((i + 1) * C) = pre A (i * C + (C - 1)) + A.getD (i * C + (C - 1)) 0 := by
        rw [← pre_succ]; congr 1; rw [Nat.add_mul, Nat.one_mul]; omega
      have e2 : (i + 1) * C - 1 = i * C + (C - 1) := by rw [Nat.add_mul, Nat.one_mul]; omega
      rw [e, e2]; omega
    · rw [if_neg (show ¬ i = k + 1 - 1 by omega)]
      by_cases h2 : i < k
      · rw [if_pos h2, if_pos (by omega)]; omega
      · rw [if_neg h2, if_neg (by omega)]; omega

theorem mixArr_within {B C : Nat} {A : List Int} (hC : 0 < C) (h : Within B A) (k : Nat) :
    Within (B * C) (mixArr C A k) := by
  intro a ha
  simp only [mixArr, List.mem_map] at ha
  obtain ⟨i, -, rfl⟩ := ha
  split
  · have := within_range h (i * C) C
    rw [Nat.add_mul, Nat.one_mul]
    exact this
  · have := within_getD h ((i + 1) * C - 1)
    have h2 : B ≤ B * C := Nat.le_mul_of_pos_right _ hC
    omega

theorem buildTop_ok {c : HCfg} {A : List Int} (hf : HFits c A.length) (hb : HB c A) :
    ∃ o, buildTop c (array A) A.length = ok o ∧
      ObjHolds c.topCfg (A.length / c.C) (pre (mixArr c.C A 0)) c.top o := by
  unfold buildTop
  simp only
  rw [c.shr, c.bot_succ]
  have hC := c.C_pos
  obtain ⟨s, e, h1, h2⟩ := forFrom_inv
    (body := fun i s => do
      let x ← (array A).get (i * c.C - 1)
      Vec.set s (i - 1) x)
    (fun i s => s.len = A.length / c.C ∧ ∀ j, j + 1 < i → s.f j = u64 (A.getD ((j + 1) * c.C - 1) 0))
    (A.length / c.C) 1 (words (A.length / c.C)) ⟨rfl, fun j hj => by omega⟩
    (by
      intro i s hi hlt ⟨hl, hs⟩
      have hle : i * c.C ≤ A.length :=
        Nat.le_trans (Nat.mul_le_mul_right _ (by omega)) (Nat.div_mul_le_self A.length c.C)
      have hp : 0 < i * c.C := Nat.mul_pos (by omega) hC
      rw [Vec.get_ok (by show i * c.C - 1 < A.length; omega), ok_bind]
      refine ⟨_, Vec.set_ok _ (by omega), hl, fun j hj => ?_⟩
      show (if j = i - 1 then _ else _) = _
      by_cases h : j = i - 1
      · rw [if_pos h, h, Nat.sub_add_cancel hi]; rfl
      · rw [if_neg h]; exact hs j (by omega))
  rw [e, ok_bind]
  have hml := mixArr_length c.C A 0
  obtain ⟨o, e', h⟩ := build_seq (c := c.topCfg) (k := c.top) (A := mixArr c.C A 0) (seq := s)
    (by rw [hml]; exact hf.top)
    (fun hk => by
      have := mixArr_within (C := c.C) c.C_pos (hb (Or.inl hk)) 0
      rwa [show c.topCfg.bound = c.cfg.bound * c.C from Nat.mod_eq_of_lt (hf.bound hk)])
    (by rw [hml, h1]; exact Nat.le_refl _)
    (fun i hi => by
      rw [hml] at hi
      rw [mixArr_getD hi, if_neg (by omega), h2 i (by omega)])
  rw [hml] at e' h
  exact ⟨o, e', h⟩

theorem hybridBuild_ok {c : HCfg} {A : List Int} (hf : HFits c A.length) (hb : HB c A) :
    ∃ o, hybridBuild c (array A) A.length = ok o ∧ HHolds c A o := by
  have hC := c.C_pos
  obtain ⟨top, et, ht⟩ := buildTop_ok hf hb
  have hsz := size_eq ht
  unfold hybridBuild
  rw [et, ok_bind, hsz]
  obtain ⟨forest, ef, fl, fh⟩ := forN_inv
    (body := fun i v => do
      let o ← build c.cfg (vecShift (array A) ((c.bottomSize + 1) * i))
        (c.bsize A.length ((c.bottomSize + 1) * i)) c.bottom
      ok (vecPush v o))
    (fun i v => v.len = i ∧ ∀ j, j < i → ObjHolds c.cfg (botArr c.C A j).length
      (pre (botArr c.C A j)) c.bottom (v.f j))
    (A.length / c.C + 1) ⟨0, fun _ => top⟩ ⟨rfl, fun j hj => by omega⟩
    (by
      intro i v hi ⟨hl, hv⟩
      have hle : i * c.C ≤ A.length :=
        Nat.le_trans (Nat.mul_le_mul_right _ (by omega)) (Nat.div_mul_le_self A.length c.C)
      rw [bsize_eq c (by omega)]
      obtain ⟨o, e, h⟩ := build_seq (seq := vecShift (array A) ((c.bottomSize + 1) * i))
        (hf.botA (A := A) i) (hb.bot i)
        (by
          rw [botArr_length, c.bot_succ, Nat.mul_comm]
          simp only [vecShift, array]; omega)
        (fun j hj => by
          rw [botArr_length] at hj
          rw [botArr_getD, if_pos (by omega), c.bot_succ, Nat.mul_comm]; rfl)
      rw [e, ok_bind]
      refine ⟨_, rfl, by simp [vecPush, hl], fun j hj => ?_⟩
      simp only [vecPush]
      by_cases hjl : j = v.len
      · rw [if_pos hjl, hjl, hl]; exact h
      · rw [if_neg hjl]; exact hv j (by omega))
  have ef' : (forN (A.length / c.C + 1) (fun i v => do
      let next := (c.bottomSize + 1) * i
      let o ← build c.cfg (vecShift (array A) next) (c.bsize A.length next) c.bottom
      ok (vecPush v o)) ⟨0, fun _ => top⟩) = ok forest := ef
  rw [ef', ok_bind]
  obtain ⟨top', et', ht'⟩ := forN_inv
    (body := fun i t => do
      let b ← forest.get i
      let s ← b.prefix c.cfg b.size
      t.add c.topCfg (i + 1) s)
    (fun k t => ObjHolds c.topCfg (A.length / c.C) (pre (mixArr c.C A k)) c.top t)
    (A.length / c.C) top ht
    (by
      intro i t hi hh
      have hbi := fh i (by omega)
      rw [Vec.get_ok (by omega), ok_bind, size_eq hbi,
        prefix_ok (hf.botA i) hbi (pre_zero _) (Nat.le_refl _), ok_bind]
      have hml := mixArr_length c.C A i
      have step := mixArr_step (A := A) (k := i) hC hi
      rw [← hml] at hh
      obtain ⟨o', e, h⟩ := addAt_ok (d := pre (botArr c.C A i) (botArr c.C A i).length)
        (idx := i + 1) (by rw [hml]; exact hf.top) (by omega)
        (fun hk => by
          rw [step]
          have := mixArr_within (C := c.C) c.C_pos (hb (Or.inl hk)) (i + 1)
          rwa [show c.topCfg.bound = c.cfg.bound * c.C from Nat.mod_eq_of_lt (hf.bound hk)]) hh
      rw [step, hml] at h
      exact ⟨o', e, h⟩)
  rw [et', ok_bind]
  refine ⟨_, rfl, rfl, ?_, fl, fun i hi => fh i (by omega)⟩
  rw [topArr_length, ← mixArr_all]
  exact ht'

/-! ## prefix and add -/

theorem bot_len {c : HCfg} {A : List Int} {idx : Nat} (h : idx ≤ A.length) :
    idx % c.C ≤ (botArr c.C A (idx / c.C)).length := by
  have hC := c.C_pos
  have hdm := Nat.div_add_mod idx c.C
  have hlt := Nat.mod_lt idx hC
  rw [Nat.mul_comm] at hdm
  rw [botArr_length]; omega

theorem add64_u64 (a b : Int) : add64 (u64 a) (u64 b) = u64 (a + b) := by
  unfold add64 u64
  simp only [W64]
  omega

theorem hprefix_ok {c : HCfg} {A : List Int} {o : Hybrid} (hf : HFits c A.length)
    (h : HHolds c A o) {idx : Nat} (hi : idx ≤ A.length) :
    o.prefix c idx = ok (u64 (pre A idx)) := by
  have hC := c.C_pos
  have hq : idx / c.C ≤ A.length / c.C := Nat.div_le_div_right hi
  have hdm := Nat.div_add_mod idx c.C
  have hlt := Nat.mod_lt idx hC
  rw [Nat.mul_comm] at hdm
  unfold Hybrid.prefix
  rw [c.shr, c.and, prefix_ok hf.topA h.top (pre_zero _) (by rw [topArr_length]; exact hq), ok_bind,
    Vec.get_ok (by rw [h.flen]; omega), ok_bind,
    prefix_ok (hf.botA _) (h.bot _ hq) (pre_zero _) (bot_len hi), ok_bind, add64_u64,
    pre_topArr hq, pre_botArr (by omega), hdm]
  congr 2
  omega

theorem hadd_ok {c : HCfg} {A : List Int} {o : Hybrid} {idx : Nat} {d : Int}
    (hf : HFits c A.length) (hi : 0 < idx)
    (hdef : idx % c.C = 0 ∨ idx / c.C ≤ A.length / c.C)
    (hb : HB c (addAt A idx d)) (h : HHolds c A o) :
    ∃ o', o.add c idx (u64 d) = ok o' ∧ HHolds c (addAt A idx d) o' := by
  have hC := c.C_pos
  have hdm := Nat.div_add_mod idx c.C
  have hlt := Nat.mod_lt idx hC
  rw [Nat.mul_comm] at hdm
  have hl := addAt_length A idx d
  unfold Hybrid.add
  simp only
  rw [c.shr, c.and]
  by_cases hn : idx ≤ A.length
  · have hq : idx / c.C ≤ A.length / c.C := Nat.div_le_div_right hn
    have htop : ∃ t', o.top.add c.topCfg (topIdx c.C idx) (u64 d) = ok t' ∧
        ObjHolds c.topCfg (topArr c.C (addAt A idx d)).length (pre (topArr c.C (addAt A idx d))) c.top t' := by
      have e := addAt_topArr (A := A) d hC hi hn
      obtain ⟨t', e', h'⟩ := addAt_ok (d := d) (idx := topIdx c.C idx) hf.topA (by
          unfold topIdx; split
          · rename_i hz
            rcases Nat.eq_zero_or_pos (idx / c.C) with e | e
            · rw [e, Nat.zero_mul] at hdm; omega
            · exact e
          · exact Nat.succ_pos _)
        (by rw [e]; exact HB.top (A := addAt A idx d) (by rw [hl]; exact hf) hb) h.top
      rw [e] at h'
      refine ⟨t', e', ?_⟩
      rw [topArr_length] at h' ⊢
      rw [hl]; exact h'
    obtain ⟨t', et, ht⟩ := htop
    by_cases hz : idx % c.C = 0
    · rw [if_pos hz]
      have e0 : topIdx c.C idx = idx / c.C := by unfold topIdx; rw [if_pos hz]
      rw [e0] at et
      rw [et, ok_bind]
      refine ⟨_, rfl, by rw [h.size, hl], ht, by rw [hl]; exact h.flen, fun i hi' => ?_⟩
      rw [hl] at hi'
      rw [botArr_addAt d hC hi hn (Or.inl hz)]
      exact h.bot i hi'
    · rw [if_neg hz]
      have e0 : topIdx c.C idx = idx / c.C + 1 := by unfold topIdx; rw [if_neg hz]
      rw [e0] at et
      have e := addAt_botArr (A := A) d hC hn hz
      obtain ⟨b', eb, hb'⟩ := addAt_ok (d := d) (idx := idx % c.C) (hf.botA (A := A) (idx / c.C)) (by omega)
        (by rw [e]; exact HB.bot hb _) (h.bot _ hq)
      rw [e] at hb'
      rw [et, ok_bind, Vec.get_ok (by rw [h.flen]; omega), ok_bind, eb, ok_bind,
        Vec.set_ok _ (by rw [h.flen]; omega), ok_bind]
      refine ⟨_, rfl, by rw [h.size, hl], ht, by rw [hl]; exact h.flen, fun i hi' => ?_⟩
      rw [hl] at hi'
      show ObjHolds _ _ _ _ (if i = idx / c.C then b' else o.forest.f i)
      by_cases hiq : i = idx / c.C
      · rw [if_pos hiq, hiq]
        rw [botArr_length] at hb' ⊢
        rw [hl]; exact hb'
      · rw [if_neg hiq, botArr_addAt d hC hi hn (Or.inr hiq)]
        exact h.bot i hi'
  · have hout : A.length < idx := by omega
    rw [addAt_out A idx d hout]
    have hq : A.length / c.C ≤ idx / c.C := Nat.div_le_div_right (by omega)
    by_cases hz : idx % c.C = 0
    · rw [if_pos hz, objAdd_out _ h.top (by
        rw [topArr_length, Nat.div_lt_iff_lt_mul hC]; omega), ok_bind]
      exact ⟨_, rfl, h.size, h.top, h.flen, h.bot⟩
    · have he : idx / c.C = A.length / c.C := by
        rcases hdef with h1 | h1
        · exact absurd h1 hz
        · omega
      have hnm := Nat.div_add_mod A.length c.C
      rw [Nat.mul_comm, ← he] at hnm
      rw [if_neg hz, objAdd_out _ h.top (by rw [topArr_length]; omega), ok_bind,
        Vec.get_ok (by rw [h.flen]; omega), ok_bind, objAdd_out _ (h.bot _ (by omega)) (by
          rw [botArr_length]; omega), ok_bind, Vec.set_ok _ (by rw [h.flen]; omega), ok_bind]
      refine ⟨_, rfl, h.size, h.top, h.flen, fun i hi' => ?_⟩
      show ObjHolds _ _ _ _ (if i = idx / c.C then _ else o.forest.f i)
      split
      · rename_i e; rw [e]; exact h.bot _ (by omega)
      · exact h.bot i hi'

/-- Past the last block, `add` reads the forest out of bounds. -/
theorem hadd_oob {c : HCfg} {A : List Int} {o : Hybrid} {idx : Nat} (inc : Nat)
    (hz : idx % c.C ≠ 0) (hq : A.length / c.C < idx / c.C) (h : HHolds c A o) :
    o.add c idx inc = ub .oob := by
  unfold Hybrid.add
  simp only
  rw [c.shr, c.and, if_neg hz, objAdd_out _ h.top (by rw [topArr_length]; omega), ok_bind]
  unfold Vec.get
  rw [if_neg (by rw [h.flen]; omega)]
  rfl

/-- Every intermediate array is within bounds, for the classes that need it. -/
def HStays (c : HCfg) (A : List Int) (ops : List (Nat × Int)) : Prop :=
  c.top.compressed = true ∨ c.bottom.compressed = true → StaysWithin c.cfg.bound A ops

theorem hadds_ok {c : HCfg} : ∀ (ops : List (Nat × Int)) {A : List Int} {o : Hybrid},
    HFits c A.length → (∀ op ∈ ops, 0 < op.1 ∧ (op.1 % c.C = 0 ∨ op.1 / c.C ≤ A.length / c.C)) →
    HStays c A ops → HHolds c A o → ∃ o', o.adds c ops = ok o' ∧ HHolds c (after A ops) o'
  | [], A, o, _, _, _, h => ⟨o, rfl, h⟩
  | op :: ops, A, o, hf, hi, hb, h => by
    have h0 := hi op (List.mem_cons_self ..)
    obtain ⟨o1, e1, h1⟩ := hadd_ok (d := op.2) hf h0.1 h0.2
      (fun hk => staysWithin_first (hb hk).2) h
    have hl := addAt_length A op.1 op.2
    obtain ⟨o2, e2, h2⟩ := hadds_ok ops (A := addAt A op.1 op.2) (by rw [hl]; exact hf)
      (fun op' hm => by rw [hl]; exact hi op' (List.mem_cons_of_mem _ hm))
      (fun hk => (hb hk).2) h1
    exact ⟨o2, by rw [Hybrid.adds, e1, ok_bind, e2], h2⟩

/-! ## Searches -/

theorem search_eq (c : HCfg) (o : Hybrid) (ftop fbot : Obj → Nat → Outcome (Nat × Nat)) (val : Nat) :
    o.search c ftop fbot val =
      (if o.top.size ≠ 0 then ftop o.top val else ok (0, val)) >>= fun r =>
      (if r.1 < o.forest.len then o.forest.get r.1 >>= fun b => fbot b r.2 else ok (0, r.2)) >>= fun q =>
      ok (r.1 <<< c.cut + q.1, q.2) := by
  unfold Hybrid.search
  have aux : ∀ r : Nat × Nat,
      (if r.1 < o.forest.len then do
          let b ← o.forest.get r.1
          let q ← fbot b r.2
          ok (r.1 <<< c.cut + q.1, q.2)
        else do
          let q ← ok (0, r.2)
          ok (r.1 <<< c.cut + q.1, q.2)) =
      ((if r.1 < o.forest.len then o.forest.get r.1 >>= fun b => fbot b r.2 else ok (0, r.2)) >>= fun q =>
        ok (r.1 <<< c.cut + q.1, q.2)) := by
    intro r
    split
    · cases o.forest.get r.1 <;> rfl
    · rfl
  simp only [aux]
  split <;> rfl

/-- The search in the large tree. -/
theorem hsearch_top {c : HCfg} {A A' : List Int} {o : Hybrid} {val : Nat}
    {ftop : Obj → Nat → Outcome (Nat × Nat)} (h : HHolds c A o) (hl : A'.length = A.length)
    (ht : 0 < A.length / c.C → ∃ r d, ftop o.top val = ok (r, d) ∧
      Spec.Tree.IsFind (topArr c.C A') val r ∧ (d : Int) = val - pre (topArr c.C A') r) :
    ∃ r d, (if o.top.size ≠ 0 then ftop o.top val else ok (0, val)) = ok (r, d) ∧
      Spec.Tree.IsFind (topArr c.C A') val r ∧ (d : Int) = val - pre (topArr c.C A') r := by
  have hts := size_eq h.top
  rw [topArr_length] at hts
  by_cases hz : A.length / c.C = 0
  · have hlen : (topArr c.C A').length = 0 := by rw [topArr_length, hl, hz]
    refine ⟨0, val, by rw [if_neg (by rw [hts, hz]; decide)], ⟨by omega, ?_, fun j hj _ => by omega⟩, ?_⟩
    · rw [pre_zero]; omega
    · rw [pre_zero]; omega
  · obtain ⟨r, d, e, hr⟩ := ht (by omega)
    exact ⟨r, d, by rw [if_pos (by rw [hts]; exact hz), e], hr⟩

/-- A search in the large tree, then in the small tree of the block it found. -/
theorem hsearch_ok {c : HCfg} {A A' : List Int} {o : Hybrid} {val : Nat}
    {ftop fbot : Obj → Nat → Outcome (Nat × Nat)} (h : HHolds c A o) (hl : A'.length = A.length)
    (hA : ∀ a ∈ A', 0 ≤ a)
    (ht : 0 < A.length / c.C → ∃ r d, ftop o.top val = ok (r, d) ∧
      Spec.Tree.IsFind (topArr c.C A') val r ∧ (d : Int) = val - pre (topArr c.C A') r)
    (hb : ∀ i v, i ≤ A.length / c.C → pre A' (i * c.C) ≤ val → ∃ r d, fbot (o.forest.f i) v = ok (r, d) ∧
      Spec.Tree.IsFind (botArr c.C A' i) v r ∧ (d : Int) = v - pre (botArr c.C A' i) r) :
    ∃ r d, o.search c ftop fbot val = ok (r, d) ∧ Spec.Tree.IsFind A' val r ∧
      (d : Int) = val - pre A' r := by
  have hC := c.C_pos
  obtain ⟨t, v', e1, ht1, ht2⟩ := hsearch_top h hl ht
  have htl : t ≤ A.length / c.C := by
    have := ht1.1
    rwa [topArr_length, hl] at this
  have hpt := pre_topArr (C := c.C) (A := A') (j := t) (by rw [hl]; exact htl)
  obtain ⟨b, d, e2, hb1, hb2⟩ := hb t v' htl (by rw [← hpt]; exact ht1.2.1)
  rw [search_eq, e1, ok_bind, if_pos (by rw [h.flen]; show t < _; omega),
    Vec.get_ok (by rw [h.flen]; show t < _; omega), ok_bind, e2, ok_bind, Nat.shiftLeft_eq]
  rw [hpt] at ht2
  have := isFind_blocks hC hA ht1 ht2 hb1
  refine ⟨_, _, rfl, this.1, ?_⟩
  show (d : Int) = val - pre A' (t * c.C + b)
  omega

/-- The small tree that the search ends in is empty: what its search does is what happens. -/
theorem hsearch_empty {c : HCfg} {A A' : List Int} {o : Hybrid} {val : Nat} {f : Fault}
    {ftop fbot : Obj → Nat → Outcome (Nat × Nat)} (h : HHolds c A o) (hl : A'.length = A.length)
    (ht : 0 < A.length / c.C → ∃ r d, ftop o.top val = ok (r, d) ∧
      Spec.Tree.IsFind (topArr c.C A') val r ∧ (d : Int) = val - pre (topArr c.C A') r)
    (hz : c.cut = 0 ∨ A.length % c.C = 0 ∧ pre A' A.length ≤ val)
    (hb : ∀ i v, i ≤ A.length / c.C → (botArr c.C A i).length = 0 → fbot (o.forest.f i) v = ub f) :
    o.search c ftop fbot val = ub f := by
  have hC := c.C_pos
  obtain ⟨t, v', e1, ht1, ht2⟩ := hsearch_top h hl ht
  have htl : t ≤ A.length / c.C := by
    have := ht1.1
    rwa [topArr_length, hl] at this
  have hempty : (botArr c.C A t).length = 0 := by
    rw [botArr_length]
    rcases hz with hz | ⟨hz, hv⟩
    · have : c.C = 1 := by unfold HCfg.C; rw [hz]
      omega
    · have e : A.length / c.C * c.C = A.length := by
        have := Nat.div_add_mod A.length c.C
        rw [Nat.mul_comm] at this; omega
      have := ht1.2.2 (A.length / c.C) (by rw [topArr_length, hl]; exact Nat.le_refl _) (by
        rw [pre_topArr (by rw [hl]; exact Nat.le_refl _), e]; exact hv)
      have e2 : t = A.length / c.C := by omega
      rw [e2, e]; omega
  rw [search_eq, e1, ok_bind, if_pos (by rw [h.flen]; show t < _; omega),
    Vec.get_ok (by rw [h.flen]; show t < _; omega), ok_bind, hb t v' htl hempty]
  rfl

/-- A block with elements, or a class that searches empty trees. -/
theorem bot_nonempty {c : HCfg} {A : List Int} {val i : Nat} {A' : List Int} (hi : i ≤ A.length / c.C)
    (hc : 0 < c.cut) (h : A.length % c.C ≠ 0 ∨ val < pre A' A.length)
    (hp : pre A' (i * c.C) ≤ val) : 0 < (botArr c.C A i).length := by
  have hC2 : 2 ≤ c.C := by
    unfold HCfg.C
    exact Nat.pow_le_pow_right (n := 2) (by decide) hc
  have hle : i * c.C ≤ A.length :=
    Nat.le_trans (Nat.mul_le_mul_right _ hi) (Nat.div_mul_le_self A.length c.C)
  have hlt : i * c.C < A.length := by
    rcases Nat.lt_or_ge (i * c.C) A.length with h1 | h1
    · exact h1
    · have e : i * c.C = A.length := by omega
      rcases h with h | h
      · rw [← e, Nat.mul_mod_left] at h; exact absurd rfl h
      · rw [e] at hp; omega
  rw [botArr_length]; omega

/-- The number of elements of a block. -/
theorem bot_size {c : HCfg} {A : List Int} {i : Nat} (hi : i ≤ A.length / c.C) :
    (botArr c.C A i).length + 1 = 2 ^ c.cut ∨ (botArr c.C A i).length = A.length % c.C := by
  have hC := c.C_pos
  have hdm := Nat.div_add_mod A.length c.C
  have hlt := Nat.mod_lt A.length hC
  rw [Nat.mul_comm] at hdm
  rw [botArr_length]
  rcases Nat.lt_or_ge i (A.length / c.C) with h | h
  · left
    have : (i + 1) * c.C ≤ A.length / c.C * c.C := Nat.mul_le_mul_right _ h
    rw [Nat.add_mul, Nat.one_mul] at this
    show _ = c.C
    omega
  · right
    have e : i = A.length / c.C := by omega
    rw [e]; omega

end MRS.Hft
