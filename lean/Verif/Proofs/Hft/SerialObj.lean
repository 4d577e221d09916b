import Verif.Proofs.Hft.Serial

/-! # Streams: whole objects -/

set_option autoImplicit false

namespace MRS.Hft
open Outcome Spec.Stream

/-! ## Writing and reading back members -/

theorem fWrite_ok {w : Nat} (hw : Wd w) (size : Nat) (t : Vec Nat) (os : List Nat) :
    fWrite w size t os = ok (os ++ (big 8 size ++ counted w t.toList)) := by
  unfold fWrite
  rw [writeU64_eq, daWrite_ok hw, List.append_assoc]

theorem fRead_ok {w size : Nat} (hw : Wd w) {t : Vec Nat} (hs : size < 256 ^ 8) (ht : t.len < 256 ^ 8)
    (rest : List Nat) : ∃ t' : Vec Nat,
      fRead w ⟨big 8 size ++ counted w t.toList ++ rest, false⟩ = ok (⟨size, t'⟩, ⟨rest, false⟩) ∧
      t'.len = t.len ∧ ∀ i, i < t.len → t'.f i = t.f i % 256 ^ w := by
  obtain ⟨t', e, h⟩ := daRead_ok hw ht rest
  refine ⟨t', ?_, h⟩
  unfold fRead
  rw [List.append_assoc, readU64_ok _ hs, ok_bind]
  simp only
  rw [e, ok_bind]

theorem lWriteHead_ok {T : Type} {t : LTree T} (hl : t.level.len = t.levels) (os : List Nat) :
    lWriteHead t os = ok (os ++ (big 8 t.size ++ counted 8 t.level.toList)) := by
  unfold lWriteHead
  obtain ⟨s, e, h⟩ := forN_inv (body := fun i os => do
      let x ← t.level.get i
      ok (writeU64 os x))
    (fun i s => s = os ++ (big 8 t.size ++ (big 8 t.levels ++ bigs 8 ((List.range i).map t.level.f))))
    t.levels (writeU64 (writeU64 os t.size) t.levels)
    (by rw [writeU64_eq, writeU64_eq]; simp [bigs])
    (fun i s hi hs => by
      refine ⟨_, by rw [Vec.get_ok (by omega), ok_bind], ?_⟩
      rw [hs, writeU64_eq, List.range_succ, List.map_append]
      simp [bigs])
  rw [e, h]
  rw [counted, toList_length, hl, Vec.toList, hl]

/-- The loop that reads `Level`. -/
def levelLoop (levels : Nat) (s : IStream) : Outcome (Vec Nat × IStream) :=
  forN levels (fun i (p : Vec Nat × IStream) => do
    let (x, s) ← readU64 p.2
    let v ← p.1.set i x
    ok (v, s)) (words levels, s)

theorem levelLoop_ok {l : List Nat} (h : ∀ x ∈ l, x < 256 ^ 8) (rest : List Nat) :
    ∃ v : Vec Nat, levelLoop l.length ⟨bigs 8 l ++ rest, false⟩ = ok (v, ⟨rest, false⟩) ∧
      v.len = l.length ∧ (∀ i (hi : i < l.length), v.f i = l[i]) ∧ ∀ i, l.length ≤ i → v.f i = 0 := by
  obtain ⟨⟨v, s⟩, e, h1, h2, h3, h4⟩ := forN_inv (body := fun i (p : Vec Nat × IStream) => do
      let (x, s) ← readU64 p.2
      let v ← p.1.set i x
      ok (v, s))
    (fun i (p : Vec Nat × IStream) => p.2 = ⟨bigs 8 (l.drop i) ++ rest, false⟩ ∧
      p.1.len = l.length ∧ (∀ j (hj : j < l.length), j < i → p.1.f j = l[j]) ∧
      ∀ j, l.length ≤ j → p.1.f j = 0) l.length
    (words l.length, ⟨bigs 8 l ++ rest, false⟩)
    ⟨rfl, rfl, fun _ _ h => absurd h (by omega), fun _ _ => rfl⟩
    (fun i p hi hp => by
      obtain ⟨t, s⟩ := p
      obtain ⟨hs, hl, hd, hz⟩ := hp
      simp only at hs hl hd hz
      simp only
      have e1 : bigs 8 (l.drop i) ++ rest = big 8 l[i] ++ (bigs 8 (l.drop (i + 1)) ++ rest) := by
        rw [List.drop_eq_getElem_cons hi, bigs, List.flatMap_cons, List.append_assoc]; rfl
      rw [hs, e1, readU64_ok _ (h _ (List.getElem_mem hi)), ok_bind]
      simp only
      rw [Vec.set_ok _ (by omega), ok_bind]
      refine ⟨_, rfl, rfl, hl, fun j hj hji => ?_, fun j hj => ?_⟩
      · simp only
        by_cases e2 : j = i
        · subst e2; simp
        · rw [if_neg e2]; exact hd j hj (by omega)
      · simp only
        rw [if_neg (by omega)]; exact hz j hj)
  simp only at h1 h2 h3 h4
  refine ⟨v, ?_, h2, fun i hi => h3 i hi hi, h4⟩
  unfold levelLoop
  rw [e, h1, List.drop_of_length_le (Nat.le_refl _)]
  rfl

theorem lRead_eq (w : Nat) (s : IStream) : lRead w s = (do
    let (size, s) ← readU64 s
    let (levels, s) ← readU64 s
    let (level, s) ← levelLoop levels s
    let (t, s) ← daRead w s
    ok (⟨size, levels, level, t⟩, s)) := rfl

theorem toList_get (t : Vec Nat) {i : Nat} (h : i < t.toList.length) : t.toList[i] = t.f i := by
  simp [Vec.toList]

theorem lRead_ok {w size : Nat} (hw : Wd w) {level t : Vec Nat} (hs : size < 256 ^ 8)
    (hL : level.len < 256 ^ 8) (hl : ∀ i, i < level.len → level.f i < 256 ^ 8) (ht : t.len < 256 ^ 8)
    (rest : List Nat) : ∃ level' t' : Vec Nat,
      lRead w ⟨big 8 size ++ counted 8 level.toList ++ counted w t.toList ++ rest, false⟩ =
        ok (⟨size, level.len, level', t'⟩, ⟨rest, false⟩) ∧
      (level'.len = level.len ∧ ∀ i, i < level.len → level'.f i = level.f i) ∧
      t'.len = t.len ∧ ∀ i, i < t.len → t'.f i = t.f i % 256 ^ w := by
  obtain ⟨t', e, h⟩ := daRead_ok hw ht rest
  have hll := toList_length level
  obtain ⟨v, e2, h1, h2, -⟩ := levelLoop_ok (l := level.toList) (fun x hx => by
    rw [Vec.toList, List.mem_map] at hx
    obtain ⟨i, hi, rfl⟩ := hx
    exact hl i (List.mem_range.1 hi)) (counted w t.toList ++ rest)
  rw [hll] at e2 h1
  refine ⟨v, t', ?_, ⟨h1, fun i hi => ?_⟩, h⟩
  · rw [lRead_eq, List.append_assoc, List.append_assoc, readU64_ok _ hs, ok_bind]
    simp only
    rw [counted, hll, List.append_assoc, readU64_ok _ hL, ok_bind]
    simp only
    rw [e2, ok_bind]
    simp only
    rw [e, ok_bind]
  · rw [h2 i (by rw [hll]; exact hi), toList_get]

/-! ## Representations -/

theorem VRep.of_eq {n N : Nat} {pos : Nat → Nat} {t t' : Vec Nat} {v : Nat → Nat}
    (hc : Cells n N pos) (h : VRep n N pos t v) (hv : ∀ i, 0 < i → i ≤ n → v i < W64)
    (hl : t'.len = t.len) (hf : ∀ i, i < t.len → t'.f i = t.f i % 256 ^ 8) : VRep n N pos t' v := by
  refine ⟨by rw [hl, h.len], fun i h0 h1 => ?_⟩
  rw [hf _ (by rw [h.len]; exact hc.lt i h0 h1), h.val i h0 h1]
  exact Nat.mod_eq_of_lt (hv i h0 h1)

theorem FRep.of_eq {n N : Nat} {pos wd : Nat → Nat} {m : Mem} {t : Vec Nat} {v : Nat → Nat}
    (hc : ∀ i, 0 < i → i ≤ n → pos i + wd i ≤ 8 * N) (h : FRep n N pos wd m v)
    (hl : t.len = m.size) (hf : ∀ i, i < m.size → t.f i = m.byte i % 256 ^ 1) :
    FRep n N pos wd (vecMem t) v := by
  refine ⟨by rw [← h.size, ← hl]; rfl, rfl, fun i h0 h1 => ⟨(h.fld i h0 h1).1, fun j hj => ?_⟩⟩
  have := hc i h0 h1
  rw [(h.fld i h0 h1).2 j hj]
  unfold bitAt vecMem
  simp only
  rw [hf _ (by rw [h.size]; omega), show (256 ^ 1 : Nat) = 2 ^ 8 by decide, Nat.testBit_mod_two_pow]
  simp only [show (pos i + j) % 8 < 8 by omega, decide_true, Bool.true_and]

theorem LevOk.of_eq {hsize : Nat → Nat} {n levels : Nat} {l l' : Vec Nat} (h : LevOk hsize n levels l)
    (hl : l'.len = l.len) (hf : ∀ i, i < l.len → l'.f i = l.f i) : LevOk hsize n levels l' :=
  ⟨by rw [hl, h.len], fun i hi => by rw [hf i (by rw [h.len]; exact hi), h.at_ i hi]⟩

/-! ## Sizes -/

theorem cnt_le (n h : Nat) : cnt n h ≤ n := by
  unfold cnt
  have hp := Nat.two_pow_pos h
  have h1 : n ≤ 2 ^ (h + 1) * n := Nat.le_mul_of_pos_left n (Nat.two_pow_pos _)
  by_cases h0 : n = 0
  · subst h0
    rw [Nat.zero_add, Nat.div_eq_of_lt (by rw [Nat.pow_succ]; omega)]
    exact Nat.le_refl _
  · apply Nat.div_le_of_le_mul
    have h2 : 2 ^ h * 1 ≤ 2 ^ h * n := Nat.mul_le_mul_left _ (by omega)
    have h3 : 1 * n ≤ 2 ^ h * n := Nat.mul_le_mul_right _ hp
    rw [Nat.pow_succ, Nat.mul_assoc, Nat.mul_left_comm]
    omega

theorem levelAt_le {hsize : Nat → Nat} {n B : Nat} : ∀ h, (∀ j, j < h → hsize j ≤ B) →
    levelAt hsize n h ≤ h * (n * B)
  | 0, _ => by simp [levelAt]
  | h + 1, hB => by
    have ih := levelAt_le (n := n) h fun j hj => hB j (by omega)
    have := Nat.mul_le_mul (cnt_le n h) (hB h (by omega))
    rw [levelAt, Nat.add_mul, Nat.one_mul]
    omega

theorem levelsN_le {n : Nat} (h : n < 2 ^ 48) : levelsN n ≤ 49 := by
  unfold levelsN
  split
  · omega
  · rename_i h0
    have := (Nat.log2_lt h0).2 h
    omega

theorem levelAt_lt {hsize : Nat → Nat} {n h : Nat} (hn : n < 2 ^ 48) (hh : h < levelsN n)
    (hB : ∀ j, j < 64 → hsize j ≤ 128) : levelAt hsize n h < 2 ^ 61 := by
  have hl := levelsN_le hn
  have h1 := levelAt_le (hsize := hsize) (n := n) (B := 128) h fun j hj => hB j (by omega)
  have h2 : h * (n * 128) ≤ 49 * (n * 128) := Nat.mul_le_mul_right _ (by omega)
  omega

theorem fixedF_len {n : Nat} (h : n < 2 ^ 48) : fixedFPos n + 1 < 256 ^ 8 := by
  unfold fixedFPos
  rw [Nat.shiftRight_eq_div_pow]
  omega

theorem byteF_len {c : Cfg} {n : Nat} (h : FitF c n 64) : byteFPos c (n + 1) + 8 < 256 ^ 8 := by
  by_cases h0 : n = 0
  · subst h0
    have : byteFPos c (0 + 1) = 0 := by
      simp [byteFPos, byteFHoles]
    rw [this]; decide
  · rw [byteFPos_raw h (Nat.le_refl n) (by omega)]
    have hs := h.size
    have hle := h.le
    have hb : byteFHoles c n ≤ n := by
      unfold byteFHoles
      repeat' split
      · omega
      · rw [Nat.shiftRight_eq_div_pow]; exact Nat.div_le_self _ _
      · rw [Nat.shiftRight_eq_div_pow]; exact Nat.div_le_self _ _
    have q1 : n / 2 ^ (8 * ((c.bs - 1) / 8 + 1) - c.bs + 1) ≤ n := Nat.div_le_self _ _
    have q2 : n / 2 ^ (8 * ((c.bs - 1) / 8 + 1) - c.bs + 1 + 8) * (7 - ((c.bs - 1) / 8 + 1)) ≤ n * 7 :=
      Nat.mul_le_mul (Nat.div_le_self _ _) (by omega)
    have q3 : n * ((c.bs - 1) / 8 + 1) ≤ n * 8 := Nat.mul_le_mul_left _ (by omega)
    have e : (256 ^ 8 : Nat) = 2 ^ 64 := by decide
    rw [e]
    omega

theorem bitF_len {c : Cfg} {n : Nat} (h : FitBitF c n) : (bitFPos c n + 56 + 7) / 8 < 256 ^ 8 := by
  have hs := h.size
  have hle := h.le
  have : bitFPos c n ≤ 56 * n + 1 + n * 64 := by
    unfold bitFPos bitFHoles
    have q1 : (c.bs + 1) * n ≤ 56 * n := Nat.mul_le_mul_right _ (by omega)
    have q2 : n >>> 14 * 64 ≤ n * 64 :=
      Nat.mul_le_mul_right _ (by rw [Nat.shiftRight_eq_div_pow]; exact Nat.div_le_self _ _)
    omega
  have e : (256 ^ 8 : Nat) = 2 ^ 64 := by decide
  rw [e]
  omega

theorem byteLSize_le {c : Cfg} (h : c.bs ≤ 64) (j : Nat) (hj : j < 64) : byteLSize c j ≤ 128 := by
  rw [byteLSize_eq]; omega

theorem bitLSize_le {c : Cfg} (h : c.bs ≤ 64) (j : Nat) (hj : j < 64) : bitLSize c j ≤ 128 := by
  unfold bitLSize; omega

/-! ## Slots lie inside the arrays -/

theorem byteF_in {c : Cfg} {n : Nat} (hc : FitF c n 64) (i : Nat) (h0 : 0 < i) (h1 : i ≤ n) :
    8 * byteFPos c i + 8 * bsz c i ≤ 8 * (byteFPos c (n + 1) + 8) := by
  have := byteF_end hc h0 h1
  have := bsz_le hc h0 h1
  omega

theorem bitF_in {c : Cfg} {n : Nat} (hc : FitBitF c n) (i : Nat) (h0 : 0 < i) (h1 : i ≤ n) :
    bpos c i + bwd c i ≤ 8 * ((bitFPos c n + 56 + 7) / 8) := by
  have := bitF_bytes hc h0 h1
  omega

theorem byteL_in {c : Cfg} {n : Nat} {level : Vec Nat} (hc : FitF c n 64)
    (hl : LevOk (byteLSize c) n (levelsN n) level) (i : Nat) (h0 : 0 < i) (h1 : i ≤ n) :
    8 * posL (byteLSize c) n i + 8 * byteLSize c (tz i) ≤
      8 * (levelAt (byteLSize c) n (levelsN n - 1) + 8) := by
  have hn : i < W64 := by have := hc.size; simp only [W64]; omega
  obtain ⟨ht, k, hk⟩ := tz_spec h0 hn
  obtain ⟨-, a, b, -, d, e⟩ := byteL_facts hc hl (h := tz i) (k := k) (by rw [← hk]; exact h1)
  rw [← hk] at d
  omega

theorem bitL_in {c : Cfg} {n : Nat} {level : Vec Nat} (hc : FitF c n 57)
    (hl : LevOk (bitLSize c) n (levelsN n) level) (i : Nat) (h0 : 0 < i) (h1 : i ≤ n) :
    posL (bitLSize c) n i + bitLSize c (tz i) ≤
      8 * (levelAt (bitLSize c) n (levelsN n - 1) / 8 + 8) := by
  have hn : i < W64 := by have := hc.size; simp only [W64]; omega
  obtain ⟨ht, k, hk⟩ := tz_spec h0 hn
  obtain ⟨p, a, b, c1, d, e, f⟩ := bitL_facts hc hl (h := tz i) (k := k) (by rw [← hk]; exact h1)
  rw [← hk] at e
  omega

/-! ## Objects -/

/-- The members of an object as the numbers that are written. -/
def Obj.image : Obj → List Nat
  | .fixedF t => big 8 t.size ++ counted 8 t.tree.toList
  | .byteF t | .bitF t | .typeF t => big 8 t.size ++ counted 1 (memVec t.tree).toList
  | .fixedL t => big 8 t.size ++ counted 8 t.level.toList ++ counted 8 t.tree.toList
  | .byteL t | .bitL t => big 8 t.size ++ counted 8 t.level.toList ++ counted 1 (memVec t.tree).toList
  | .typeL t => big 8 t.size ++ counted 8 t.level.toList ++ counted 1 t.tree.t8.toList ++
      counted 2 t.tree.t16.toList ++ counted 8 t.tree.t64.toList

/-- `Level` has `Levels` entries. -/
def Obj.LevLen : Obj → Prop
  | .fixedL t => t.level.len = t.levels
  | .byteL t | .bitL t => t.level.len = t.levels
  | .typeL t => t.level.len = t.levels
  | _ => True

theorem objWrite_ok {o : Obj} (h : o.LevLen) (os : List Nat) : o.write os = ok (os ++ o.image) := by
  have w1 : Wd 1 := Or.inl rfl
  have w2 : Wd 2 := Or.inr (Or.inl rfl)
  have w8 : Wd 8 := Or.inr (Or.inr rfl)
  cases o with
  | fixedF t => simp only [Obj.write, Obj.image, fWrite_ok w8]
  | byteF t => simp only [Obj.write, Obj.image, fWrite_ok w1]
  | bitF t => simp only [Obj.write, Obj.image, fWrite_ok w1]
  | typeF t => simp only [Obj.write, Obj.image, fWrite_ok w1]
  | fixedL t => simp only [Obj.write, Obj.image, lWriteHead_ok h, ok_bind, daWrite_ok w8,
      List.append_assoc]
  | byteL t => simp only [Obj.write, Obj.image, lWriteHead_ok h, ok_bind, daWrite_ok w1,
      List.append_assoc]
  | bitL t => simp only [Obj.write, Obj.image, lWriteHead_ok h, ok_bind, daWrite_ok w1,
      List.append_assoc]
  | typeL t => simp only [Obj.write, Obj.image, lWriteHead_ok h, ok_bind, daWrite_ok w1,
      daWrite_ok w2, daWrite_ok w8, List.append_assoc]

theorem objHolds_levLen {c : Cfg} {n : Nat} {P : Nat → Int} {k : Kind} {o : Obj}
    (h : ObjHolds c n P k o) : o.LevLen := by
  cases k <;> cases o <;> first | exact h.elim | trivial | skip
  · exact h.2.2.1.len.trans h.2.1.symm
  · exact h.2.2.1.len.trans h.2.1.symm
  · exact h.2.2.1.len.trans h.2.1.symm
  · obtain ⟨ends, hl⟩ := h.2.2.1
    exact hl.len.trans h.2.1.symm

/-- Writing and reading back. -/
theorem objRead_ok {c : Cfg} {n : Nat} {P : Nat → Int} {k : Kind} {o : Obj} (hk : k.streams = true)
    (hf : Fits c n k) (h : ObjHolds c n P k o) (rest : List Nat) :
    ∃ o', Obj.read k ⟨o.image ++ rest, false⟩ = ok (o', ⟨rest, false⟩) ∧ ObjHolds c n P k o' := by
  have w1 : Wd 1 := Or.inl rfl
  have w8 : Wd 8 := Or.inr (Or.inr rfl)
  have h48 := hf.size
  have e64 : (256 ^ 8 : Nat) = 2 ^ 64 := by decide
  have hsz : n < 256 ^ 8 := by rw [e64]; omega
  have hn : n < W64 := hf.lt
  have hLv := levelsN_le h48
  have hLp := levelsN_pos n
  cases k <;> cases o <;> first | exact h.elim | skip
  · rename_i t
    obtain ⟨e, v, hr, hv⟩ := h
    obtain ⟨t', e1, e2, e3⟩ := fRead_ok (size := t.size) w8 (t := t.tree) (by rw [e]; exact hsz)
      (by rw [hr.len]; exact fixedF_len h48) rest
    refine ⟨.fixedF ⟨t.size, t'⟩, by simp only [Obj.read, Obj.image, e1, ok_bind], e, v, ?_, hv⟩
    exact hr.of_eq (fixedF_cells n) (fun i h0 h1 => by rw [hv i h0 h1]; exact u64_lt _) e2 e3
  · rename_i t
    obtain ⟨e, v, hr, hv⟩ := h
    obtain ⟨t', e1, e2, e3⟩ := fRead_ok (size := t.size) w1 (t := memVec t.tree) (by rw [e]; exact hsz)
      (by show t.tree.size < _; rw [hr.size]; exact byteF_len hf) rest
    refine ⟨.byteF ⟨t.size, vecMem t'⟩, by simp only [Obj.read, Obj.image, e1, ok_bind], e, v, ?_, hv⟩
    exact hr.of_eq (byteF_in hf) e2 e3
  · rename_i t
    obtain ⟨e, v, hr, hv⟩ := h
    obtain ⟨t', e1, e2, e3⟩ := fRead_ok (size := t.size) w1 (t := memVec t.tree) (by rw [e]; exact hsz)
      (by show t.tree.size < _; rw [hr.size]; exact bitF_len hf) rest
    refine ⟨.bitF ⟨t.size, vecMem t'⟩, by simp only [Obj.read, Obj.image, e1, ok_bind], e, v, ?_, hv⟩
    exact hr.of_eq (bitF_in hf) e2 e3
  · cases hk
  · rename_i t
    obtain ⟨e, el, hl, v, hr, hv⟩ := h
    have hB : ∀ i, i < levelsN n → levelAt (fun _ => 1) n i < 2 ^ 61 := fun i hi =>
      levelAt_lt h48 hi (fun _ _ => by omega)
    obtain ⟨l', t', e1, ⟨e2, e3⟩, e4, e5⟩ := lRead_ok (size := t.size) w8 (level := t.level)
      (t := t.tree) (by rw [e]; exact hsz) (by rw [hl.len, e64]; omega)
      (fun i hi => by
        rw [hl.len] at hi
        rw [hl.at_ i hi, e64]; have := hB i hi; omega)
      (by rw [hr.len, e64]; have := hB (levelsN n - 1) (by omega); omega) rest
    refine ⟨.fixedL ⟨t.size, t.level.len, l', t'⟩,
      by simp only [Obj.read, Obj.image, e1, ok_bind], e, hl.len, hl.of_eq e2 e3, v, ?_, hv⟩
    exact hr.of_eq (fixedL_cells n hn) (fun i h0 h1 => by rw [hv i h0 h1]; exact u64_lt _) e4 e5
  · rename_i t
    obtain ⟨e, el, hl, v, hr, hv⟩ := h
    have hB : ∀ i, i < levelsN n → levelAt (byteLSize c) n i < 2 ^ 61 := fun i hi =>
      levelAt_lt h48 hi (byteLSize_le (FitF.le hf))
    obtain ⟨l', t', e1, ⟨e2, e3⟩, e4, e5⟩ := lRead_ok (size := t.size) w1 (level := t.level)
      (t := memVec t.tree) (by rw [e]; exact hsz) (by rw [hl.len, e64]; omega)
      (fun i hi => by
        rw [hl.len] at hi
        rw [hl.at_ i hi, e64]; have := hB i hi; omega)
      (by show t.tree.size < _; rw [hr.size, e64]; have := hB (levelsN n - 1) (by omega); omega) rest
    refine ⟨.byteL ⟨t.size, t.level.len, l', vecMem t'⟩,
      by simp only [Obj.read, Obj.image, e1, ok_bind], e, hl.len, hl.of_eq e2 e3, v, ?_, hv⟩
    exact hr.of_eq (byteL_in hf hl) e4 e5
  · rename_i t
    obtain ⟨e, el, hl, v, hr, hv⟩ := h
    have hB : ∀ i, i < levelsN n → levelAt (bitLSize c) n i < 2 ^ 61 := fun i hi =>
      levelAt_lt h48 hi (bitLSize_le (FitF.le hf.1))
    obtain ⟨l', t', e1, ⟨e2, e3⟩, e4, e5⟩ := lRead_ok (size := t.size) w1 (level := t.level)
      (t := memVec t.tree) (by rw [e]; exact hsz) (by rw [hl.len, e64]; omega)
      (fun i hi => by
        rw [hl.len] at hi
        rw [hl.at_ i hi, e64]; have := hB i hi; omega)
      (by show t.tree.size < _; rw [hr.size, e64]; have := hB (levelsN n - 1) (by omega); omega) rest
    refine ⟨.bitL ⟨t.size, t.level.len, l', vecMem t'⟩,
      by simp only [Obj.read, Obj.image, e1, ok_bind], e, hl.len, hl.of_eq e2 e3, v, ?_, hv⟩
    exact hr.of_eq (bitL_in hf.1 hl) e4 e5
  · cases hk

end MRS.Hft
