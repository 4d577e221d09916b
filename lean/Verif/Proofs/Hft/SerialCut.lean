import Verif.Proofs.Hft.SerialObj
import Verif.Proofs.Hft.Limits

/-! # Streams that end early -/

set_option autoImplicit false

namespace MRS.Hft
open Outcome Spec.Stream

theorem Vec.ext' {t t' : Vec Nat} {n : Nat} (h1 : t.len = n) (h2 : t'.len = n)
    (h3 : ∀ i, i < n → t.f i = t'.f i) (h4 : ∀ i, n ≤ i → t.f i = t'.f i) : t = t' := by
  obtain ⟨l, f⟩ := t
  obtain ⟨l', f'⟩ := t'
  simp only at h1 h2 h3 h4
  subst h1
  subst h2
  congr 1
  funext i
  by_cases h : i < l'
  · exact h3 i h
  · exact h4 i (by omega)

theorem pad_zeros (d : List Nat) (m a w : Nat) : pad (d ++ List.replicate m 0) a w = pad d a w := by
  unfold pad
  apply List.map_congr_left
  intro j _
  simp only [List.getD_eq_getElem?_getD, List.getElem?_append]
  split
  · rfl
  · rename_i h
    rw [List.getElem?_eq_none (Nat.le_of_not_lt h), List.getElem?_replicate]
    split <;> rfl

/-- A counted array whose elements are cut short reads as if followed by zeros. -/
theorem daRead_zeros {w n : Nat} (hn : n < 256 ^ 8) {d : List Nat} (hd : d.length < n * w) :
    ∃ t : Vec Nat, daRead w ⟨big 8 n ++ d, false⟩ = ok (t, ⟨[], true⟩) ∧
      daRead w ⟨big 8 n ++ (d ++ List.replicate (n * w - d.length) 0), false⟩ =
        ok (t, ⟨[], false⟩) := by
  obtain ⟨t, e, h1, h2, h3⟩ := daRead_cut (w := w) hn d
  obtain ⟨t', e', h1', h2', h3'⟩ :=
    daRead_cut (w := w) hn (d ++ List.replicate (n * w - d.length) 0)
  have et : t = t' := Vec.ext' h1 h1' (fun i hi => by rw [h2 i hi, h2' i hi, pad_zeros])
    (fun i hi => by rw [h3 i hi, h3' i hi])
  refine ⟨t, ?_, ?_⟩
  · rw [e, List.drop_eq_nil_of_le (by omega), decide_eq_true hd]
  · have hl : (d ++ List.replicate (n * w - d.length) 0).length = n * w := by
      rw [List.length_append, List.length_replicate]; omega
    rw [e', et, List.drop_eq_nil_of_le (by omega), decide_eq_false (by omega)]

theorem readU64_big {v m : Nat} {x : List Nat} (hv : v < 256 ^ 8) (hm : 8 ≤ m) :
    readU64 ⟨(big 8 v ++ x).take m, false⟩ = ok (v, ⟨x.take (m - 8), false⟩) := by
  have h8 := big_length 8 v
  rw [List.take_append, List.take_of_length_le (by omega), h8, readU64_ok _ hv]

theorem readU64_cut {v m : Nat} {x : List Nat} (hm : m < 8) :
    readU64 ⟨(big 8 v ++ x).take m, false⟩ = ub .uninit := by
  apply readU64_short
  rw [List.length_take]; omega

theorem daRead_short {w n m : Nat} {x : List Nat} (hm : m < 8) :
    daRead w ⟨(big 8 n ++ x).take m, false⟩ = ub .uninit := by
  unfold daRead; rw [readU64_cut hm, ub_bind]

/-- The classical classes: the two counts. -/
theorem fRead_short {w size n m : Nat} {x : List Nat} (hs : size < 256 ^ 8) (hm : m < 16) :
    fRead w ⟨(big 8 size ++ (big 8 n ++ x)).take m, false⟩ = ub .uninit := by
  unfold fRead
  by_cases h : m < 8
  · rw [readU64_cut h, ub_bind]
  · rw [readU64_big hs (by omega), ok_bind]
    simp only
    rw [daRead_short (by omega), ub_bind]

theorem fRead_zeros {w size n m : Nat} {x : List Nat} (hs : size < 256 ^ 8) (hn : n < 256 ^ 8)
    (hx : x.length = n * w) (h1 : 16 ≤ m) (h2 : m < 16 + n * w) :
    ∃ t : Vec Nat, fRead w ⟨(big 8 size ++ (big 8 n ++ x)).take m, false⟩ =
        ok (⟨size, t⟩, ⟨[], true⟩) ∧
      fRead w ⟨(big 8 size ++ (big 8 n ++ x)).take m ++ List.replicate (16 + n * w - m) 0, false⟩ =
        ok (⟨size, t⟩, ⟨[], false⟩) := by
  have l1 := big_length 8 size
  have l2 := big_length 8 n
  have ex : (x.take (m - 16)).length = m - 16 := by rw [List.length_take]; omega
  obtain ⟨t, e1, e2⟩ := daRead_zeros (w := w) hn (d := x.take (m - 16)) (by omega)
  rw [ex, show n * w - (m - 16) = 16 + n * w - m by omega] at e2
  have et : (big 8 size ++ (big 8 n ++ x)).take m = big 8 size ++ (big 8 n ++ x.take (m - 16)) := by
    rw [List.take_append, List.take_of_length_le (by omega), l1, List.take_append,
      List.take_of_length_le (by omega), l2, Nat.sub_sub]
  refine ⟨t, ?_, ?_⟩
  · rw [et]; unfold fRead
    rw [readU64_ok _ hs, ok_bind]; simp only
    rw [e1, ok_bind]
  · rw [et, List.append_assoc, List.append_assoc]; unfold fRead
    rw [readU64_ok _ hs, ok_bind]; simp only
    rw [e2, ok_bind]

/-! ## Level-ordered classes -/

theorem levelLoop_short {l : List Nat} (h : ∀ x ∈ l, x < 256 ^ 8) {m : Nat} {y : List Nat}
    (hm : m < 8 * l.length) :
    levelLoop l.length ⟨(bigs 8 l ++ y).take m, false⟩ = ub .uninit := by
  have key : ∀ (d i : Nat) (v : Vec Nat), v.len = l.length → l.length = i + d → 8 * i ≤ m →
      forFrom i d (fun i (p : Vec Nat × IStream) => do
        let (x, s) ← readU64 p.2
        let v ← p.1.set i x
        ok (v, s)) (v, ⟨(bigs 8 (l.drop i) ++ y).take (m - 8 * i), false⟩) = ub .uninit := by
    intro d
    induction d with
    | zero => intro i v _ h1 h2; omega
    | succ d ih =>
      intro i v hv h1 h2
      have hi : i < l.length := by omega
      rw [forFrom]
      have e1 : bigs 8 (l.drop i) ++ y = big 8 l[i] ++ (bigs 8 (l.drop (i + 1)) ++ y) := by
        rw [List.drop_eq_getElem_cons hi, bigs, List.flatMap_cons, List.append_assoc]; rfl
      rw [e1]
      by_cases h8 : m - 8 * i < 8
      · rw [readU64_cut h8, ub_bind, ub_bind]
      · rw [readU64_big (h _ (List.getElem_mem hi)) (by omega), ok_bind]
        simp only
        rw [Vec.set_ok _ (by omega), ok_bind, ok_bind, show m - 8 * i - 8 = m - 8 * (i + 1) by omega]
        exact ih (i + 1) _ hv (by omega) (by omega)
  exact key l.length 0 (words l.length) rfl (by omega) (by omega)

theorem lRead_short {w size n m : Nat} {l x : List Nat} (hs : size < 256 ^ 8)
    (hL : l.length < 256 ^ 8) (hl : ∀ x ∈ l, x < 256 ^ 8) (hm : m < 24 + 8 * l.length) :
    lRead w ⟨(big 8 size ++ counted 8 l ++ (big 8 n ++ x)).take m, false⟩ = ub .uninit := by
  rw [lRead_eq, List.append_assoc]
  unfold counted
  by_cases h : m < 8
  · rw [readU64_cut h, ub_bind]
  · rw [readU64_big hs (by omega), ok_bind]
    simp only
    rw [List.append_assoc]
    by_cases h' : m - 8 < 8
    · rw [readU64_cut h', ub_bind]
    · rw [readU64_big hL (by omega), ok_bind]
      simp only
      by_cases h2 : m - 8 - 8 < 8 * l.length
      · rw [levelLoop_short hl h2, ub_bind]
      · have hb : (bigs 8 l).length = 8 * l.length := by rw [bigs_length, Nat.mul_comm]
        rw [List.take_append, List.take_of_length_le (by omega), hb]
        obtain ⟨v, e, -⟩ := levelLoop_ok hl ((big 8 n ++ x).take (m - 8 - 8 - 8 * l.length))
        rw [e, ok_bind]
        simp only
        rw [daRead_short (by omega), ub_bind]

theorem lRead_zeros {w size n m : Nat} {l x : List Nat} (hs : size < 256 ^ 8)
    (hL : l.length < 256 ^ 8) (hl : ∀ x ∈ l, x < 256 ^ 8) (hn : n < 256 ^ 8)
    (hx : x.length = n * w) (h1 : 24 + 8 * l.length ≤ m) (h2 : m < 24 + 8 * l.length + n * w) :
    ∃ (v t : Vec Nat), lRead w ⟨(big 8 size ++ counted 8 l ++ (big 8 n ++ x)).take m, false⟩ =
        ok (⟨size, l.length, v, t⟩, ⟨[], true⟩) ∧
      lRead w ⟨(big 8 size ++ counted 8 l ++ (big 8 n ++ x)).take m ++
        List.replicate (24 + 8 * l.length + n * w - m) 0, false⟩ =
        ok (⟨size, l.length, v, t⟩, ⟨[], false⟩) := by
  have l1 := big_length 8 size
  have l2 := big_length 8 n
  have l3 := big_length 8 l.length
  have hb : (bigs 8 l).length = 8 * l.length := by rw [bigs_length, Nat.mul_comm]
  have ex : (x.take (m - (24 + 8 * l.length))).length = m - (24 + 8 * l.length) := by
    rw [List.length_take]; omega
  obtain ⟨t, e1, e2⟩ := daRead_zeros (w := w) hn (d := x.take (m - (24 + 8 * l.length))) (by omega)
  rw [ex, show n * w - (m - (24 + 8 * l.length)) = 24 + 8 * l.length + n * w - m by omega] at e2
  have hc : (big 8 size ++ counted 8 l).length = 16 + 8 * l.length := by
    rw [counted, List.length_append, List.length_append]; omega
  have et : (big 8 size ++ counted 8 l ++ (big 8 n ++ x)).take m =
      big 8 size ++ (big 8 l.length ++ (bigs 8 l ++
        (big 8 n ++ x.take (m - (24 + 8 * l.length))))) := by
    rw [List.take_append, List.take_of_length_le (by omega), hc, List.take_append,
      List.take_of_length_le (by omega), l2, Nat.sub_sub,
      show 16 + 8 * l.length + 8 = 24 + 8 * l.length by omega, counted]
    simp only [List.append_assoc]
  obtain ⟨v, e, h3, h4, h5⟩ := levelLoop_ok hl (big 8 n ++ x.take (m - (24 + 8 * l.length)))
  obtain ⟨v', e', h3', h4', h5'⟩ := levelLoop_ok hl
    (big 8 n ++ (x.take (m - (24 + 8 * l.length)) ++
      List.replicate (24 + 8 * l.length + n * w - m) 0))
  have ev : v = v' := Vec.ext' h3 h3' (fun i hi => by rw [h4 i hi, h4' i hi])
    (fun i hi => by rw [h5 i hi, h5' i hi])
  refine ⟨v, t, ?_, ?_⟩
  · rw [et, lRead_eq, readU64_ok _ hs, ok_bind]
    simp only
    rw [readU64_ok _ hL, ok_bind]
    simp only
    rw [e, ok_bind]
    simp only
    rw [e1, ok_bind]
  · rw [et, lRead_eq]
    simp only [List.append_assoc]
    rw [readU64_ok _ hs, ok_bind]
    simp only
    rw [readU64_ok _ hL, ok_bind]
    simp only
    rw [e', ok_bind]
    simp only
    rw [e2, ok_bind, ev]

/-! ## Objects -/

/-- Bytes before the elements of the tree. -/
def headBytes (k : Kind) (n : Nat) : Nat := if k.classical then 16 else 24 + 8 * levelsN n

theorem toList_mem {t : Vec Nat} {B : Nat} (h : ∀ i, i < t.len → t.f i < B) : ∀ x ∈ t.toList, x < B := by
  intro x hx
  rw [Vec.toList, List.mem_map] at hx
  obtain ⟨i, hi, rfl⟩ := hx
  exact h i (List.mem_range.1 hi)

theorem counted_eq (w : Nat) (t : Vec Nat) :
    counted w t.toList = big 8 t.len ++ bigs w t.toList := by rw [counted, toList_length]

theorem bigs_toList (w : Nat) (t : Vec Nat) : (bigs w t.toList).length = t.len * w := by
  rw [bigs_length, toList_length]

/-- A stream that ends before the elements of the tree. -/
theorem objRead_short {c : Cfg} {n : Nat} {P : Nat → Int} {k : Kind} {o : Obj} (hk : k.streams = true)
    (hf : Fits c n k) (h : ObjHolds c n P k o) {m : Nat} (hm : m < headBytes k n) :
    Obj.read k ⟨o.image.take m, false⟩ = ub .uninit := by
  have h48 := hf.size
  have e64 : (256 ^ 8 : Nat) = 2 ^ 64 := by decide
  have hsz : n < 256 ^ 8 := by rw [e64]; omega
  have hLv := levelsN_le h48
  cases k <;> cases o <;> first | exact h.elim | skip
  · rename_i t
    simp only [Obj.read, Obj.image, counted_eq]
    rw [fRead_short (by rw [h.1]; exact hsz) hm, ub_bind]
  · rename_i t
    simp only [Obj.read, Obj.image, counted_eq]
    rw [fRead_short (by rw [h.1]; exact hsz) hm, ub_bind]
  · rename_i t
    simp only [Obj.read, Obj.image, counted_eq]
    rw [fRead_short (by rw [h.1]; exact hsz) hm, ub_bind]
  · cases hk
  · rename_i t
    obtain ⟨e, el, hl, v, hr, hv⟩ := h
    have hB : ∀ i, i < levelsN n → levelAt (fun _ => 1) n i < 2 ^ 61 := fun i hi =>
      levelAt_lt h48 hi (fun _ _ => by omega)
    simp only [Obj.read, Obj.image, counted_eq 8 t.tree]
    rw [lRead_short (by rw [e]; exact hsz) (by rw [toList_length, hl.len, e64]; omega)
      (toList_mem fun i hi => by
        rw [hl.len] at hi; rw [hl.at_ i hi, e64]; have := hB i hi; omega)
      (by rw [toList_length, hl.len]; exact hm), ub_bind]
  · rename_i t
    obtain ⟨e, el, hl, v, hr, hv⟩ := h
    have hB : ∀ i, i < levelsN n → levelAt (byteLSize c) n i < 2 ^ 61 := fun i hi =>
      levelAt_lt h48 hi (byteLSize_le (FitF.le hf))
    simp only [Obj.read, Obj.image, counted_eq 1 (memVec t.tree)]
    rw [lRead_short (by rw [e]; exact hsz) (by rw [toList_length, hl.len, e64]; omega)
      (toList_mem fun i hi => by
        rw [hl.len] at hi; rw [hl.at_ i hi, e64]; have := hB i hi; omega)
      (by rw [toList_length, hl.len]; exact hm), ub_bind]
  · rename_i t
    obtain ⟨e, el, hl, v, hr, hv⟩ := h
    have hB : ∀ i, i < levelsN n → levelAt (bitLSize c) n i < 2 ^ 61 := fun i hi =>
      levelAt_lt h48 hi (bitLSize_le (FitF.le hf.1))
    simp only [Obj.read, Obj.image, counted_eq 1 (memVec t.tree)]
    rw [lRead_short (by rw [e]; exact hsz) (by rw [toList_length, hl.len, e64]; omega)
      (toList_mem fun i hi => by
        rw [hl.len] at hi; rw [hl.at_ i hi, e64]; have := hB i hi; omega)
      (by rw [toList_length, hl.len]; exact hm), ub_bind]
  · cases hk

/-- A stream that ends in the elements of the tree. -/
theorem objRead_zeros {c : Cfg} {n : Nat} {P : Nat → Int} {k : Kind} {o : Obj} (hk : k.streams = true)
    (hf : Fits c n k) (h : ObjHolds c n P k o) {m : Nat} (h1 : headBytes k n ≤ m)
    (h2 : m < o.image.length) :
    ∃ o', Obj.read k ⟨o.image.take m, false⟩ = ok (o', ⟨[], true⟩) ∧
      Obj.read k ⟨o.image.take m ++ List.replicate (o.image.length - m) 0, false⟩ =
        ok (o', ⟨[], false⟩) ∧ o'.size = n := by
  have h48 := hf.size
  have e64 : (256 ^ 8 : Nat) = 2 ^ 64 := by decide
  have hsz : n < 256 ^ 8 := by rw [e64]; omega
  have hLv := levelsN_le h48
  have hLp := levelsN_pos n
  have fl : ∀ (w s : Nat) (t : Vec Nat),
      (big 8 s ++ (big 8 t.len ++ bigs w t.toList)).length = 16 + t.len * w := fun w s t => by
    rw [List.length_append, List.length_append, big_length, big_length, bigs_toList]; omega
  have ll : ∀ (w s : Nat) (l t : Vec Nat),
      (big 8 s ++ counted 8 l.toList ++ (big 8 t.len ++ bigs w t.toList)).length =
        24 + 8 * l.toList.length + t.len * w := fun w s l t => by
    rw [List.length_append, List.length_append, List.length_append, big_length, big_length,
      bigs_toList, counted_eq, List.length_append, big_length, bigs_toList, toList_length]; omega
  cases k <;> cases o <;> first | exact h.elim | skip
  · rename_i t
    obtain ⟨e, v, hr, hv⟩ := h
    simp only [Obj.image, counted_eq] at h2 ⊢
    rw [fl] at h2 ⊢
    obtain ⟨t', e1, e2⟩ := fRead_zeros (size := t.size) (by rw [e]; exact hsz)
      (by rw [hr.len]; exact fixedF_len h48) (bigs_toList 8 t.tree) h1 h2
    exact ⟨.fixedF ⟨t.size, t'⟩, by simp only [Obj.read, e1, ok_bind],
      by simp only [Obj.read, e2, ok_bind], e⟩
  · rename_i t
    obtain ⟨e, v, hr, hv⟩ := h
    simp only [Obj.image, counted_eq] at h2 ⊢
    rw [fl] at h2 ⊢
    obtain ⟨t', e1, e2⟩ := fRead_zeros (size := t.size) (by rw [e]; exact hsz)
      (by show t.tree.size < _; rw [hr.size]; exact byteF_len hf) (bigs_toList 1 (memVec t.tree)) h1 h2
    exact ⟨.byteF ⟨t.size, vecMem t'⟩, by simp only [Obj.read, e1, ok_bind],
      by simp only [Obj.read, e2, ok_bind], e⟩
  · rename_i t
    obtain ⟨e, v, hr, hv⟩ := h
    simp only [Obj.image, counted_eq] at h2 ⊢
    rw [fl] at h2 ⊢
    obtain ⟨t', e1, e2⟩ := fRead_zeros (size := t.size) (by rw [e]; exact hsz)
      (by show t.tree.size < _; rw [hr.size]; exact bitF_len hf) (bigs_toList 1 (memVec t.tree)) h1 h2
    exact ⟨.bitF ⟨t.size, vecMem t'⟩, by simp only [Obj.read, e1, ok_bind],
      by simp only [Obj.read, e2, ok_bind], e⟩
  · cases hk
  · rename_i t
    obtain ⟨e, el, hl, v, hr, hv⟩ := h
    have hB : ∀ i, i < levelsN n → levelAt (fun _ => 1) n i < 2 ^ 61 := fun i hi =>
      levelAt_lt h48 hi (fun _ _ => by omega)
    simp only [Obj.image, counted_eq 8 t.tree] at h2 ⊢
    rw [ll] at h2 ⊢
    obtain ⟨l', t', e1, e2⟩ := lRead_zeros (size := t.size) (by rw [e]; exact hsz)
      (by rw [toList_length, hl.len, e64]; omega)
      (toList_mem fun i hi => by
        rw [hl.len] at hi; rw [hl.at_ i hi, e64]; have := hB i hi; omega)
      (by rw [hr.len, e64]; have := hB (levelsN n - 1) (by omega); omega) (bigs_toList 8 t.tree)
      (by rw [toList_length, hl.len]; exact h1) h2
    exact ⟨.fixedL ⟨t.size, t.level.toList.length, l', t'⟩, by simp only [Obj.read, e1, ok_bind],
      by simp only [Obj.read, e2, ok_bind], e⟩
  · rename_i t
    obtain ⟨e, el, hl, v, hr, hv⟩ := h
    have hB : ∀ i, i < levelsN n → levelAt (byteLSize c) n i < 2 ^ 61 := fun i hi =>
      levelAt_lt h48 hi (byteLSize_le (FitF.le hf))
    simp only [Obj.image, counted_eq 1 (memVec t.tree)] at h2 ⊢
    rw [ll] at h2 ⊢
    obtain ⟨l', t', e1, e2⟩ := lRead_zeros (size := t.size) (by rw [e]; exact hsz)
      (by rw [toList_length, hl.len, e64]; omega)
      (toList_mem fun i hi => by
        rw [hl.len] at hi; rw [hl.at_ i hi, e64]; have := hB i hi; omega)
      (by show t.tree.size < _; rw [hr.size, e64]; have := hB (levelsN n - 1) (by omega); omega)
      (bigs_toList 1 (memVec t.tree)) (by rw [toList_length, hl.len]; exact h1) h2
    exact ⟨.byteL ⟨t.size, t.level.toList.length, l', vecMem t'⟩, by simp only [Obj.read, e1, ok_bind],
      by simp only [Obj.read, e2, ok_bind], e⟩
  · rename_i t
    obtain ⟨e, el, hl, v, hr, hv⟩ := h
    have hB : ∀ i, i < levelsN n → levelAt (bitLSize c) n i < 2 ^ 61 := fun i hi =>
      levelAt_lt h48 hi (bitLSize_le (FitF.le hf.1))
    simp only [Obj.image, counted_eq 1 (memVec t.tree)] at h2 ⊢
    rw [ll] at h2 ⊢
    obtain ⟨l', t', e1, e2⟩ := lRead_zeros (size := t.size) (by rw [e]; exact hsz)
      (by rw [toList_length, hl.len, e64]; omega)
      (toList_mem fun i hi => by
        rw [hl.len] at hi; rw [hl.at_ i hi, e64]; have := hB i hi; omega)
      (by show t.tree.size < _; rw [hr.size, e64]; have := hB (levelsN n - 1) (by omega); omega)
      (bigs_toList 1 (memVec t.tree)) (by rw [toList_length, hl.len]; exact h1) h2
    exact ⟨.bitL ⟨t.size, t.level.toList.length, l', vecMem t'⟩, by simp only [Obj.read, e1, ok_bind],
      by simp only [Obj.read, e2, ok_bind], e⟩
  · cases hk

end MRS.Hft
