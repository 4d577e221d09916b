import Verif.Proofs.Mem

/-! # Well-formed node classes, the representation invariant, alignment -/

set_option autoImplicit false

namespace MRS
open Outcome

/-- The signed step `+1` / `-1` selected by `sign`. -/
def stepI (sign : Bool) : Int := if sign then -1 else 1

/-- Facts about a node class that its code relies on. -/
structure NodeCfg.WF (c : NodeCfg) : Prop where
  seg_pos : 0 < c.seg
  num_pos : 0 < c.num
  fanout_eq : c.fanout = c.num * c.seg
  bytes_eq : c.bytes = c.num * c.sumB + c.fanout * c.keyB
  vec_sum : c.vecB = c.num * c.sumB
  vec_key : c.vecB = c.seg * c.keyB
  keyB_pos : 0 < c.keyB
  sumB_pos : 0 < c.sumB
  key_dvd : c.keyB ∣ c.sumB
  sumB_le : c.sumB ≤ 8
  fanout_le : c.fanout ≤ 512
  key_w : c.keyB = 2 ∨ c.keyB = 4
  sum_w : c.sumB = 4 ∨ c.sumB = 8
  lanes : c.num ≤ 32 ∧ c.seg ≤ 32
  tail_guard : c.tailAssert = true → c.guard = .assertLt
  avx512_guard : c.avx512 = true → c.guard ≠ .nothing
  sumTab_ok : ∀ j, j < c.num → ∀ sign : Bool, ∃ row,
    c.sumTab[j + c.sumRow + (if sign then c.sumSign else 0)]? = some row ∧
      ∀ z, z < c.num → row.getD z 0 = if z ≤ j then 0 else stepI sign
  keyTab_ok : ∀ k, k < c.seg → ∀ sign : Bool, ∃ row,
    c.keyTab[k + (if sign then c.keySign else 0)]? = some row ∧
      ∀ z, z < c.seg → row.getD z 0 = if z < k then 0 else stepI sign

/-- Boolean form of the table conditions, used to evaluate them on complete tables. -/
def tabCheck (tab : List (List Int)) (n lanes row0 signRows : Nat) (zero : Nat → Nat → Bool) : Bool :=
  (List.range n).all fun j => [false, true].all fun sign =>
    match tab[j + row0 + (if sign then signRows else 0)]? with
    | none => false
    | some row => (List.range lanes).all fun z =>
        decide (row.getD z 0 = if zero z j then 0 else stepI sign)

theorem tabCheck_spec {tab : List (List Int)} {n lanes row0 signRows : Nat}
    {zero : Nat → Nat → Bool} (h : tabCheck tab n lanes row0 signRows zero = true) :
    ∀ j, j < n → ∀ sign : Bool, ∃ row,
      tab[j + row0 + (if sign then signRows else 0)]? = some row ∧
        ∀ z, z < lanes → row.getD z 0 = if zero z j then 0 else stepI sign := by
  intro j hj sign
  unfold tabCheck at h
  rw [List.all_eq_true] at h
  have h1 := h j (List.mem_range.2 hj)
  rw [List.all_eq_true] at h1
  have h2 := h1 sign (by cases sign <;> simp)
  split at h2
  · cases h2
  · rename_i row hrow
    refine ⟨row, hrow, ?_⟩
    intro z hz
    rw [List.all_eq_true] at h2
    exact of_decide_eq_true (h2 z (List.mem_range.2 hz))

/-- The whole of each table used by a class has been evaluated. -/
def NodeCfg.tabsOk (c : NodeCfg) : Bool :=
  tabCheck c.sumTab c.num c.num c.sumRow c.sumSign (fun z j => decide (z ≤ j)) &&
    tabCheck c.keyTab c.seg c.seg 0 c.keySign (fun z k => decide (z < k))

theorem NodeCfg.WF.ofTabs {c : NodeCfg} (ht : c.tabsOk = true)
    (seg_pos : 0 < c.seg) (num_pos : 0 < c.num) (fanout_eq : c.fanout = c.num * c.seg)
    (bytes_eq : c.bytes = c.num * c.sumB + c.fanout * c.keyB)
    (vec_sum : c.vecB = c.num * c.sumB) (vec_key : c.vecB = c.seg * c.keyB)
    (keyB_pos : 0 < c.keyB) (sumB_pos : 0 < c.sumB) (key_dvd : c.keyB ∣ c.sumB)
    (sumB_le : c.sumB ≤ 8) (fanout_le : c.fanout ≤ 512)
    (key_w : c.keyB = 2 ∨ c.keyB = 4) (sum_w : c.sumB = 4 ∨ c.sumB = 8)
    (lanes : c.num ≤ 32 ∧ c.seg ≤ 32) (tail_guard : c.tailAssert = true → c.guard = .assertLt)
    (avx512_guard : c.avx512 = true → c.guard ≠ .nothing) : c.WF := by
  unfold NodeCfg.tabsOk at ht
  rw [Bool.and_eq_true] at ht
  refine ⟨seg_pos, num_pos, fanout_eq, bytes_eq, vec_sum, vec_key, keyB_pos, sumB_pos, key_dvd,
    sumB_le, fanout_le, key_w, sum_w, lanes, tail_guard, avx512_guard, ?_, ?_⟩
  · intro j hj sign
    obtain ⟨row, h1, h2⟩ := tabCheck_spec ht.1 j hj sign
    exact ⟨row, h1, fun z hz => by simpa using h2 z hz⟩
  · intro j hj sign
    obtain ⟨row, h1, h2⟩ := tabCheck_spec ht.2 j hj sign
    exact ⟨row, by simpa using h1, fun z hz => by simpa using h2 z hz⟩

set_option maxRecDepth 100000 in
theorem avx2Node128_wf : avx2Node128.WF := by
  apply NodeCfg.WF.ofTabs <;> decide +kernel
set_option maxRecDepth 100000 in
theorem avx2Node64_wf : avx2Node64.WF := by
  apply NodeCfg.WF.ofTabs <;> decide +kernel
set_option maxRecDepth 100000 in
theorem avx2Node32_wf : avx2Node32.WF := by
  apply NodeCfg.WF.ofTabs <;> decide +kernel
set_option maxRecDepth 100000 in
theorem avx512Node512_wf : avx512Node512.WF := by
  apply NodeCfg.WF.ofTabs <;> decide +kernel
set_option maxRecDepth 100000 in
theorem avx512Node256_wf : avx512Node256.WF := by
  apply NodeCfg.WF.ofTabs <;> decide +kernel
set_option maxRecDepth 100000 in
theorem avx512Node128_wf : avx512Node128.WF := by
  apply NodeCfg.WF.ofTabs <;> decide +kernel

/-- The bytes at `off` hold a node whose prefix sums are `S` (`S k` = sum of the first `k`
entries). -/
structure NodeRep (c : NodeCfg) (m : Mem) (off : Nat) (S : Nat → Nat) : Prop where
  bnd : off + c.bytes ≤ m.size
  sums : ∀ s, s < c.num → rd m (c.sumOff off s) c.sumB = S (s * c.seg)
  keys : ∀ j, j < c.fanout → rd m (c.keyOff off j) c.keyB = S (j + 1) - S (c.seg * (j / c.seg))

/-- `S` is nondecreasing on `0..F`. -/
def MonoTo (S : Nat → Nat) (F : Nat) : Prop := ∀ k, k < F → S k ≤ S (k + 1)

theorem MonoTo.le {S : Nat → Nat} {F : Nat} (h : MonoTo S F) {a b : Nat} (hab : a ≤ b)
    (hb : b ≤ F) : S a ≤ S b := by
  induction b with
  | zero => have : a = 0 := by omega
            subst this; exact Nat.le_refl _
  | succ b ih =>
    by_cases e : a = b + 1
    · subst e; exact Nat.le_refl _
    · exact Nat.le_trans (ih (by omega) (by omega)) (h b (by omega))

theorem NodeRep.frame {c : NodeCfg} {m m' : Mem} {off lo hi : Nat} {S : Nat → Nat}
    (wf : c.WF) (h : NodeRep c m off S) (hs : SameOff m m' lo hi)
    (hd : off + c.bytes ≤ lo ∨ hi ≤ off) : NodeRep c m' off S := by
  have hb := wf.bytes_eq
  refine ⟨by rw [hs.size]; exact h.bnd, ?_, ?_⟩
  · intro s hsn
    rw [hs.rd, h.sums s hsn]
    have : s * c.sumB + c.sumB ≤ c.num * c.sumB := by
      rw [← Nat.succ_mul]; exact Nat.mul_le_mul_right _ hsn
    simp only [NodeCfg.sumOff]; omega
  · intro j hj
    rw [hs.rd, h.keys j hj]
    have : j * c.keyB + c.keyB ≤ c.fanout * c.keyB := by
      rw [← Nat.succ_mul]; exact Nat.mul_le_mul_right _ hj
    simp only [NodeCfg.keyOff]; omega

/-- The node address is aligned for typed accesses (only required when misalignment counts as
UB). -/
def AlignOK (b : Build) (c : NodeCfg) (addr off : Nat) : Prop :=
  b.strictAlign = true → (addr + off) % c.sumB = 0

/-- The node address is aligned for the vector load of `update`. -/
def UpOK (b : Build) (c : NodeCfg) (addr off : Nat) : Prop :=
  b.strictAlign = true → c.sumAligned = true → c.simd b = true → (addr + off) % c.vecB = 0

theorem UpOK.of_unaligned {b : Build} {c : NodeCfg} (h : c.sumAligned = false) (addr off : Nat) :
    UpOK b c addr off := fun _ h' => (by rw [h] at h'; cases h')

theorem AlignOK.sum {b : Build} {c : NodeCfg} {addr off : Nat} (wf : c.WF)
    (h : AlignOK b c addr off) (s : Nat) :
    b.strictAlign = true → (addr + c.sumOff off s) % c.sumB = 0 := by
  intro hs
  have h1 : c.sumB ∣ addr + off := Nat.dvd_of_mod_eq_zero (h hs)
  apply Nat.mod_eq_zero_of_dvd
  rw [NodeCfg.sumOff, ← Nat.add_assoc]
  exact Nat.dvd_add h1 (Nat.dvd_mul_left _ _)

theorem AlignOK.key {b : Build} {c : NodeCfg} {addr off : Nat} (wf : c.WF)
    (h : AlignOK b c addr off) (j : Nat) :
    b.strictAlign = true → (addr + c.keyOff off j) % c.keyB = 0 := by
  intro hs
  have h1 : c.sumB ∣ addr + off := Nat.dvd_of_mod_eq_zero (h hs)
  apply Nat.mod_eq_zero_of_dvd
  rw [NodeCfg.keyOff, ← Nat.add_assoc, ← Nat.add_assoc]
  exact Nat.dvd_add (Nat.dvd_add (Nat.dvd_trans wf.key_dvd h1)
    (Nat.dvd_trans wf.key_dvd (Nat.dvd_mul_left _ _))) (Nat.dvd_mul_left _ _)

theorem NodeCfg.WF.sum_in {c : NodeCfg} (_wf : c.WF) {off s : Nat} (h : s < c.num) :
    off ≤ c.sumOff off s ∧ c.sumOff off s + c.sumB ≤ off + c.num * c.sumB := by
  have : s * c.sumB + c.sumB ≤ c.num * c.sumB := by
    rw [← Nat.succ_mul]; exact Nat.mul_le_mul_right _ h
  simp only [NodeCfg.sumOff]; omega

theorem NodeCfg.WF.key_in {c : NodeCfg} (wf : c.WF) {off j : Nat} (h : j < c.fanout) :
    off + c.num * c.sumB ≤ c.keyOff off j ∧ c.keyOff off j + c.keyB ≤ off + c.bytes := by
  have : j * c.keyB + c.keyB ≤ c.fanout * c.keyB := by
    rw [← Nat.succ_mul]; exact Nat.mul_le_mul_right _ h
  have := wf.bytes_eq
  simp only [NodeCfg.keyOff]; omega

theorem NodeCfg.WF.sum_bytes {c : NodeCfg} (wf : c.WF) : c.num * c.sumB ≤ c.bytes := by
  rw [wf.bytes_eq]; omega

theorem NodeCfg.WF.seg_lt {c : NodeCfg} (wf : c.WF) {i : Nat} (h : i < c.fanout) :
    i / c.seg < c.num := by
  apply Nat.div_lt_of_lt_mul
  rw [Nat.mul_comm, ← wf.fanout_eq]; exact h

/-- Load of `summary[s]`. -/
theorem NodeRep.load_sum {b : Build} {c : NodeCfg} {m : Mem} {off : Nat} {S : Nat → Nat}
    (wf : c.WF) (h : NodeRep c m off S) (ha : AlignOK b c m.addr off) {s : Nat} (hs : s < c.num) :
    load b m (c.sumOff off s) c.sumB = ok (S (s * c.seg)) := by
  rw [load_ok, h.sums s hs]
  · have := h.bnd; have := wf.sum_in (off := off) hs; have := wf.sum_bytes; omega
  · exact ha.sum wf s

/-- Load of `keys[j]`. -/
theorem NodeRep.load_key {b : Build} {c : NodeCfg} {m : Mem} {off : Nat} {S : Nat → Nat}
    (wf : c.WF) (h : NodeRep c m off S) (ha : AlignOK b c m.addr off) {j : Nat}
    (hj : j < c.fanout) :
    load b m (c.keyOff off j) c.keyB = ok (S (j + 1) - S (c.seg * (j / c.seg))) := by
  rw [load_ok, h.keys j hj]
  · have := h.bnd; have := wf.key_in (off := off) hj; omega
  · exact ha.key wf j

theorem NodeRep.key_lt {c : NodeCfg} {m : Mem} {off : Nat} {S : Nat → Nat}
    (h : NodeRep c m off S) {j : Nat} (hj : j < c.fanout) :
    S (j + 1) - S (c.seg * (j / c.seg)) < 256 ^ c.keyB := by
  rw [← h.keys j hj]; exact rd_lt _ _ _

theorem NodeRep.sum_lt {c : NodeCfg} {m : Mem} {off : Nat} {S : Nat → Nat}
    (h : NodeRep c m off S) {s : Nat} (hs : s < c.num) : S (s * c.seg) < 256 ^ c.sumB := by
  rw [← h.sums s hs]; exact rd_lt _ _ _

/-- `sum(i)` is the prefix sum, provided the total fits `summary_type`. -/
theorem nodeSum_ok {b : Build} {c : NodeCfg} {m : Mem} {off : Nat} {S : Nat → Nat}
    (wf : c.WF) (h : NodeRep c m off S) (ha : AlignOK b c m.addr off)
    (hm : MonoTo S c.fanout) {i : Nat} (hi : i < c.fanout) (hb : S (i + 1) < 256 ^ c.sumB) :
    nodeSum b c m off i = ok (S (i + 1)) := by
  unfold nodeSum
  rw [massert_ok (decide_eq_true hi), h.load_sum wf ha (wf.seg_lt hi), h.load_key wf ha hi]
  simp only [ok_bind, pure_eq]
  congr 1
  have h1 : c.seg * (i / c.seg) ≤ i := Nat.mul_div_le _ _
  have h2 := hm.le (a := c.seg * (i / c.seg)) (b := i + 1) (by omega) (by omega)
  rw [Nat.mul_comm (i / c.seg)]
  have : S (c.seg * (i / c.seg)) + (S (i + 1) - S (c.seg * (i / c.seg))) = S (i + 1) := by omega
  rw [this, Nat.mod_eq_of_lt hb]

end MRS
