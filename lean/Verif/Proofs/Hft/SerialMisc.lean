import Verif.Proofs.Hft.SerialCut
import Verif.Proofs.Hft.Hybrid

/-! # Streams of `Hybrid`, and reported sizes -/

set_option autoImplicit false

namespace MRS.Hft
open Outcome Spec.Stream

/-! ## `Hybrid::operator<<` -/

theorem ofLe_zeros (w : Nat) : ofLe (List.replicate w 0) = 0 := by
  induction w with
  | zero => rfl
  | succ w ih => rw [List.replicate_succ, ofLe, ih]

theorem swap32_pos {v : Nat} (h0 : 0 < v) (h : v < 2 ^ 32) : 0 < swap32 v := by
  have hv : v < 256 ^ 4 := h
  obtain ⟨h1, h2⟩ := swap32_rev hv
  apply Classical.byContradiction
  intro hn
  rw [show swap32 v = 0 by omega, leBytes_zero] at h2
  have h3 := congrArg List.reverse h2
  rw [List.reverse_replicate, List.reverse_reverse] at h3
  have h4 := ofLe_leBytes 4 v
  rw [← h3, ofLe_zeros, Nat.mod_eq_of_lt hv] at h4
  omega

theorem swap64_ge {v : Nat} (h0 : 0 < v) (h : v < 2 ^ 32) : 2 ^ 32 ≤ swap64 v := by
  unfold swap64
  rw [show (0xffffffff : Nat) = 2 ^ 32 - 1 from rfl, Nat.and_two_pow_sub_one_eq_mod,
    Nat.mod_eq_of_lt h, Nat.shiftLeft_eq]
  have h1 := swap32_pos h0 h
  have h2 : 1 * 2 ^ 32 ≤ swap32 v * 2 ^ 32 := Nat.mul_le_mul_right _ h1
  exact Nat.le_trans (by omega) Nat.left_le_or

theorem hwrite_oob {o : Hybrid} (ht : o.top.LevLen)
    (hf : ∀ i, i < o.forest.len → (o.forest.f i).LevLen) (h0 : 0 < o.forest.len)
    (h : o.forest.len < 2 ^ 32) (os : List Nat) : o.write os = ub .oob := by
  unfold Hybrid.write
  simp only
  rw [objWrite_ok ht, ok_bind]
  have hge := swap64_ge h0 h
  rw [← hton8] at hge
  unfold forN
  apply forFrom_ub (fun _ => True) (i0 := o.forest.len) _ _ _ trivial (Nat.zero_le _) (by omega)
  · intro i s _ _ _
    by_cases hi : i < o.forest.len
    · right
      exact ⟨_, by rw [Vec.get_ok hi, ok_bind, objWrite_ok (hf i hi)], trivial⟩
    · left
      unfold Vec.get
      rw [if_neg hi, ub_bind]
  · intro s _
    unfold Vec.get
    rw [if_neg (by omega), ub_bind]

theorem hholds_write {c : HCfg} {A : List Int} {o : Hybrid} (h : HHolds c A o)
    (hn : A.length < 2 ^ 32 - 1) (os : List Nat) : o.write os = ub .oob := by
  have hq : A.length / c.C ≤ A.length := Nat.div_le_self _ _
  have hl := h.flen
  have hb := h.bot
  generalize A.length / c.C = q at hq hl hb
  refine hwrite_oob (objHolds_levLen h.top) (fun i hi => ?_) (by omega) (by omega) os
  exact objHolds_levLen (hb i (by omega))

/-! ## `Hybrid::operator>>` -/

theorem bind_ok {α β : Type} {x : Outcome α} {f : α → Outcome β} {b : β} (h : (x >>= f) = ok b) :
    ∃ a, x = ok a ∧ f a = ok b := by
  cases x with
  | ok a => exact ⟨a, rfl, h⟩
  | ub f => cases h
  | abort => cases h

/-- A loop that succeeds preserves what every successful step preserves. -/
theorem forFrom_pres {σ : Type} {body : Nat → σ → Outcome σ} (P : σ → Prop)
    (hs : ∀ i s s', P s → body i s = ok s' → P s') :
    ∀ (n a : Nat) (s s' : σ), P s → forFrom a n body s = ok s' → P s'
  | 0, a, s, s', h, e => by cases e; exact h
  | n + 1, a, s, s', h, e => by
    rw [forFrom] at e
    obtain ⟨s1, e1, e2⟩ := bind_ok e
    exact forFrom_pres P hs n (a + 1) s1 s' (hs a s s1 h e1) e2

theorem hread_pres {c : HCfg} {o o' : Hybrid} {s s' : IStream}
    (h : Hybrid.read c o s = ok (o', s')) : o'.size = o.size ∧ o.forest.len ≤ o'.forest.len ∧
      ∀ i, i < o.forest.len → o'.forest.f i = o.forest.f i := by
  unfold Hybrid.read at h
  simp only at h
  obtain ⟨⟨nb, s1⟩, e1, h⟩ := bind_ok h
  simp only at h
  obtain ⟨⟨top, s2⟩, e2, h⟩ := bind_ok h
  simp only at h
  obtain ⟨⟨f, s3⟩, e3, h⟩ := bind_ok h
  simp only at h
  have hp := forFrom_pres (fun p : Vec Obj × IStream => o.forest.len ≤ p.1.len ∧
      ∀ i, i < o.forest.len → p.1.f i = o.forest.f i)
    (fun i p p' hp e => by
      obtain ⟨⟨b, s4⟩, -, e⟩ := bind_ok e
      cases e
      refine ⟨Nat.le_trans hp.1 (Nat.le_succ _), fun j hj => ?_⟩
      simp only [vecPush]
      have := hp.1
      rw [if_neg (by omega)]
      exact hp.2 j hj) nb 0 _ _ ⟨Nat.le_refl _, fun _ _ => rfl⟩ e3
  cases h
  exact ⟨rfl, hp⟩

/-- The first block is still answered by the old trees. -/
theorem hread_prefix {c : HCfg} {o o' : Hybrid} {s s' : IStream}
    (h : Hybrid.read c o s = ok (o', s')) (h0 : 0 < o.forest.len) {i : Nat} (hi : i < 2 ^ c.cut) :
    o'.prefix c i = o.prefix c i := by
  obtain ⟨-, h1, h2⟩ := hread_pres h
  have e0 : i >>> c.cut = 0 := by
    rw [Nat.shiftRight_eq_div_pow]; exact Nat.div_eq_of_lt hi
  have ep : ∀ x : Obj, ∀ g, x.prefix g 0 = ok 0 := fun x g => by
    unfold Obj.prefix; rw [prefixLoop]; rfl
  unfold Hybrid.prefix
  rw [e0, ep, ep, ok_bind, ok_bind, Vec.get_ok (by omega), Vec.get_ok h0, ok_bind, ok_bind,
    h2 0 h0]

/-! ## Reported sizes -/

/-! ### Reading consumes the stream -/

/-- Bytes left, none once the fail bit is set. -/
def IStream.left (s : IStream) : Nat := if s.fail then 0 else s.data.length

theorem read_left (s : IStream) (old : List Nat) : (s.read old).2.left ≤ s.left := by
  unfold IStream.read IStream.left
  cases hf : s.fail with
  | true => simp [hf]
  | false =>
    simp only [Bool.false_eq_true, if_false]
    split
    · omega
    · simp

theorem readU64_left {s s' : IStream} {x : Nat} (h : readU64 s = ok (x, s')) : s'.left + 8 ≤ s.left := by
  unfold readU64 at h
  simp only at h
  split at h
  · cases h
  · rename_i hf
    cases h
    unfold IStream.read IStream.left at *
    cases hs : s.fail with
    | true => rw [hs] at hf; simp [hs] at hf
    | false =>
      rw [hs] at hf
      simp only [Bool.false_eq_true, if_false, List.length_replicate, List.length_take,
        decide_eq_true_eq] at hf ⊢
      rw [if_neg hf, List.length_drop]
      omega

theorem forFrom_left {σ : Type} {body : Nat → σ → Outcome σ} (μ : σ → Nat) (d : Nat)
    (hs : ∀ i s s', body i s = ok s' → μ s' + d ≤ μ s) :
    ∀ (n a : Nat) (s s' : σ), forFrom a n body s = ok s' → μ s' + n * d ≤ μ s
  | 0, a, s, s', e => by cases e; omega
  | n + 1, a, s, s', e => by
    rw [forFrom] at e
    obtain ⟨s1, e1, e2⟩ := bind_ok e
    have h1 := hs _ _ _ e1
    have h2 := forFrom_left μ d hs n _ _ _ e2
    rw [Nat.add_mul]
    omega

theorem daRead_left {w : Nat} {s s' : IStream} {t : Vec Nat} (h : daRead w s = ok (t, s')) :
    s'.left ≤ s.left := by
  unfold daRead at h
  obtain ⟨⟨n, s1⟩, e1, h⟩ := bind_ok h
  have h1 := readU64_left e1
  have h2 := forFrom_left (fun p : Vec Nat × IStream => p.2.left) 0 (fun i p p' e => by
    unfold daReadStep at e
    obtain ⟨old, -, e⟩ := bind_ok e
    simp only at e
    obtain ⟨t, -, e⟩ := bind_ok e
    obtain ⟨x, -, e⟩ := bind_ok e
    obtain ⟨t', -, e⟩ := bind_ok e
    cases e
    exact read_left _ _) n 0 _ _ h
  simp only at h2
  omega

theorem objRead_left {k : Kind} {s s' : IStream} {o : Obj} (h : Obj.read k s = ok (o, s')) :
    s'.left + 1 ≤ s.left := by
  have hf : ∀ w t s', fRead w s = ok (t, s') → s'.left + 1 ≤ s.left := by
    intro w t s' h
    unfold fRead at h
    obtain ⟨⟨n, s1⟩, e1, h⟩ := bind_ok h
    obtain ⟨⟨t, s2⟩, e2, h⟩ := bind_ok h
    cases h
    have h1 := readU64_left e1
    have h2 := daRead_left e2
    omega
  have hl : ∀ w t s', lRead w s = ok (t, s') → s'.left + 1 ≤ s.left := by
    intro w t s' h
    unfold lRead at h
    obtain ⟨⟨n, s1⟩, e1, h⟩ := bind_ok h
    obtain ⟨⟨lv, s2⟩, e2, h⟩ := bind_ok h
    simp only at h
    obtain ⟨⟨v, s3⟩, e3, h⟩ := bind_ok h
    obtain ⟨⟨t, s4⟩, e4, h⟩ := bind_ok h
    cases h
    have h1 := readU64_left e1
    have h2 := readU64_left e2
    have h3 := forFrom_left (fun p : Vec Nat × IStream => p.2.left) 0 (fun i p p' e => by
      obtain ⟨⟨x, q⟩, e1, e⟩ := bind_ok e
      obtain ⟨v, -, e⟩ := bind_ok e
      cases e
      have := readU64_left e1
      simp only
      omega) lv 0 _ _ e3
    have h4 : s4.left ≤ s3.left := daRead_left e4
    simp only at h3
    show s4.left + 1 ≤ _
    omega
  cases k <;> simp only [Obj.read] at h <;> first
    | cases h; done
    | (obtain ⟨⟨t, s1⟩, e, h⟩ := bind_ok h
       cases h
       first | exact hf _ _ _ e | exact hl _ _ _ e)

theorem ofLe_big {v : Nat} (h : v < 256 ^ 8) : ofLe (big 8 v) = hton 8 v := by
  have hw : Wd 8 := Or.inr (Or.inr rfl)
  rw [← write_big hw, ofLe_leBytes, Nat.mod_eq_of_lt (hton_rev hw h).1]

theorem hread_swapped {c : HCfg} {o o' : Hybrid} {s' : IStream} {n m : Nat} {rest : List Nat}
    (h0 : 0 < m) (hm : m < 2 ^ 32) (hr : rest.length < 2 ^ 32) :
    Hybrid.read c o ⟨big 8 n ++ (big 8 m ++ rest), false⟩ ≠ ok (o', s') := by
  intro h
  have e8 : ∀ x, (big 8 x).length = 8 := fun x => big_length 8 x
  unfold Hybrid.read at h
  simp only at h
  have er : (IStream.read ⟨big 8 n ++ (big 8 m ++ rest), false⟩ (List.replicate 8 0)).2 =
      ⟨big 8 m ++ rest, false⟩ := by
    unfold IStream.read
    simp [e8]
  rw [er] at h
  have ew : readRaw64 ⟨big 8 m ++ rest, false⟩ = ok (hton 8 m, ⟨rest, false⟩) := by
    unfold readRaw64 IStream.read
    simp [e8, ← ofLe_big (v := m) (by omega)]
  rw [ew, ok_bind] at h
  simp only at h
  obtain ⟨⟨top, s1⟩, e1, h⟩ := bind_ok h
  simp only at h
  obtain ⟨⟨forest, s2⟩, e2, h⟩ := bind_ok h
  have h1 := objRead_left e1
  have h2 := forFrom_left (fun p : Vec Obj × IStream => p.2.left) 1 (fun i p p' e => by
    obtain ⟨⟨b, q⟩, e1, e⟩ := bind_ok e
    cases e
    unfold readNextBottom at e1
    obtain ⟨_, -, e1⟩ := bind_ok e1
    exact objRead_left e1) _ 0 _ _ e2
  have h3 : 2 ^ 32 ≤ hton 8 m := swap64_ge h0 hm
  simp only [IStream.left, Bool.false_eq_true, if_false] at h1 h2
  omega

theorem or4095 (x : Nat) : 4095 ||| x = x / 4096 * 4096 + 4095 := by
  have e : x / 4096 * 4096 + 4095 = (x / 4096) <<< 12 ||| 4095 := by
    rw [← Nat.shiftLeft_add_eq_or_of_lt (by decide), Nat.shiftLeft_eq]
  rw [e]
  apply Nat.eq_of_testBit_eq
  intro i
  rw [Nat.testBit_or, Nat.testBit_or, show (4095 : Nat) = 2 ^ 12 - 1 from rfl,
    Nat.testBit_two_pow_sub_one, Nat.testBit_shiftLeft, show (4096 : Nat) = 2 ^ 12 from rfl,
    Nat.testBit_div_two_pow]
  by_cases h : i < 12
  · simp [h]
  · simp only [h, decide_false, Bool.false_or, Bool.or_false, show i ≥ 12 by omega, decide_true,
      Bool.true_and]
    congr 1
    omega

theorem pageAligned_eq {w n : Nat} (h : n * w < 2 ^ 63) : pageAligned w n = pages (n * w) := by
  unfold pageAligned pages
  rw [mul64_eq (by simp only [W64]; omega), or4095]
  generalize n * w = b at h ⊢
  by_cases h0 : b = 0
  · subst h0; decide
  · rw [sub64_eq (by omega) (by simp only [W64]; omega), add64_eq (by simp only [W64]; omega)]
    omega

/-- Bytes allocated for the arrays of an object. -/
def Obj.mapped : Obj → Nat
  | .fixedF t => pages (8 * t.tree.len)
  | .byteF t | .bitF t | .typeF t => pages t.tree.size
  | .fixedL t => pages (8 * t.tree.len) + 8 * t.levels
  | .byteL t | .bitL t => pages t.tree.size + 8 * t.levels
  | .typeL t => pages t.tree.t8.len + pages (2 * t.tree.t16.len) + pages (8 * t.tree.t64.len) +
      8 * t.levels

/-- Class of an object. -/
def Obj.kind : Obj → Kind
  | .fixedF _ => .fixedF
  | .byteF _ => .byteF
  | .bitF _ => .bitF
  | .typeF _ => .typeF
  | .fixedL _ => .fixedL
  | .byteL _ => .byteL
  | .bitL _ => .bitL
  | .typeL _ => .typeL

/-- Number of `DArray` members. -/
def Kind.arrays : Kind → Nat
  | .typeL => 3
  | _ => 1

theorem objHolds_kind {c : Cfg} {n : Nat} {P : Nat → Int} {k : Kind} {o : Obj}
    (h : ObjHolds c n P k o) : o.kind = k := by
  cases k <;> cases o <;> first | exact h.elim | rfl

theorem le_pages (b : Nat) : b ≤ pages b := by unfold pages; omega

theorem bitCount_eq {o : Obj} (h : o.mapped < 2 ^ 60) : o.bitCount =
    8 * (o.kind.sizeOf + o.mapped) + 112 * o.kind.arrays := by
  cases o with
  | fixedF t =>
    simp only [Obj.mapped] at h
    have := le_pages (8 * t.tree.len)
    simp only [Obj.bitCount, Obj.mapped, Obj.kind, Kind.sizeOf, Kind.arrays, daBitCount]
    rw [pageAligned_eq (by omega), Nat.mul_comm t.tree.len,
      sub64_eq (by omega) (by simp only [W64]; omega)]
    omega
  | byteF t =>
    simp only [Obj.mapped] at h
    have := le_pages t.tree.size
    simp only [Obj.bitCount, Obj.mapped, Obj.kind, Kind.sizeOf, Kind.arrays, daBitCount, memVec]
    rw [pageAligned_eq (by omega), Nat.mul_one,
      sub64_eq (by omega) (by simp only [W64]; omega)]
    omega
  | bitF t =>
    simp only [Obj.mapped] at h
    have := le_pages t.tree.size
    simp only [Obj.bitCount, Obj.mapped, Obj.kind, Kind.sizeOf, Kind.arrays, daBitCount, memVec]
    rw [pageAligned_eq (by omega), Nat.mul_one,
      sub64_eq (by omega) (by simp only [W64]; omega)]
    omega
  | typeF t =>
    simp only [Obj.mapped] at h
    have := le_pages t.tree.size
    simp only [Obj.bitCount, Obj.mapped, Obj.kind, Kind.sizeOf, Kind.arrays, daBitCount, memVec]
    rw [pageAligned_eq (by omega), Nat.mul_one,
      sub64_eq (by omega) (by simp only [W64]; omega)]
    omega
  | fixedL t =>
    simp only [Obj.mapped] at h
    have := le_pages (8 * t.tree.len)
    simp only [Obj.bitCount, Obj.mapped, Obj.kind, Kind.sizeOf, Kind.arrays, daBitCount]
    rw [pageAligned_eq (by omega), Nat.mul_comm t.tree.len,
      sub64_eq (by omega) (by simp only [W64]; omega), mul64_eq (by simp only [W64]; omega),
      add64_eq (by simp only [W64]; omega)]
    omega
  | byteL t =>
    simp only [Obj.mapped] at h
    have := le_pages t.tree.size
    simp only [Obj.bitCount, Obj.mapped, Obj.kind, Kind.sizeOf, Kind.arrays, daBitCount, memVec]
    rw [pageAligned_eq (by omega), Nat.mul_one,
      sub64_eq (by omega) (by simp only [W64]; omega), mul64_eq (by simp only [W64]; omega),
      add64_eq (by simp only [W64]; omega)]
    omega
  | bitL t =>
    simp only [Obj.mapped] at h
    have := le_pages t.tree.size
    simp only [Obj.bitCount, Obj.mapped, Obj.kind, Kind.sizeOf, Kind.arrays, daBitCount, memVec]
    rw [pageAligned_eq (by omega), Nat.mul_one,
      sub64_eq (by omega) (by simp only [W64]; omega), mul64_eq (by simp only [W64]; omega),
      add64_eq (by simp only [W64]; omega)]
    omega
  | typeL t =>
    simp only [Obj.mapped] at h
    have h1 := le_pages t.tree.t8.len
    have h2 := le_pages (2 * t.tree.t16.len)
    have h3 := le_pages (8 * t.tree.t64.len)
    simp only [Obj.bitCount, Obj.mapped, Obj.kind, Kind.sizeOf, Kind.arrays, daBitCount]
    rw [pageAligned_eq (by omega), pageAligned_eq (by omega), pageAligned_eq (by omega), Nat.mul_one,
      Nat.mul_comm _ 2, Nat.mul_comm t.tree.t64.len 8]
    generalize pages t.tree.t8.len = a at *
    generalize pages (2 * t.tree.t16.len) = b at *
    generalize pages (8 * t.tree.t64.len) = d at *
    rw [sub64_eq (a := 80 * 8 + (16 * 8 + a * 8)) (by omega) (by simp only [W64]; omega),
      add64_eq (a := 80 * 8 + (16 * 8 + a * 8) - 16) (b := 16 * 8 + b * 8) (by simp only [W64]; omega),
      sub64_eq (a := 80 * 8 + (16 * 8 + a * 8) - 16 + (16 * 8 + b * 8)) (by omega)
        (by simp only [W64]; omega),
      add64_eq (a := 80 * 8 + (16 * 8 + a * 8) - 16 + (16 * 8 + b * 8) - 16) (b := 16 * 8 + d * 8)
        (by simp only [W64]; omega),
      sub64_eq (by omega) (by simp only [W64]; omega), mul64_eq (by simp only [W64]; omega),
      add64_eq (by simp only [W64]; omega)]
    omega

/-- Sum of the first `m` values. -/
def sumTo (f : Nat → Nat) : Nat → Nat
  | 0 => 0
  | m + 1 => sumTo f m + f m

theorem sumTo_mono (f : Nat → Nat) {a b : Nat} (h : a ≤ b) : sumTo f a ≤ sumTo f b := by
  induction h with
  | refl => exact Nat.le_refl _
  | step _ ih => exact Nat.le_trans ih (Nat.le_add_right _ _)

theorem sumTo_congr {f g : Nat → Nat} : ∀ {m : Nat}, (∀ i, i < m → f i = g i) → sumTo f m = sumTo g m
  | 0, _ => rfl
  | m + 1, h => by
    rw [sumTo, sumTo, sumTo_congr fun i hi => h i (by omega), h m (by omega)]

theorem sumTo_affine (f : Nat → Nat) (a b : Nat) : ∀ m : Nat,
    sumTo (fun i => a * f i + b) m = a * sumTo f m + b * m
  | 0 => rfl
  | m + 1 => by
    rw [sumTo, sumTo, sumTo_affine f a b m, Nat.mul_add, Nat.mul_succ]
    omega

theorem le_sumTo (f : Nat → Nat) {m i : Nat} (h : i < m) : f i ≤ sumTo f m :=
  Nat.le_trans (Nat.le_add_left _ _) (sumTo_mono f (show i + 1 ≤ m from h))

/-- `Hybrid::bitCount`. -/
theorem hbitCount_eq {c : HCfg} {o : Hybrid}
    (h : sumTo (fun i => (o.forest.f i).bitCount) o.forest.len + o.top.bitCount < 2 ^ 63) :
    o.bitCount c = ok (sumTo (fun i => (o.forest.f i).bitCount) o.forest.len + 48 +
      c.bottom.sizeOf + o.top.bitCount) := by
  unfold Hybrid.bitCount
  have hz : c.bottom.sizeOf ≤ 80 := by cases c.bottom <;> decide
  obtain ⟨s, e, hs⟩ := forN_inv (body := fun i a => do
      let b ← o.forest.get i
      ok (add64 a b.bitCount))
    (fun i a => a = sumTo (fun i => (o.forest.f i).bitCount) i) o.forest.len 0 rfl
    (fun i a hi ha => by
      refine ⟨_, by rw [Vec.get_ok hi, ok_bind], ?_⟩
      rw [ha, add64_eq]
      · rfl
      · have := sumTo_mono (fun i => (o.forest.f i).bitCount) (show i + 1 ≤ o.forest.len from hi)
        simp only [sumTo] at this
        simp only [W64]
        omega)
  rw [e, ok_bind, hs]
  have e1 : add64 (sumTo (fun i => (o.forest.f i).bitCount) o.forest.len) (48 + c.bottom.sizeOf) =
      sumTo (fun i => (o.forest.f i).bitCount) o.forest.len + (48 + c.bottom.sizeOf) :=
    add64_eq (by simp only [W64]; omega)
  rw [e1, add64_eq (by simp only [W64]; omega)]
  congr 1
  omega

end MRS.Hft
