import Verif.Props.HftTrees
import Verif.Proofs.Hft.TypeLPast

/-!
# C49: exactly when searches of TypeL go wrong

A zero of the size in binary, below the leading one, makes a search look past the end of a level.  It
does no harm only where the element type of the nodes changes: there the level is the last one of its
array.  `find` and `compFind` are right for all arrays, histories and values exactly for the sizes
without a zero that does harm.
-/

set_option autoImplicit false

namespace MRS.Props

open Spec.Tree Hft Outcome

/-- Bit `h` of the size, below the leading one, is a zero, and nodes of heights `h` and `h + 1` have the
same element type. -/
def BadZero (c : Cfg) (n h : Nat) : Prop :=
  h < Nat.log2 n ∧ n / 2 ^ h % 2 = 0 ∧ bits c.bound + h ≠ 8 ∧ bits c.bound + h ≠ 16

/-- The first such bit from the left. -/
def FirstZero (c : Cfg) (n h : Nat) : Prop := BadZero c n h ∧ ∀ g, h < g → ¬ BadZero c n g

/-- The size with bits `h` and below cleared. -/
def above (n h : Nat) : Nat := 2 ^ (h + 1) * (n / 2 ^ (h + 1))

theorem FirstZero.firstBad {c : Cfg} {n h : Nat} (hf : FirstZero c n h) : FirstBad c n h := by
  intro g hg hlt h0
  apply Classical.byContradiction
  intro hno
  rw [c.bs_eq] at hno
  exact hf.2 g hg ⟨hlt, h0, fun e => hno (Or.inl e), fun e => hno (Or.inr e)⟩

theorem above_le (n h : Nat) : above n h ≤ n := Nat.mul_div_le _ _

theorem BadZero.lt_above {c : Cfg} {n h : Nat} (hb : BadZero c n h) : n < above n h + 2 ^ h := by
  have a := Nat.lt_mul_div_succ n (Nat.two_pow_pos h)
  have b : n / 2 ^ (h + 1) = n / 2 ^ h / 2 := by rw [Nat.pow_succ, Nat.div_div_eq_div_mul]
  have d : n / 2 ^ h = 2 * (n / 2 ^ (h + 1)) := by have := hb.2.1; omega
  rw [d, Nat.mul_add, Nat.mul_one, ← Nat.mul_assoc, ← Nat.pow_succ] at a
  exact a

theorem BadZero.pos {c : Cfg} {n h : Nat} (hb : BadZero c n h) : n ≠ 0 := by
  intro h0
  have := hb.1
  rw [h0] at this
  exact absurd this (Nat.not_lt_zero _)

theorem BadZero.pow_le {c : Cfg} {n h : Nat} (hb : BadZero c n h) : 2 ^ (h + 1) ≤ n :=
  (Nat.le_log2 hb.pos).1 hb.1

theorem BadZero.pow_le_above {c : Cfg} {n h : Nat} (hb : BadZero c n h) : 2 ^ (h + 1) ≤ above n h := by
  have : 1 ≤ n / 2 ^ (h + 1) := (Nat.le_div_iff_mul_le (Nat.two_pow_pos _)).2 (by
    rw [Nat.one_mul]; exact hb.pow_le)
  have := Nat.mul_le_mul_left (2 ^ (h + 1)) this
  rwa [Nat.mul_one] at this

/-- **C49, past the first bad zero.**  A value that covers the prefix `above n h` of the size and the
first `2^(h+1)` elements once more sends `find` to the end of the tree, whatever the other elements are,
and those first elements are taken off the value twice. -/
theorem C49_past {c : Cfg} {A : List Int} {ops : List (Nat × Int)} {h val : Nat}
    (hn : A.length < 2 ^ 48) (hz : FirstZero c A.length h)
    (hl : Limits c A.length .typeL) (hi : ∀ op ∈ ops, 0 < op.1) (hb : StaysWithin c.bound A ops)
    (hv : pre (after A ops) (above A.length h) + pre (after A ops) (2 ^ (h + 1)) ≤ val) :
    ∃ o d, run c .typeL A ops = ok o ∧ o.find c val = ok (A.length, d) ∧
      (d : Int) ≤ val - pre (after A ops) (above A.length h) - pre (after A ops) (2 ^ (h + 1)) := by
  obtain ⟨o, e, ho⟩ := run_holds hn hl hi (fun _ => hb)
  have el := after_length ops A
  have hf := hl.fits hn
  have h3 := hz.1.pow_le
  have hfb := hz.firstBad
  obtain ⟨⟨hlog, h0, h8, h16⟩, -⟩ := hz
  have hroot : bits c.bound + Nat.log2 A.length ≤ 63 := hl
  have hW := staysWithin_last ops hb
  have hnn : ∀ a ∈ after A ops, 0 ≤ a := fun a ha => (hW a ha).1
  rw [← c.bs_eq] at h8 h16 hroot
  rw [← el] at hf ho h3 hfb hlog h0 hroot hv ⊢
  have hQ : ∀ i, pre (after A ops) i = ((pre (after A ops) i).toNat : Nat) := fun i => by
    have := pre_nonneg hnn i; omega
  cases o <;> first | exact ho.elim | skip
  obtain ⟨hs, hL, ⟨ends, hlev⟩, v, hrep, hval⟩ := ho
  have hnode : ∀ g k, 2 ^ g * (2 * k + 1) ≤ (after A ops).length → v (2 ^ g * (2 * k + 1)) =
      (pre (after A ops) (2 ^ g * (2 * k + 1))).toNat - (pre (after A ops) (2 ^ (g + 1) * k)).toNat := by
    intro g k hle
    have hpos := node_pos g k
    have h64 : g < 64 := node_lt (k := k) (by have := hf.lt; omega)
    have hlt := node_lt_bound hf rfl hW hpos hle
    rw [hval _ hpos hle]
    unfold nodeInt at hlt ⊢
    rw [sub_low h64] at hlt ⊢
    have m := pre_le hnn (show 2 ^ (g + 1) * k ≤ 2 ^ g * (2 * k + 1) by
      rw [node_eq]; exact Nat.le_add_right _ _)
    have m0 := pre_nonneg hnn (2 ^ (g + 1) * k)
    obtain ⟨y, hy⟩ : ∃ y : Nat,
        pre (after A ops) (2 ^ g * (2 * k + 1)) - pre (after A ops) (2 ^ (g + 1) * k) = y :=
      ⟨(pre (after A ops) (2 ^ g * (2 * k + 1)) - pre (after A ops) (2 ^ (g + 1) * k)).toNat,
        by omega⟩
    rw [hy, u64_nat (by omega)]
    omega
  have hfirst := hnode (h + 1) 0 (by simpa using h3)
  simp only [Nat.mul_zero, Nat.zero_add, Nat.mul_one, pre_zero, Int.toNat_zero, Nat.sub_zero] at hfirst
  obtain ⟨d, e1, e2⟩ := findT_past (val := val) (Q := fun i => (pre (after A ops) i).toNat) hlev hrep
    (fun g k hle => by rw [typeL_get hlev hrep hle, hnode g k hle]) (fun g k y e => ⟨y, e⟩)
    (fun k e => by rw [e, hfirst])
    (by simp [pre_zero]) (fun a b hab _ => by have := pre_le hnn hab; omega) hlog h0 hfb h8 h16 (by omega)
    (by
      have a := hQ (above (after A ops).length h)
      unfold above at a hv
      have b := hQ (2 ^ (h + 1))
      omega)
  refine ⟨_, d, e, ?_, ?_⟩
  · simp only [Obj.find, hs, hL]
    exact e1
  · have a := hQ (above (after A ops).length h)
    unfold above at a ⊢
    have b := hQ (2 ^ (h + 1))
    omega

/-- **C49, past the first bad zero, compFind.**  The same, with `BOUND * 2^h` less the first `2^(h+1)`
elements in place of the missing node, if that is not negative. -/
theorem C49_comp_past {c : Cfg} {A : List Int} {ops : List (Nat × Int)} {h val : Nat}
    (hn : A.length < 2 ^ 48) (hz : FirstZero c A.length h)
    (hl : Limits c A.length .typeL) (hi : ∀ op ∈ ops, 0 < op.1) (hb : StaysWithin c.bound A ops)
    (hle : pre (after A ops) (2 ^ (h + 1)) ≤ (c.bound * 2 ^ h : Nat))
    (hv : pre (complement c.bound (after A ops)) (above A.length h) +
      ((c.bound * 2 ^ h : Nat) - pre (after A ops) (2 ^ (h + 1))) ≤ val) :
    ∃ o d, run c .typeL A ops = ok o ∧ o.compFind c val = ok (A.length, d) ∧
      (d : Int) ≤ val - pre (complement c.bound (after A ops)) (above A.length h) -
        ((c.bound * 2 ^ h : Nat) - pre (after A ops) (2 ^ (h + 1))) := by
  obtain ⟨o, e, ho⟩ := run_holds hn hl hi (fun _ => hb)
  have el := after_length ops A
  have hf := hl.fits hn
  have h3 := hz.1.pow_le
  have hfb := hz.firstBad
  obtain ⟨⟨hlog, h0, h8, h16⟩, -⟩ := hz
  have hroot : bits c.bound + Nat.log2 A.length ≤ 63 := hl
  have hW := staysWithin_last ops hb
  have hnn : ∀ a ∈ after A ops, 0 ≤ a := fun a ha => (hW a ha).1
  have hcc : ∀ a ∈ complement c.bound (after A ops), 0 ≤ a :=
    fun a ha => (within_complement hW a ha).1
  rw [← c.bs_eq] at h8 h16 hroot
  rw [← el] at hf ho h3 hfb hlog h0 hroot hv ⊢
  have hQ : ∀ i, pre (complement c.bound (after A ops)) i =
      ((pre (complement c.bound (after A ops)) i).toNat : Nat) := fun i => by
    have := pre_nonneg hcc i; omega
  cases o <;> first | exact ho.elim | skip
  obtain ⟨hs, hL, ⟨ends, hlev⟩, v, hrep, hval⟩ := ho
  have hB : c.bound * 2 ^ h < W64 := by
    have a : c.bound < 2 ^ c.bs := lt_ceilLog2Plus1 c.bound
    have b : c.bound * 2 ^ h < 2 ^ (c.bs + h) := by
      rw [Nat.pow_add]
      exact Nat.mul_lt_mul_of_pos_right a (Nat.two_pow_pos _)
    have d : 2 ^ (c.bs + h) ≤ 2 ^ 64 := Nat.pow_le_pow_right (by decide) (by omega)
    simp only [W64]
    omega
  have hnn0 := pre_nonneg hnn (2 ^ (h + 1))
  have hfirst : v (2 ^ (h + 1)) = (pre (after A ops) (2 ^ (h + 1))).toNat := by
    have e64 : tz (2 ^ (h + 1)) = h + 1 := by
      have := tz_eq (h := h + 1) (k := 0) (by omega)
      simpa using this
    rw [hval _ (Nat.two_pow_pos _) h3]
    unfold nodeInt
    rw [e64, Nat.sub_self, pre_zero, Int.sub_zero]
    obtain ⟨y, hy⟩ : ∃ y : Nat, pre (after A ops) (2 ^ (h + 1)) = y :=
      ⟨(pre (after A ops) (2 ^ (h + 1))).toNat, by omega⟩
    rw [hy, u64_nat (by omega)]
    rfl
  obtain ⟨d, e1, e2⟩ := findT_past (val := val)
    (Q := fun i => (pre (complement c.bound (after A ops)) i).toNat)
    (read := compLevel c (typeLGet c _ _))
    (w := c.bound * 2 ^ h - (pre (after A ops) (2 ^ (h + 1))).toNat) hlev hrep
    (fun g k hg => by
      have h64 : g < 64 := node_lt (k := k) (by have := hf.lt; omega)
      have := comp_node hf.lt hW (by omega) (node_pos g k) hg
      rw [sub_low h64, tz_eq h64, ← hval _ (node_pos g k) hg] at this
      unfold compLevel
      rw [typeL_get hlev hrep hg, ok_bind, this])
    (fun g k y e => ⟨_, by unfold compLevel; rw [e, ok_bind]⟩)
    (fun k e => by
      unfold compLevel
      rw [e, ok_bind, hfirst]
      unfold comp
      rw [Nat.shiftLeft_eq, Nat.mod_eq_of_lt hB, sub64_eq (by omega) hB])
    (by simp [pre_zero]) (fun a b hab _ => by have := pre_le hcc hab; omega) hlog h0 hfb h8 h16 (by omega)
    (by
      have a := hQ (above (after A ops).length h)
      unfold above at a hv
      omega)
  refine ⟨_, d, e, ?_, ?_⟩
  · simp only [Obj.compFind, hs, hL]
    exact e1
  · have a := hQ (above (after A ops).length h)
    unfold above at a ⊢
    omega

theorem pre_replicate_zero (m i : Nat) (l : List Int) (hi : i ≤ m) :
    pre (List.replicate m 0 ++ l) i = 0 := by
  unfold pre
  rw [List.take_append_of_le_length (by simpa using hi), List.take_replicate]
  simp

/-- **C49, negation for sizes, position.**  If the size has ones behind the first bad zero, `find(0)`
over zeros and a last one returns the size, whose prefix is 1. -/
theorem C49_wrong_place {c : Cfg} {m h : Nat} (hn : m + 1 < 2 ^ 48) (hz : FirstZero c (m + 1) h)
    (h1 : above (m + 1) h ≤ m) (hB : 1 ≤ c.bound) (hl : Limits c (m + 1) .typeL) :
    ∃ o, run c .typeL (List.replicate m 0 ++ [1]) [] = ok o ∧ o.find c 0 = ok (m + 1, 0) ∧
      Spec.Tree.IsFind (List.replicate m 0 ++ [1]) 0 m ∧
      ¬ Spec.Tree.IsFind (List.replicate m 0 ++ [1]) 0 (m + 1) := by
  have hlen : (List.replicate m (0 : Int) ++ [1]).length = m + 1 := by simp
  have hle := hz.1.pow_le_above
  have hW : Within c.bound (List.replicate m (0 : Int) ++ [1]) := by
    intro a ha
    simp only [List.mem_append, List.mem_replicate, List.mem_singleton] at ha
    omega
  obtain ⟨o, d, e, e1, e2⟩ := C49_past (c := c) (A := List.replicate m 0 ++ [1]) (ops := [])
    (val := 0) (by rw [hlen]; exact hn) (by rw [hlen]; exact hz)
    (by rw [hlen]; exact hl) (by simp) hW (by
      show pre (List.replicate m 0 ++ [1]) _ + pre (List.replicate m 0 ++ [1]) _ ≤ _
      rw [hlen, pre_replicate_zero _ _ _ (by omega), pre_replicate_zero _ _ _ (by omega)]; decide)
  rw [hlen] at e1 e2
  have e2 : (d : Int) ≤ (0 : Nat) - pre (List.replicate m 0 ++ [1]) (above (m + 1) h)
      - pre (List.replicate m 0 ++ [1]) (2 ^ (h + 1)) := e2
  rw [pre_replicate_zero _ _ _ (by omega), pre_replicate_zero _ _ _ (by omega)] at e2
  have hd : d = 0 := by omega
  subst hd
  have hlast : pre (List.replicate m 0 ++ [1]) (m + 1) = 1 := by
    unfold pre
    rw [List.take_of_length_le (by rw [hlen]; exact Nat.le_refl _)]
    simp
  refine ⟨o, e, e1, ⟨by rw [hlen]; omega, ?_, ?_⟩, ?_⟩
  · rw [pre_replicate_zero _ _ _ (Nat.le_refl _)]; decide
  · intro j hj hpj
    rw [hlen] at hj
    apply Classical.byContradiction
    intro hc
    have : j = m + 1 := by omega
    subst this
    rw [hlast] at hpj
    exact absurd hpj (by decide)
  · intro hf
    have := hf.2.1
    rw [hlast] at this
    exact absurd this (by decide)

/-- `FirstZero` is a finite check. -/
theorem first_of {c : Cfg} {n h : Nat} (hb : h < Nat.log2 n ∧ n / 2 ^ h % 2 = 0 ∧
    bits c.bound + h ≠ 8 ∧ bits c.bound + h ≠ 16)
    (hg : ∀ g, g < Nat.log2 n → h < g → n / 2 ^ g % 2 = 0 →
      bits c.bound + g = 8 ∨ bits c.bound + g = 16) : FirstZero c n h :=
  ⟨hb, fun g h1 h2 => by have := hg g h2.1 h1 h2.2.1; have := h2.2.2; omega⟩

/-- 300 counters of 5 bits: `100101100` in binary, the first zero at bit 7. -/
example : ∃ o, run (hcfg 31) .typeL (List.replicate 299 0 ++ [1]) [] = ok o ∧
    o.find (hcfg 31) 0 = ok (300, 0) ∧
    ¬ Spec.Tree.IsFind (List.replicate 299 0 ++ [1]) 0 300 := by
  obtain ⟨o, e, e1, _, e3⟩ := C49_wrong_place (c := hcfg 31) (m := 299) (h := 7) (by decide)
    (first_of (by decide +kernel) (by decide +kernel)) (by decide) (by decide)
    (by unfold Limits; decide +kernel)
  exact ⟨o, e, e1, e3⟩

theorem pre_one (m i : Nat) (hi : 0 < i) : pre (1 :: List.replicate m 0) i = 1 := by
  obtain ⟨j, rfl⟩ : ∃ j, i = j + 1 := ⟨i - 1, by omega⟩
  unfold pre
  rw [List.take_succ_cons, List.take_replicate]
  simp

/-- **C49, negation for every size with a bad zero, remainder.**  `find(2)` over a one and zeros leaves
0 in its argument, though the sum of all is 1. -/
theorem C49_wrong_rest {c : Cfg} {m h : Nat} (hn : m + 1 < 2 ^ 48) (hz : FirstZero c (m + 1) h)
    (hB : 1 ≤ c.bound) (hl : Limits c (m + 1) .typeL) :
    ∃ o, run c .typeL (1 :: List.replicate m 0) [] = ok o ∧ o.find c 2 = ok (m + 1, 0) ∧
      Spec.Tree.IsFind (1 :: List.replicate m 0) 2 (m + 1) ∧
      2 - pre (1 :: List.replicate m 0) (m + 1) = 1 := by
  have hlen : ((1 : Int) :: List.replicate m 0).length = m + 1 := by simp
  have hle := hz.1.pow_le_above
  have hpos := Nat.two_pow_pos (h + 1)
  have hW : Within c.bound ((1 : Int) :: List.replicate m 0) := by
    intro a ha
    simp only [List.mem_cons, List.mem_replicate] at ha
    omega
  obtain ⟨o, d, e, e1, e2⟩ := C49_past (c := c) (A := 1 :: List.replicate m 0) (ops := [])
    (val := 2) (by rw [hlen]; exact hn) (by rw [hlen]; exact hz)
    (by rw [hlen]; exact hl) (by simp) hW (by
      show pre (1 :: List.replicate m 0) _ + pre (1 :: List.replicate m 0) _ ≤ _
      rw [hlen, pre_one _ _ (by omega), pre_one _ _ hpos]; decide)
  rw [hlen] at e1 e2
  have e2 : (d : Int) ≤ (2 : Nat) - pre (1 :: List.replicate m 0) (above (m + 1) h)
      - pre (1 :: List.replicate m 0) (2 ^ (h + 1)) := e2
  rw [pre_one _ _ (by omega), pre_one _ _ hpos] at e2
  have hd : d = 0 := by omega
  subst hd
  refine ⟨o, e, e1, ⟨by rw [hlen]; exact Nat.le_refl _, ?_, fun j hj _ => by rw [hlen] at hj; exact hj⟩, ?_⟩
  · rw [pre_one _ _ (by omega)]; decide
  · rw [pre_one _ _ (by omega)]; decide

/-- Six words, `110` in binary. -/
example : ∃ o, run (hcfg 64) .typeL [1, 0, 0, 0, 0, 0] [] = ok o ∧
    o.find (hcfg 64) 2 = ok (6, 0) := by
  obtain ⟨o, e, e1, _⟩ := C49_wrong_rest (c := hcfg 64) (m := 5) (h := 0) (by decide)
    (first_of (by decide +kernel) (by decide +kernel)) (by decide) (by unfold Limits; decide +kernel)
  exact ⟨o, e, e1⟩

theorem pre_zeros (B n i : Nat) (hi : i ≤ n) : pre (List.replicate n 0) i = 0 ∧
    pre (complement B (List.replicate n 0)) i = (B * i : Nat) := by
  have a := pre_replicate_zero n i [] hi
  rw [List.append_nil] at a
  exact ⟨a, by rw [pre_complement _ _ _ (by simpa using hi), a, Int.sub_zero]⟩

/-- **C49, negation for every size with a bad zero, remainder of compFind.**  Over zeros, the search for
`BOUND * (above n h + 2^h)` leaves 0 in its argument, though the sum of all is smaller. -/
theorem C49_wrong_comp_rest {c : Cfg} {n h : Nat} (hn : n < 2 ^ 48) (hz : FirstZero c n h)
    (hB : 1 ≤ c.bound) (hl : Limits c n .typeL) :
    ∃ o, run c .typeL (List.replicate n 0) [] = ok o ∧
      o.compFind c (c.bound * (above n h + 2 ^ h)) = ok (n, 0) ∧
      Spec.Tree.IsFind (complement c.bound (List.replicate n 0)) (c.bound * (above n h + 2 ^ h)) n ∧
      pre (complement c.bound (List.replicate n 0)) n < (c.bound * (above n h + 2 ^ h) : Nat) := by
  have hlen : (List.replicate n (0 : Int)).length = n := by simp
  have hW : Within c.bound (List.replicate n (0 : Int)) := by
    intro a ha
    simp only [List.mem_replicate] at ha
    omega
  have hx := pre_zeros c.bound n (above n h) (above_le n h)
  have hy := pre_zeros c.bound n (2 ^ (h + 1)) hz.1.pow_le
  have he := pre_zeros c.bound n n (Nat.le_refl _)
  have hsum := Nat.mul_add c.bound (above n h) (2 ^ h)
  have hlt : c.bound * n < c.bound * (above n h + 2 ^ h) :=
    Nat.mul_lt_mul_of_pos_left hz.1.lt_above hB
  obtain ⟨o, d, e, e1, e2⟩ := C49_comp_past (c := c) (A := List.replicate n 0) (ops := [])
    (val := c.bound * (above n h + 2 ^ h)) (by rw [hlen]; exact hn) (by rw [hlen]; exact hz)
    (by rw [hlen]; exact hl) (by simp) hW
    (by show pre (List.replicate n 0) _ ≤ _; rw [hy.1]; exact Int.natCast_nonneg _)
    (by
      show pre (complement c.bound (List.replicate n 0)) _ + (_ - pre (List.replicate n 0) _) ≤ _
      rw [hlen, hx.2, hy.1]; omega)
  rw [hlen] at e1 e2
  have e2 : (d : Int) ≤ (c.bound * (above n h + 2 ^ h) : Nat) -
      pre (complement c.bound (List.replicate n 0)) (above n h) -
      ((c.bound * 2 ^ h : Nat) - pre (List.replicate n 0) (2 ^ (h + 1))) := e2
  rw [hx.2, hy.1] at e2
  have hd : d = 0 := by omega
  subst hd
  refine ⟨o, e, e1, ⟨by rw [complement_length, hlen]; exact Nat.le_refl _, ?_, fun j hj _ => by
    rw [complement_length, hlen] at hj; exact hj⟩, ?_⟩
  · rw [he.2]; exact Int.ofNat_le.2 (Nat.le_of_lt hlt)
  · rw [he.2]; exact Int.ofNat_lt.2 hlt

/-- Six words of no ones: looking for zero number 448 leaves 0 instead of 64. -/
example : ∃ o, run (hcfg 64) .typeL [0, 0, 0, 0, 0, 0] [] = ok o ∧
    o.compFind (hcfg 64) 448 = ok (6, 0) ∧ pre (complement 64 [0, 0, 0, 0, 0, 0]) 6 = 384 := by
  obtain ⟨o, e, e1, _⟩ := C49_wrong_comp_rest (c := hcfg 64) (n := 6) (h := 0) (by decide)
    (first_of (by decide +kernel) (by decide +kernel)) (by decide) (by unfold Limits; decide +kernel)
  exact ⟨o, e, e1, by decide⟩

/-- After a history: the elements are 1, 0, 0, 0, 3, and the right answer to 3 is 4, rest 2. -/
example : ∃ o d, run (hcfg 3) .typeL [1, 0, 1, 1, 0] [(4, -1), (5, 3), (3, -1)] = ok o ∧
    o.find (hcfg 3) 3 = ok (5, d) ∧ (d : Int) ≤ 1 := by
  obtain ⟨o, d, e, e1, e2⟩ := C49_past (c := hcfg 3) (A := [1, 0, 1, 1, 0])
    (ops := [(4, -1), (5, 3), (3, -1)]) (h := 1) (val := 3) (by decide)
    (first_of (by decide +kernel) (by decide +kernel)) (by unfold Limits; decide +kernel) (by decide)
    (by decide) (by decide)
  exact ⟨o, d, e, e1, Int.le_trans e2 (by decide)⟩

/-- The elements are 2, 0, 0, 0, 1, the complements 1, 3, 3, 3, 2: the rest of 14 would be 2. -/
example : ∃ o d, run (hcfg 3) .typeL [0, 0, 0, 0, 0] [(1, 2), (5, 1)] = ok o ∧
    o.compFind (hcfg 3) 14 = ok (5, d) ∧ (d : Int) ≤ 0 := by
  obtain ⟨o, d, e, e1, e2⟩ := C49_comp_past (c := hcfg 3) (A := [0, 0, 0, 0, 0])
    (ops := [(1, 2), (5, 1)]) (h := 1) (val := 14) (by decide)
    (first_of (by decide +kernel) (by decide +kernel)) (by unfold Limits; decide +kernel) (by decide)
    (by decide) (by decide) (by decide)
  exact ⟨o, d, e, e1, Int.le_trans e2 (by decide)⟩

/-! ## What is right -/

/-- **C49, before the first bad zero.**  Values below the prefix of `above n h` are found. -/
theorem C49_find_first_partial {c : Cfg} {A : List Int} {ops : List (Nat × Int)} {h val : Nat}
    (hn : A.length < 2 ^ 48) (hz : FirstZero c A.length h)
    (hl : Limits c A.length .typeL) (hi : ∀ op ∈ ops, 0 < op.1) (hb : StaysWithin c.bound A ops)
    (hv : (val : Int) < pre (after A ops) (above A.length h)) :
    ∃ o r d, run c .typeL A ops = ok o ∧ o.find c val = ok (r, d) ∧
      Spec.Tree.IsFind (after A ops) val r ∧ (d : Int) = val - pre (after A ops) r := by
  obtain ⟨o, e, ho⟩ := run_holds hn hl hi (fun _ => hb)
  have el := after_length ops A
  have hf := hl.fits hn
  rw [← el] at hf ho hz hv
  have hW := staysWithin_last ops hb
  have hnn : ∀ a ∈ after A ops, 0 ≤ a := fun a ha => (hW a ha).1
  obtain ⟨r, d, e1, e2, e3⟩ := find_reach (val := val) hf ho (Nat.pos_of_ne_zero hz.1.pos)
    (fun _ => reach_first hz.firstBad (fun a b hab _ => by have := pre_le hnn hab; omega)
      (by unfold above at hv; omega)) hnn
    (fun i h1 h2 => node_lt_bound hf rfl hW h1 h2)
  exact ⟨o, r, d, e, e1, e2, e3⟩

/-- 25 elements of one bit, `11001` in binary: the first bad zero is at bit 2, before it all values
below the prefix of 24. -/
example : ∃ o, run (hcfg 1) .typeL (List.replicate 25 1) [(1, -1)] = ok o ∧
    o.find (hcfg 1) 22 = ok (23, 0) := by
  obtain ⟨o, r, d, e, e1, e2, e3⟩ := C49_find_first_partial (c := hcfg 1) (A := List.replicate 25 1)
    (ops := [(1, -1)]) (h := 2) (val := 22) (by decide)
    (first_of (by decide +kernel) (by decide +kernel)) (by unfold Limits; decide +kernel) (by decide)
    (by decide +kernel) (by decide +kernel)
  have hr : r = 23 := isFind_unique e2 ⟨by decide +kernel, by decide +kernel, by decide +kernel⟩
  subst hr
  have hd : d = 0 := by
    have : pre (after (List.replicate 25 1) [(1, -1)]) 23 = 22 := by decide +kernel
    omega
  subst hd
  exact ⟨o, e, e1⟩

/-- **C49, before the first bad zero, compFind.**  The same for the complements. -/
theorem C49_comp_first_partial {c : Cfg} {A : List Int} {ops : List (Nat × Int)} {h val : Nat}
    (hn : A.length < 2 ^ 48) (hz : FirstZero c A.length h)
    (hl : Limits c A.length .typeL) (hi : ∀ op ∈ ops, 0 < op.1) (hb : StaysWithin c.bound A ops)
    (hv : (val : Int) < pre (complement c.bound (after A ops)) (above A.length h)) :
    ∃ o r d, run c .typeL A ops = ok o ∧ o.compFind c val = ok (r, d) ∧
      Spec.Tree.IsFind (complement c.bound (after A ops)) val r ∧
      (d : Int) = val - pre (complement c.bound (after A ops)) r := by
  obtain ⟨o, e, ho⟩ := run_holds hn hl hi (fun _ => hb)
  have el := after_length ops A
  have hf := hl.fits hn
  have hr : c.bs + Nat.log2 A.length ≤ 64 := by
    rw [c.bs_eq]; exact Nat.le_trans hl (by decide)
  rw [← el] at hf ho hz hv hr
  have hW := staysWithin_last ops hb
  have hnn : ∀ a ∈ complement c.bound (after A ops), 0 ≤ a :=
    fun a ha => (within_complement hW a ha).1
  obtain ⟨r, d, e1, e2, e3⟩ := compFind_reach (val := val) hf ho (Nat.pos_of_ne_zero hz.1.pos)
    (fun _ => reach_first hz.firstBad (fun a b hab _ => by have := pre_le hnn hab; omega)
      (by unfold above at hv; omega)) hW hr
  exact ⟨o, r, d, e, e1, e2, e3⟩

/-- The same 25 elements, zeros: the complements are ones. -/
example : ∃ o, run (hcfg 1) .typeL (List.replicate 25 0) [(1, 1)] = ok o ∧
    o.compFind (hcfg 1) 22 = ok (23, 0) := by
  obtain ⟨o, r, d, e, e1, e2, e3⟩ := C49_comp_first_partial (c := hcfg 1) (A := List.replicate 25 0)
    (ops := [(1, 1)]) (h := 2) (val := 22) (by decide)
    (first_of (by decide +kernel) (by decide +kernel)) (by unfold Limits; decide +kernel) (by decide)
    (by decide +kernel) (by decide +kernel)
  have hr : r = 23 := isFind_unique e2 ⟨by decide +kernel, by decide +kernel, by decide +kernel⟩
  subst hr
  have hd : d = 0 := by
    have : pre (complement (hcfg 1).bound (after (List.replicate 25 0) [(1, 1)])) 23 = 22 := by
      decide +kernel
    omega
  subst hd
  exact ⟨o, e, e1⟩

theorem reach_none {c : Cfg} {n : Nat} (hno : ∀ h, ¬ BadZero c n h) (Q : Nat → Nat) (val : Nat) :
    Reach c n Q val := by
  intro g k h2 hk _
  by_cases hm : 2 ^ g * (2 * k + 1) ≤ n
  · exact Or.inl hm
  · refine Or.inr ?_
    obtain ⟨m1, -⟩ := missing hk hm
    have hn0 : n ≠ 0 := by have := Nat.two_pow_pos g; omega
    have hle : g ≤ Nat.log2 n := (Nat.le_log2 hn0).2 h2
    have hlt : g < Nat.log2 n := Nat.lt_of_le_of_ne hle fun hg => by
      have h4 : n < 2 ^ (g + 1) := (Nat.log2_lt hn0).1 (by omega)
      have h5 : n / 2 ^ g = 1 := by
        apply Nat.div_eq_of_lt_le
        · rw [Nat.one_mul]; exact h2
        · rw [Nat.pow_succ] at h4; omega
      omega
    apply Classical.byContradiction
    intro hb
    rw [c.bs_eq] at hb
    exact hno g ⟨hlt, m1, fun e => hb (Or.inl e), fun e => hb (Or.inr e)⟩

theorem exists_first {c : Cfg} {n : Nat} : ∀ (f h : Nat), Nat.log2 n ≤ h + f → BadZero c n h →
    ∃ h', FirstZero c n h'
  | 0, h, hf, hb => absurd hb.1 (by omega)
  | f + 1, h, hf, hb => by
    by_cases hg : ∃ g, h < g ∧ BadZero c n g
    · obtain ⟨g, h1, h2⟩ := hg
      exact exists_first f g (by omega) h2
    · exact ⟨h, hb, fun g h1 h2 => hg ⟨g, h1, h2⟩⟩

/-- **C49, exactly.**  For a size, `find` of `TypeL` is right for all arrays, histories and values if
and only if no zero of the size does harm: all zeros of the size in binary, below the leading one, are
where the element type of the nodes changes. -/
theorem C49_find_iff {c : Cfg} {n : Nat} (h0 : 0 < n) (hn : n < 2 ^ 48) (hB : 1 ≤ c.bound)
    (hl : Limits c n .typeL) :
    (∀ (A : List Int) (ops : List (Nat × Int)) (val : Nat), A.length = n → (∀ op ∈ ops, 0 < op.1) →
      StaysWithin c.bound A ops → ∃ o r d, run c .typeL A ops = ok o ∧ o.find c val = ok (r, d) ∧
        Spec.Tree.IsFind (after A ops) val r ∧ (d : Int) = val - pre (after A ops) r) ↔
    ∀ h, h < Nat.log2 n → n / 2 ^ h % 2 = 0 → bits c.bound + h = 8 ∨ bits c.bound + h = 16 := by
  constructor
  · intro hall h h1 h2
    apply Classical.byContradiction
    intro hno
    obtain ⟨h', hf⟩ := exists_first (c := c) (n := n) (Nat.log2 n) h (by omega)
      ⟨h1, h2, fun e => hno (Or.inl e), fun e => hno (Or.inr e)⟩
    obtain ⟨m, rfl⟩ : ∃ m, n = m + 1 := ⟨n - 1, by omega⟩
    obtain ⟨o, e, e1, -, e3⟩ := C49_wrong_rest hn hf hB hl
    obtain ⟨o', r, d, f1, f2, -, f3⟩ := hall (1 :: List.replicate m 0) [] 2 (by simp) (by simp) (by
      intro a ha
      simp only [List.mem_cons, List.mem_replicate] at ha
      omega)
    rw [e] at f1
    cases f1
    rw [e1] at f2
    cases f2
    have f3 : ((0 : Nat) : Int) = (2 : Nat) - pre (1 :: List.replicate m 0) (m + 1) := f3
    omega
  · intro hz A ops val hA hi hb
    subst hA
    obtain ⟨o, e, ho⟩ := run_holds hn hl hi (fun _ => hb)
    have el := after_length ops A
    have hf := hl.fits hn
    have hreach := reach_none (c := c) (n := A.length)
      (fun h hbad => by have := hz h hbad.1 hbad.2.1; have := hbad.2.2; omega)
      (fun i => (pre (after A ops) i).toNat) val
    rw [← el] at hf ho h0 hreach
    have hW := staysWithin_last ops hb
    obtain ⟨r, d, e1, e2, e3⟩ := find_reach (val := val) hf ho h0 (fun _ => hreach)
      (fun a ha => (hW a ha).1) (fun i h1 h2 => node_lt_bound hf rfl hW h1 h2)
    exact ⟨o, r, d, e, e1, e2, e3⟩

/-- **C49, exactly, compFind.** -/
theorem C49_comp_iff {c : Cfg} {n : Nat} (h0 : 0 < n) (hn : n < 2 ^ 48) (hB : 1 ≤ c.bound)
    (hl : Limits c n .typeL) :
    (∀ (A : List Int) (ops : List (Nat × Int)) (val : Nat), A.length = n → (∀ op ∈ ops, 0 < op.1) →
      StaysWithin c.bound A ops → ∃ o r d, run c .typeL A ops = ok o ∧ o.compFind c val = ok (r, d) ∧
        Spec.Tree.IsFind (complement c.bound (after A ops)) val r ∧
        (d : Int) = val - pre (complement c.bound (after A ops)) r) ↔
    ∀ h, h < Nat.log2 n → n / 2 ^ h % 2 = 0 → bits c.bound + h = 8 ∨ bits c.bound + h = 16 := by
  constructor
  · intro hall h h1 h2
    apply Classical.byContradiction
    intro hno
    obtain ⟨h', hf⟩ := exists_first (c := c) (n := n) (Nat.log2 n) h (by omega)
      ⟨h1, h2, fun e => hno (Or.inl e), fun e => hno (Or.inr e)⟩
    obtain ⟨o, e, e1, -, e3⟩ := C49_wrong_comp_rest hn hf hB hl
    obtain ⟨o', r, d, f1, f2, -, f3⟩ := hall (List.replicate n 0) []
      (c.bound * (above n h' + 2 ^ h')) (by simp) (by simp) (by
        intro a ha
        simp only [List.mem_replicate] at ha
        omega)
    rw [e] at f1
    cases f1
    rw [e1] at f2
    cases f2
    have f3 : ((0 : Nat) : Int) = (c.bound * (above n h' + 2 ^ h') : Nat) -
      pre (complement c.bound (List.replicate n 0)) n := f3
    omega
  · intro hz A ops val hA hi hb
    subst hA
    obtain ⟨o, e, ho⟩ := run_holds hn hl hi (fun _ => hb)
    have el := after_length ops A
    have hf := hl.fits hn
    have hr : c.bs + Nat.log2 A.length ≤ 64 := by
      rw [c.bs_eq]; exact Nat.le_trans hl (by decide)
    have hreach := reach_none (c := c) (n := A.length)
      (fun h hbad => by have := hz h hbad.1 hbad.2.1; have := hbad.2.2; omega)
      (fun i => (pre (complement c.bound (after A ops)) i).toNat) val
    rw [← el] at hf ho h0 hreach hr
    obtain ⟨r, d, e1, e2, e3⟩ := compFind_reach (val := val) hf ho h0 (fun _ => hreach)
      (staysWithin_last ops hb) hr
    exact ⟨o, r, d, e, e1, e2, e3⟩

/-- Five counters up to 64, seven bits: the only zero of `101` is at bit 1, and `7 + 1 = 8`. -/
example : ∀ (A : List Int) (ops : List (Nat × Int)) (val : Nat), A.length = 5 →
    (∀ op ∈ ops, 0 < op.1) → StaysWithin (hcfg 64).bound A ops → ∃ o r d,
      run (hcfg 64) .typeL A ops = ok o ∧ o.find (hcfg 64) val = ok (r, d) ∧
      Spec.Tree.IsFind (after A ops) val r ∧ (d : Int) = val - pre (after A ops) r :=
  (C49_find_iff (c := hcfg 64) (by decide) (by decide) (by decide)
    (by unfold Limits; decide +kernel)).2 (by decide +kernel)

/-- The same counters, complemented. -/
example : ∃ o r d, run (hcfg 64) .typeL [1, 2, 3, 4, 64] [(5, -1)] = ok o ∧
    o.compFind (hcfg 64) 300 = ok (r, d) ∧
    Spec.Tree.IsFind (complement 64 [1, 2, 3, 4, 63]) 300 r ∧
    (d : Int) = (300 : Nat) - pre (complement 64 [1, 2, 3, 4, 63]) r :=
  (C49_comp_iff (c := hcfg 64) (n := 5) (by decide) (by decide) (by decide)
    (by unfold Limits; decide +kernel)).2 (by decide +kernel) [1, 2, 3, 4, 64] [(5, -1)] 300 rfl
    (by decide) (by decide)

end MRS.Props
