import Verif.Props.HftTrees

/-!
# C49: searches of TypeL in trees of any size

A search of `TypeL` goes wrong only where it looks past the end of a level.  Write the size in binary
and let `x` be its leading ones, followed by zeros: 26 is `11010`, so `x` is `11000`, 24.  A search
for a value below the prefix of `x` never leaves the levels, whatever the elements are.
-/

set_option autoImplicit false

namespace MRS.Props

open Spec.Tree Hft Outcome

/-- **C49, what holds for every size, find.**  With `2^p` the power of two above the size and
`2^p - 2^q` at most the size, `find` is right for values below the prefix of `2^p - 2^q`.  Every size
has such numbers: `q = p - 1` always will do.  Missing: larger values, for which the claim is false
(`C49_wrong`). -/
theorem C49_find_below_partial {c : Cfg} {A : List Int} {ops : List (Nat × Int)} {p q val : Nat}
    (h0 : 0 < A.length) (hn : A.length < 2 ^ 48) (hp : A.length < 2 ^ p)
    (hx : 2 ^ p - 2 ^ q ≤ A.length)
    (hl : Limits c A.length .typeL) (hi : ∀ op ∈ ops, 0 < op.1) (hb : StaysWithin c.bound A ops)
    (hv : (val : Int) < pre (after A ops) (2 ^ p - 2 ^ q)) :
    ∃ o r d, run c .typeL A ops = ok o ∧ o.find c val = ok (r, d) ∧
      Spec.Tree.IsFind (after A ops) val r ∧ (d : Int) = val - pre (after A ops) r := by
  obtain ⟨o, e, h⟩ := run_holds hn hl hi (fun _ => hb)
  have el := after_length ops A
  have hf := hl.fits hn
  rw [← el] at hf h h0 hp hx
  have hW := staysWithin_last ops hb
  have hnn : ∀ a ∈ after A ops, 0 ≤ a := fun a ha => (hW a ha).1
  obtain ⟨r, d, e1, e2, e3⟩ := find_reach (val := val) hf h h0
    (fun _ => reach_below hp hx (fun a b hab _ => by have := pre_le hnn hab; omega)
      (by omega)) hnn
    (fun i h1 h2 => node_lt_bound hf rfl hW h1 h2)
  exact ⟨o, r, d, e, e1, e2, e3⟩

/-- **C49, what holds for every size, compFind.**  The same for the complements. -/
theorem C49_comp_below_partial {c : Cfg} {A : List Int} {ops : List (Nat × Int)} {p q val : Nat}
    (h0 : 0 < A.length) (hn : A.length < 2 ^ 48) (hp : A.length < 2 ^ p)
    (hx : 2 ^ p - 2 ^ q ≤ A.length)
    (hl : Limits c A.length .typeL) (hi : ∀ op ∈ ops, 0 < op.1) (hb : StaysWithin c.bound A ops)
    (hv : (val : Int) < pre (complement c.bound (after A ops)) (2 ^ p - 2 ^ q)) :
    ∃ o r d, run c .typeL A ops = ok o ∧ o.compFind c val = ok (r, d) ∧
      Spec.Tree.IsFind (complement c.bound (after A ops)) val r ∧
      (d : Int) = val - pre (complement c.bound (after A ops)) r := by
  obtain ⟨o, e, h⟩ := run_holds hn hl hi (fun _ => hb)
  have el := after_length ops A
  have hf := hl.fits hn
  have hr : c.bs + Nat.log2 A.length ≤ 64 := by
    rw [c.bs_eq]; exact Nat.le_trans hl (by decide)
  rw [← el] at hf h h0 hp hx hr
  have hW := staysWithin_last ops hb
  have hnn : ∀ a ∈ complement c.bound (after A ops), 0 ≤ a :=
    fun a ha => (within_complement hW a ha).1
  obtain ⟨r, d, e1, e2, e3⟩ := compFind_reach (val := val) hf h h0
    (fun _ => reach_below hp hx (fun a b hab _ => by have := pre_le hnn hab; omega)
      (by omega)) hW hr
  exact ⟨o, r, d, e, e1, e2, e3⟩

/-- In the tree of the negation `C49_wrong`, after one more one: 0 is below the prefix 1 of 4. -/
example : ∃ o, run (hcfg 1) .typeL [0, 0, 0, 0, 1] [(3, 1)] = ok o ∧
    o.find (hcfg 1) 0 = ok (2, 0) := by
  obtain ⟨o, r, d, e, e1, e2, e3⟩ := C49_find_below_partial (c := hcfg 1) (A := [0, 0, 0, 0, 1])
    (ops := [(3, 1)]) (p := 3) (q := 2) (val := 0) (by decide) (by decide) (by decide)
    (by decide) (by unfold Limits; decide +kernel) (by decide) (by decide) (by decide)
  have hr : r = 2 := isFind_unique e2 ⟨by decide, by decide, by decide⟩
  subst hr
  have hd : d = 0 := by
    have : pre (after [0, 0, 0, 0, 1] [(3, 1)]) 2 = 0 := by decide
    omega
  subst hd
  exact ⟨o, e, e1⟩

/-- Six elements, `110` in binary: values below the prefix of all six. -/
example : ∃ o, run (hcfg 5) .typeL [1, 2, 0, 5, 3, 4] [(4, -1)] = ok o ∧
    o.find (hcfg 5) 12 = ok (5, 2) := by
  obtain ⟨o, r, d, e, e1, e2, e3⟩ := C49_find_below_partial (c := hcfg 5)
    (A := [1, 2, 0, 5, 3, 4]) (ops := [(4, -1)]) (p := 3) (q := 1) (val := 12)
    (by decide) (by decide) (by decide) (by decide) (by unfold Limits; decide +kernel) (by decide)
    (by decide) (by decide)
  have hr : r = 5 := isFind_unique e2 ⟨by decide, by decide, by decide⟩
  subst hr
  have hd : d = 2 := by
    have : pre (after [1, 2, 0, 5, 3, 4] [(4, -1)]) 5 = 10 := by decide
    omega
  subst hd
  exact ⟨o, e, e1⟩

/-- The first zero of `1 1 0 0 0` is the third element. -/
example : ∃ o, run (hcfg 1) .typeL [1, 1, 0, 0, 0] [] = ok o ∧
    o.compFind (hcfg 1) 1 = ok (3, 0) := by
  obtain ⟨o, r, d, e, e1, e2, e3⟩ := C49_comp_below_partial (c := hcfg 1)
    (A := [1, 1, 0, 0, 0]) (ops := []) (p := 3) (q := 2) (val := 1)
    (by decide) (by decide) (by decide) (by decide) (by unfold Limits; decide +kernel) (by decide)
    (by decide) (by decide)
  have hr : r = 3 := isFind_unique e2 ⟨by decide, by decide, by decide⟩
  subst hr
  have hd : d = 0 := by
    have : pre (complement (hcfg 1).bound (after [1, 1, 0, 0, 0] [])) 3 = 1 := by decide
    omega
  subst hd
  exact ⟨o, e, e1⟩

end MRS.Props
