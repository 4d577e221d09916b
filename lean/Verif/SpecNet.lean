/-!
# Specification: counters over the integers

What becomes of an array of counters when nothing bounds them.  No definition of the model is used.
-/

set_option autoImplicit false

namespace MRS.Spec

/-- Entry `j` of `vals` after the updates `us` (entry, decrement?), as an integer. -/
def net (vals : List Nat) (us : List (Nat × Bool)) (j : Nat) : Int :=
  (vals.getD j 0 : Int) + (us.map fun u => if u.1 = j then (if u.2 then -1 else 1) else 0).sum

/-- Sum of the first `k` entries after the updates. -/
def netSum (vals : List Nat) (us : List (Nat × Bool)) (k : Nat) : Int :=
  ((List.range k).map (net vals us)).sum

end MRS.Spec
