import Verif.Proofs.TreeFam
import Verif.Model.Usage

/-!
# Alignment of the nodes of a tree

`TreeAlign` unfolded into one condition on the address of the buffer.
-/

set_option autoImplicit false

namespace MRS
open Outcome Spec

theorem lvlAlign_of {b : Build} {addr n a : Nat} {leaf : NodeCfg}
    (hl : leaf.sumB ∣ a) (hlb : a ∣ leaf.bytes) :
    ∀ (cs : List NodeCfg) (off : Nat), (∀ c ∈ cs, c.sumB ∣ a ∧ a ∣ c.bytes) →
      (b.strictAlign = true → a ∣ addr + off) → LvlAlign b addr n leaf off cs := by
  intro cs
  induction cs with
  | nil =>
    intro off _ ha idx _ hs
    apply Nat.mod_eq_zero_of_dvd
    rw [← Nat.add_assoc]
    exact Nat.dvd_add (Nat.dvd_trans hl (ha hs))
      (Nat.dvd_trans (Nat.dvd_trans hl hlb) (Nat.dvd_mul_left _ _))
  | cons c cs ih =>
    intro off hc ha
    obtain ⟨h1, h2⟩ := hc c (by simp)
    refine ⟨?_, ?_⟩
    · intro idx _ hs
      apply Nat.mod_eq_zero_of_dvd
      rw [← Nat.add_assoc]
      exact Nat.dvd_add (Nat.dvd_trans h1 (ha hs))
        (Nat.dvd_trans (Nat.dvd_trans h1 h2) (Nat.dvd_mul_left _ _))
    · refine ih _ (fun c' hc' => hc c' (by simp [hc'])) ?_
      intro hs
      rw [← Nat.add_assoc]
      exact Nat.dvd_add (ha hs) (Nat.dvd_trans h2 (Nat.dvd_mul_left _ _))

/-- Alignment the typed accesses require of the first node: that of its largest field. -/
def TreeFam.base (fam : TreeFam) (H : Nat) : Nat :=
  match fam with
  | .avx2 => if H = 4 then 8 else 4
  | .avx512 => if H = 3 then 8 else 4

theorem TreeFam.base_dvd_need (fam : TreeFam) (b : Build) (H : Nat) : fam.base H ∣ fam.need b H := by
  cases fam <;> simp only [TreeFam.need, TreeFam.base] <;> repeat' split
  all_goals decide

theorem TreeFam.maxH_cases {fam : TreeFam} {H : Nat} (h1 : 1 ≤ H) (h2 : H ≤ fam.maxH) :
    (fam = .avx2 ∧ (H = 1 ∨ H = 2 ∨ H = 3 ∨ H = 4)) ∨ (fam = .avx512 ∧ (H = 1 ∨ H = 2 ∨ H = 3)) := by
  cases fam with
  | avx2 => have h2 : H ≤ 4 := h2; exact Or.inl ⟨rfl, by omega⟩
  | avx512 => have h2 : H ≤ 3 := h2; exact Or.inr ⟨rfl, by omega⟩

theorem aligned_of_base {fam : TreeFam} {b : Build} {addr n H : Nat} (h1 : 1 ≤ H) (h2 : H ≤ fam.maxH)
    (ha : b.strictAlign = true → (addr + 4 * H) % fam.base H = 0) : fam.Aligned b addr n H := by
  have hdvd : b.strictAlign = true → fam.base H ∣ addr + 4 * H :=
    fun hs => Nat.dvd_of_mod_eq_zero (ha hs)
  have h4 : 4 ∣ fam.base H := by
    cases fam <;> simp only [TreeFam.base] <;> repeat' split
    all_goals decide
  have hhdr : b.strictAlign = true → addr % 4 = 0 := by
    intro hs
    have := Nat.dvd_trans h4 (hdvd hs)
    omega
  have hlen : 4 * ((fam.cs H).length + 1) = 4 * H := by
    rcases TreeFam.maxH_cases h1 h2 with ⟨rfl, rfl | rfl | rfl | rfl⟩ | ⟨rfl, rfl | rfl | rfl⟩ <;> rfl
  refine ⟨hhdr, ?_⟩
  rw [hlen]
  refine lvlAlign_of (a := fam.base H) ?_ ?_ _ _ ?_ hdvd <;>
    rcases TreeFam.maxH_cases h1 h2 with ⟨rfl, rfl | rfl | rfl | rfl⟩ | ⟨rfl, rfl | rfl | rfl⟩ <;>
    decide

theorem aligned_of_addr {fam : TreeFam} {b : Build} {addr n H : Nat} (h1 : 1 ≤ H) (h2 : H ≤ fam.maxH)
    (ha : b.strictAlign = true → (addr + 4 * H) % fam.need b H = 0) : fam.Aligned b addr n H :=
  aligned_of_base h1 h2 fun hs => Nat.mod_eq_zero_of_dvd
    (Nat.dvd_trans (fam.base_dvd_need b H) (Nat.dvd_of_mod_eq_zero (ha hs)))

theorem upAligned_of_addr {fam : TreeFam} {b : Build} {addr H : Nat}
    (ha : b.strictAlign = true → (addr + 4 * H) % fam.need b H = 0) : fam.UpAligned b addr H := by
  rintro rfl hs h2
  have := ha hs
  simpa only [TreeFam.need, h2, if_true] using this

end MRS
