import Verif.Proofs.TreeInv

/-! # Level sizes and the header -/

set_option autoImplicit false

namespace MRS
open Outcome Spec

theorem ceilDiv_ceilDiv (n a d : Nat) (ha : 0 < a) (hd : 0 < d) :
    ceilDiv (ceilDiv n a) d = ceilDiv n (a * d) := by
  apply Nat.le_antisymm
  · apply Nat.le_of_not_lt
    intro h
    rw [ceilDiv_lt_iff hd, ceilDiv_lt_iff ha] at h
    have := mt (ceilDiv_lt_iff (n := n) (i := ceilDiv n (a * d)) (Nat.mul_pos ha hd)).2 (Nat.lt_irrefl _)
    rw [Nat.mul_assoc, Nat.mul_comm d a] at h
    exact this h
  · apply Nat.le_of_not_lt
    intro h
    rw [ceilDiv_lt_iff (Nat.mul_pos ha hd), Nat.mul_comm a d, ← Nat.mul_assoc,
      ← ceilDiv_lt_iff ha, ← ceilDiv_lt_iff hd] at h
    exact Nat.lt_irrefl _ h

theorem levelPush_ok {c : NodeCfg} {m h tot : Nat} {cv : Vec Nat} (hlen : h < cv.len)
    (hm : ceilDiv m c.fanout < 2 ^ 32) (ht : tot + ceilDiv m c.fanout * c.bytes < W64) :
    ∃ cv', levelPush c ⟨m, h + 1, cv, tot⟩
        = ok ⟨ceilDiv m c.fanout, h, cv', tot + ceilDiv m c.fanout * c.bytes⟩ ∧
      cv'.len = cv.len ∧ cv'.f h = ceilDiv m c.fanout ∧ ∀ j, j ≠ h → cv'.f j = cv.f j := by
  unfold levelPush
  simp only [Nat.add_sub_cancel, if_neg (Nat.succ_ne_zero h)]
  rw [Vec.set_ok _ hlen]
  simp only [ok_bind]
  rw [mul64_eq (by omega), add64_eq ht]
  refine ⟨_, rfl, rfl, ?_, ?_⟩
  · show (if h = h then ceilDiv m c.fanout % 2 ^ 32 else _) = _
    rw [if_pos rfl, Nat.mod_eq_of_lt hm]
  · intro j hj
    show (if j = h then _ else cv.f j) = _
    rw [if_neg hj]

/-- Writing the level sizes into the first `4 * H` bytes. -/
theorem header_ok {b : Build} {H : Nat} {cv : Vec Nat} {m : Mem} (hlen : cv.len = H)
    (hc : ∀ l, l < H → cv.f l < 2 ^ 32) (hs : 4 * H ≤ m.size)
    (ha : b.strictAlign = true → m.addr % 4 = 0) :
    ∃ m', forN H (fun i m => do
        let x ← cv.get i
        store b m (i * 4) 4 x) m = ok m' ∧
      SameOff m m' 0 (4 * H) ∧ ∀ l, l < H → rd m' (l * 4) 4 = cv.f l := by
  obtain ⟨m', e, h1, h2⟩ := forN_inv
    (body := fun i m => do
        let x ← cv.get i
        store b m (i * 4) 4 x)
    (fun i m' => SameOff m m' 0 (4 * i) ∧ ∀ l, l < i → rd m' (l * 4) 4 = cv.f l)
    H m ⟨SameOff.refl _ _ _, fun l hl => by omega⟩
    (by
      rintro i m1 hi ⟨a1, a2⟩
      rw [Vec.get_ok (by omega)]
      simp only [ok_bind]
      rw [store_ok (by rw [a1.size]; omega) (by rw [a1.addr]; intro hs; have := ha hs; omega)]
      refine ⟨_, rfl, ?_, ?_⟩
      · exact (a1.mono (Nat.le_refl _) (by omega)).trans
          ((wr_sameOff _ _ _ _).mono (Nat.zero_le _) (by omega))
      · intro l hl
        by_cases e : l = i
        · subst e
          rw [rd_wr_same]
          exact Nat.mod_eq_of_lt (hc l hi)
        · rw [rd_wr_disj _ (by omega)]
          exact a2 l (by omega))
  exact ⟨m', e, h1, h2⟩

end MRS
