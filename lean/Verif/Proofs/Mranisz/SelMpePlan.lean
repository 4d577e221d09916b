import Verif.Proofs.Mranisz.SelMpeWalk

/-! # Compressed select with pairs left out: which blocks to compress -/

set_option autoImplicit false

namespace MRS.Mran
open Outcome Spec Poppy

variable {ty : MpeType} {t : Vec Byte} {L TH : Nat}

/-- Bytes of the tables of block `m`. -/
def tabs (ty : MpeType) (t : Vec Byte) (L TH m : Nat) : Nat := hdS (ks ty t L TH m) (tbs t L m)

/-- Pairs left out of block `m`. -/
def drops (ty : MpeType) (t : Vec Byte) (L TH m : Nat) : Nat :=
  nby t L m / 2 - kp (ks ty t L TH m) (bb t L m) (nby t L m / 2)

theorem tabs_zero {m : Nat} (h : ks ty t L TH m = 0) : tabs ty t L TH m = 0 := by unfold tabs; rw [h]; rfl
theorem drops_zero {m : Nat} (h : ks ty t L TH m = 0) : drops ty t L TH m = 0 := by
  unfold drops; rw [h, kp_zero, Nat.sub_self]

theorem wdS_eq (m : Nat) : wdS ty t L TH m + 2 * drops ty t L TH m = wd t L TH m + tabs ty t L TH m := by
  by_cases h : ks ty t L TH m = 0
  · rw [tabs_zero h, drops_zero h]; unfold wdS; rw [if_pos h]
  · rw [wdS_comp h]
    have hd := (ks_dense h).2
    have hw : wd t L TH m = nby t L m := by
      unfold wd
      rw [if_neg (by rw [hd.1]; simp), if_neg (by rw [hd.2]; simp)]
      rfl
    have := kp_le (ks ty t L TH m) (bb t L m) (nby t L m / 2)
    rw [hw]
    unfold tabs drops
    omega

theorem offS_eq (m : Nat) : offS ty t L TH m + 2 * psum (drops ty t L TH) m = off t L TH m + psum (tabs ty t L TH) m := by
  induction m with
  | zero => rfl
  | succ m ih =>
    have := wdS_eq (ty := ty) (t := t) (L := L) (TH := TH) m
    rw [offS_succ, off_succ, psum_succ, psum_succ]
    omega

theorem countPairsS_ok {m : Nat} {c : Con} (h : ConDone t L m c) : countPairsS c =
    ok (zc (bb t L m) (nby t L m / 2), fc (bb t L m) (nby t L m / 2),
      zc (bb t L m) (nby t L m / 2) + fc (bb t L m) (nby t L m / 2)) := by
  have hb := h.bytes
  have hl := h.len
  unfold countPairsS
  obtain ⟨n, e, h1, h2, h3⟩ := forN_inv (body := fun p (n : Nat × Nat × Nat) => do
    let a ← uget c.cont (2 * p)
    let b ← uget c.cont (2 * p + 1)
    let z := a = 0#8 ∧ b = 0#8
    let f := a = 255#8 ∧ b = 255#8
    ok (n.1 + (if z then 1 else 0), n.2.1 + (if f then 1 else 0), n.2.2 + (if z ∨ f then 1 else 0)))
    (fun p n => n.1 = zc (bb t L m) p ∧ n.2.1 = fc (bb t L m) p ∧ n.2.2 = zc (bb t L m) p + fc (bb t L m) p)
    (c.bytes / 2) (0, 0, 0) ⟨rfl, rfl, rfl⟩
    (by
      intro p n hp ⟨h1, h2, h3⟩
      rw [uget_ok (by omega) (h.val (2 * p) (by omega)), ok_bind, uget_ok (by omega) (h.val (2 * p + 1) (by omega)), ok_bind]
      refine ⟨_, rfl, ?_⟩
      have hz : zc (bb t L m) (p + 1) = zc (bb t L m) p + if zp (bb t L m) p then 1 else 0 := rfl
      have hf : fc (bb t L m) (p + 1) = fc (bb t L m) p + if fp (bb t L m) p then 1 else 0 := rfl
      have hn := not_zf (bb t L m) p
      simp only [zp_iff, fp_iff]
      rw [hz, hf, h1, h2, h3]
      refine ⟨rfl, rfl, ?_⟩
      cases h4 : zp (bb t L m) p <;> cases h5 : fp (bb t L m) p
      · simp
      · simp; omega
      · simp; omega
      · exact absurd ⟨h4, h5⟩ hn)
  obtain ⟨a, b, d⟩ := n
  simp only [] at h1 h2 h3
  rw [e, h3, h1, h2, hb]

/-- The second loop before block `m`. -/
structure PlanInvS (ty : MpeType) (t : Vec Byte) (L TH : Nat) (g : Option (Nat → Byte)) (m : Nat) (s : PlanS) : Prop where
  len : s.flags.len = nbk t L
  bk : s.bk = m
  val : ∀ k, k < m → s.flags.f k = some (BitVec.ofNat 8 (ks ty t L TH k))
  rest : ∀ k, m ≤ k → s.flags.f k = (memory g (nbk t L)).f k
  added : s.added = psum (tabs ty t L TH) m
  pairs : s.pairs = psum (drops ty t L TH) m

theorem planNext_ok {g : Option (Nat → Byte)} {m : Nat} {w : Walk} {s : PlanS} (hL : 1 ≤ L) (hlen : t.len < 2 ^ 60)
    (hm : m + 1 < nbk t L) (h : PlanInvS ty t L TH g m s) (hw : WalkEnd t L TH m w) :
    ∃ s', planNext ty w s = ok s' ∧ PlanInvS ty t L TH g (m + 1) s' := by
  have hbk := h.bk
  have hfl := h.len
  unfold planNext
  rw [Vec.set_ok _ (by omega), ok_bind, dense_flags hw.fsp hw.fmo]
  have fin : ∀ (fl : Vec (Option Byte)) (a d : Nat), fl.len = nbk t L →
      (∀ j, fl.f j = if j = m then some (BitVec.ofNat 8 (ks ty t L TH m)) else s.flags.f j) →
      a = tabs ty t L TH m → d = drops ty t L TH m →
      PlanInvS ty t L TH g (m + 1) ⟨fl, s.bk + 1, s.added + a, s.pairs + d⟩ := by
    intro fl a d h1 h2 h3 h4
    refine ⟨h1, by show s.bk + 1 = _; omega, ?_, ?_, ?_, ?_⟩
    · intro k hk
      show fl.f k = _
      rw [h2]
      by_cases hkm : k = m
      · rw [if_pos hkm, hkm]
      · rw [if_neg hkm]; exact h.val k (by omega)
    · intro k hk
      show fl.f k = _
      rw [h2, if_neg (by omega)]
      exact h.rest k (by omega)
    · rw [psum_succ, ← h.added, h3]
    · rw [psum_succ, ← h.pairs, h4]
  by_cases hd : Dense t L TH m
  · rw [if_pos (decide_eq_true hd)]
    rw [countPairsS_ok (hw.con hd), ok_bind]
    simp only []
    have hbp := bl_pos hL (show m < nbk t L by omega)
    have hen := en_le (t := t) (L := L) hL (show m + 1 ≤ nbk t L by omega)
    have hes := en_succ hL (show m < nbk t L by omega)
    have htl : tableLen w.len = tbs t L m := by
      unfold tableLen tbs
      rw [hw.len, sub64_eq (by omega) (by simp only [W64]; omega)]
    rw [htl]
    have hks : ks ty t L TH m = kindS ty (zc (bb t L m) (nby t L m / 2)) (fc (bb t L m) (nby t L m / 2))
      (zc (bb t L m) (nby t L m / 2) + fc (bb t L m) (nby t L m / 2)) (tbs t L m) := by
      unfold ks; rw [if_pos ⟨hm, hd⟩]
    rw [← hks]
    obtain ⟨k3, k1, k2⟩ := kp_counts (bb t L m) (nby t L m / 2)
    have hlt := ks_lt (ty := ty) (t := t) (L := L) (TH := TH) m
    have htd : tabs ty t L TH m = hdS (ks ty t L TH m) (tbs t L m) := rfl
    have hdd : drops ty t L TH m = nby t L m / 2 - kp (ks ty t L TH m) (bb t L m) (nby t L m / 2) := rfl
    generalize ks ty t L TH m = k at *
    have hk : k = 3 ∨ k = 1 ∨ k = 2 ∨ k = 0 := by omega
    rcases hk with rfl | rfl | rfl | rfl
    · simp only []
      rw [Vec.set_ok _ (by show s.bk < s.flags.len; omega), ok_bind]
      refine ⟨_, rfl, fin _ _ _ hfl ?_ (by rw [htd]; rfl) ?_⟩
      · intro j
        show (if j = s.bk then _ else if j = s.bk then _ else _) = _
        rw [hbk]; split <;> rfl
      · rw [hdd]; split <;> omega
    · simp only []
      rw [Vec.set_ok _ (by show s.bk < s.flags.len; omega), ok_bind]
      refine ⟨_, rfl, fin _ _ _ hfl ?_ (by rw [htd]; rfl) ?_⟩
      · intro j
        show (if j = s.bk then _ else if j = s.bk then _ else _) = _
        rw [hbk]; split <;> rfl
      · rw [hdd]; omega
    · simp only []
      rw [Vec.set_ok _ (by show s.bk < s.flags.len; omega), ok_bind]
      refine ⟨_, rfl, fin _ _ _ hfl ?_ (by rw [htd]; rfl) ?_⟩
      · intro j
        show (if j = s.bk then _ else if j = s.bk then _ else _) = _
        rw [hbk]; split <;> rfl
      · rw [hdd]; omega
    · refine ⟨_, rfl, fin _ 0 0 hfl ?_ (by rw [htd]; rfl) (by rw [hdd, kp_zero, Nat.sub_self])⟩
      intro j
      show (if j = s.bk then _ else _) = _
      rw [hbk]
  · rw [if_neg (by simp [hd])]
    have hk := ks_not (ty := ty) hd
    refine ⟨_, rfl, fin _ 0 0 hfl ?_ (tabs_zero hk).symm (drops_zero hk).symm⟩
    intro j
    show (if j = s.bk then _ else _) = _
    rw [hbk, hk]

/-- What the second loop leaves. -/
structure PlanOKS (ty : MpeType) (t : Vec Byte) (L TH : Nat) (g : Option (Nat → Byte)) (s : PlanS) : Prop where
  len : s.flags.len = nbk t L
  val : ∀ k, k + 1 < nbk t L → s.flags.f k = some (BitVec.ofNat 8 (ks ty t L TH k))
  last : tot t % L > 0 → s.flags.f (nbk t L - 1) = some 0#8
  rest : tot t % L = 0 → s.flags.f (nbk t L - 1) = (memory g (nbk t L)).f (nbk t L - 1)
  added : s.added = psum (tabs ty t L TH) (nbk t L)
  pairs : s.pairs = psum (drops ty t L TH) (nbk t L)

theorem planS_ok (ty : MpeType) (g : Option (Nat → Byte)) {v : Vec (Option Nat)} (hL : 1 ≤ L) (hlen : t.len < 2 ^ 60)
    (hn : 0 < nbk t L) (hv : Evens t L v) :
    ∃ s, planS ty L TH g t (tot t) (2 * nbk t L) (nbk t L) v = ok s ∧ PlanOKS ty t L TH g s := by
  unfold planS
  obtain ⟨w, e, hw⟩ := walkStart_ok (TH := TH) hL hlen hn hv
  rw [e, ok_bind]
  have := walkS_ok (A := planActs ty L (tot t) v) (I := fun m _ s => PlanInvS ty t L TH g m s)
    (F := PlanOKS ty t L TH g) (Fail := fun _ => False) (TH := TH) hL hlen
    (fun _ _ _ _ => hv) (fun _ _ _ _ _ _ h _ => h) (fun _ _ s _ _ _ h _ _ => Or.inl ⟨s, rfl, h⟩)
    (fun m p w s _ _ hm h hw => Or.inl (planNext_ok hL hlen hm h hw))
    (fun m p w s hp hm h hw => Or.inl (by
      have hbk := h.bk
      have hfl := h.len
      have k0 : ks ty t L TH m = 0 := ks_last (by omega)
      have ha : psum (tabs ty t L TH) (nbk t L) = psum (tabs ty t L TH) m := by
        rw [← hm, psum_succ, tabs_zero k0]; rfl
      have hp' : psum (drops ty t L TH) (nbk t L) = psum (drops ty t L TH) m := by
        rw [← hm, psum_succ, drops_zero k0]; rfl
      show ∃ s', planLast L (tot t) true p w s = ok s' ∧ _
      unfold planLast
      by_cases hr : tot t % L > 0
      · rw [if_pos hr]
        have hnK : ¬ m < tot t / L := by
          have : nbk t L = tot t / L + 1 := by unfold nbk; rw [if_pos hr]
          omega
        have fin : PlanOKS ty t L TH g ⟨⟨s.flags.len, fun j => if j = s.bk then some 0#8 else s.flags.f j⟩, s.bk + 1, s.added, s.pairs⟩ := by
          refine ⟨hfl, ?_, ?_, ?_, by rw [ha]; exact h.added, by rw [hp']; exact h.pairs⟩
          · intro k hk
            show (if k = s.bk then _ else _) = _
            rw [if_neg (by omega)]; exact h.val k (by omega)
          · intro _
            show (if nbk t L - 1 = s.bk then _ else _) = _
            rw [if_pos (by omega)]
          · intro h0; omega
        rw [Vec.set_ok _ (by omega), ok_bind, dense_flags hw.fsp hw.fmo]
        by_cases hd : Dense t L TH m
        · rw [if_pos (decide_eq_true hd), if_pos rfl]
          obtain ⟨c', e, -⟩ := Con.last_ok hL hw.lt hw.lo (hw.con hd) hp hnK hw.clen hd
          rw [e, ok_bind]
          exact ⟨_, rfl, fin⟩
        · rw [if_neg (by simp [hd])]
          exact ⟨_, rfl, fin⟩
      · rw [if_neg hr]
        refine ⟨s, rfl, hfl, fun k hk => h.val k (by omega), fun h0 => absurd h0 hr, fun _ => h.rest _ (by omega),
          by rw [ha]; exact h.added, by rw [hp']; exact h.pairs⟩))
    (8 * t.len) 0 0 w ⟨memory g (nbk t L), 0, 0, 0⟩ (by omega) hw
    ⟨rfl, rfl, by intro k hk; omega, fun _ _ => rfl, rfl, rfl⟩
  rcases this with ⟨w', s', e, -, h⟩ | ⟨f, -, h⟩
  · rw [e, ok_bind]
    exact ⟨_, rfl, h⟩
  · exact absurd h id

end MRS.Mran
