import Verif.Proofs.Mranisz.SelMpePlan

/-! # Compressed select with pairs left out: writing the blocks -/

set_option autoImplicit false

namespace MRS.Mran
open Outcome Spec Poppy

variable {ty : MpeType} {t : Vec Byte} {L TH : Nat}

/-! ## Stores -/

theorem putS_ok {s : EncS} {x : Byte} (h : s.bc < s.out.len) :
    s.put x = ok { s with out := ⟨s.out.len, fun j => if j = s.bc then some x else s.out.f j⟩, bc := s.bc + 1 } := by
  unfold EncS.put
  rw [Vec.set_ok _ h]
  rfl

theorem putS_oob {s : EncS} {x : Byte} (h : ¬ s.bc < s.out.len) : s.put x = ub .oob := by
  unfold EncS.put Vec.set
  rw [if_neg h]
  rfl

/-- Every byte that was written in `a` is written in `b`. -/
def Keeps (a b : Vec (Option Byte)) : Prop := ∀ y, a.f y ≠ none → b.f y ≠ none

theorem Keeps.refl (a : Vec (Option Byte)) : Keeps a a := fun _ h => h
theorem Keeps.trans {a b c : Vec (Option Byte)} (h1 : Keeps a b) (h2 : Keeps b c) : Keeps a c := fun y h => h2 y (h1 y h)

theorem Keeps.set {a : Vec (Option Byte)} {n k : Nat} {x : Byte} :
    Keeps a ⟨n, fun j => if j = k then some x else a.f j⟩ := by
  intro y h
  show (if y = k then _ else _) ≠ none
  split
  · exact Option.some_ne_none _
  · exact h

theorem putPosS_ok {s : EncS} {p : Nat} (h : s.bc + 8 ≤ s.out.len) :
    ∃ o, s.putPos p = ok { s with out := o, bc := s.bc + 8 } ∧ o.len = s.out.len ∧
      (∀ b, b < 8 → o.f (s.bc + b) = some (BitVec.ofNat 8 (p >>> (8 * b)))) ∧
      (∀ y, y < s.bc → o.f y = s.out.f y) ∧ Keeps s.out o := by
  unfold EncS.putPos
  obtain ⟨s', e, o, h1, h2, h3, h4, h5⟩ := forN_inv
    (body := fun k (s : EncS) => s.put (BitVec.ofNat 8 (p >>> (8 * k))))
    (fun k s' => ∃ o, s' = { s with out := o, bc := s.bc + k } ∧ o.len = s.out.len ∧
      (∀ b, b < k → o.f (s.bc + b) = some (BitVec.ofNat 8 (p >>> (8 * b)))) ∧
      (∀ y, y < s.bc → o.f y = s.out.f y) ∧ Keeps s.out o) 8 s
    ⟨s.out, rfl, rfl, by intro b hb; omega, fun _ _ => rfl, Keeps.refl _⟩
    (by
      intro k s' hk ⟨o, h1, h2, h3, h4, h5⟩
      subst h1
      rw [putS_ok (by show s.bc + k < o.len; omega)]
      refine ⟨_, rfl, _, rfl, h2, ?_, ?_, h5.trans Keeps.set⟩
      · intro b hb
        show (if s.bc + b = s.bc + k then _ else _) = _
        by_cases hbk : b = k
        · rw [if_pos (by omega), hbk]
        · rw [if_neg (by omega), h3 b (by omega)]
      · intro y hy
        show (if y = s.bc + k then _ else _) = _
        rw [if_neg (by omega), h4 y hy])
  subst h1
  exact ⟨o, e, h2, h3, h4, h5⟩

theorem putPosS_oob {s : EncS} {p : Nat} (h : ¬ s.bc + 8 ≤ s.out.len) : s.putPos p = ub .oob := by
  have key : ∀ n k (s : EncS), ¬ s.bc + n ≤ s.out.len → 0 < n →
      forFrom k n (fun k (s : EncS) => s.put (BitVec.ofNat 8 (p >>> (8 * k)))) s = ub .oob := by
    intro n
    induction n with
    | zero => intro k s _ h; omega
    | succ n ih =>
      intro k s hs _
      unfold forFrom
      simp only []
      by_cases hb : s.bc < s.out.len
      · rw [putS_ok hb, ok_bind]
        refine ih _ _ ?_ (by omega)
        show ¬ s.bc + 1 + n ≤ s.out.len
        omega
      · rw [putS_oob hb]; rfl
  exact key 8 0 s h (by omega)

theorem copyS_ok {m : Nat} {s : EncS} {c : Con} (hc : ConDone t L m c) (h : s.bc + nby t L m ≤ s.out.len) :
    ∃ o, s.copy c = ok { s with out := o, bc := s.bc + nby t L m } ∧ o.len = s.out.len ∧
      (∀ y, y < nby t L m → o.f (s.bc + y) = some (bb t L m y)) ∧
      (∀ y, y < s.bc → o.f y = s.out.f y) ∧ Keeps s.out o := by
  have hb := hc.bytes
  have hl := hc.len
  unfold EncS.copy
  obtain ⟨s', e, o, h1, h2, h3, h4, h5⟩ := forN_inv
    (body := fun k (s : EncS) => do
      let a ← uget c.cont k
      s.put a)
    (fun k s' => ∃ o, s' = { s with out := o, bc := s.bc + k } ∧ o.len = s.out.len ∧
      (∀ y, y < k → o.f (s.bc + y) = some (bb t L m y)) ∧
      (∀ y, y < s.bc → o.f y = s.out.f y) ∧ Keeps s.out o) c.bytes s
    ⟨s.out, rfl, rfl, by intro b hb; omega, fun _ _ => rfl, Keeps.refl _⟩
    (by
      intro k s' hk ⟨o, h1, h2, h3, h4, h5⟩
      subst h1
      rw [uget_ok (by omega) (hc.val k (by omega)), ok_bind, putS_ok (by show s.bc + k < o.len; omega)]
      refine ⟨_, rfl, _, rfl, h2, ?_, ?_, h5.trans Keeps.set⟩
      · intro b hb
        show (if s.bc + b = s.bc + k then _ else _) = _
        by_cases hbk : b = k
        · rw [if_pos (by omega), hbk]
        · rw [if_neg (by omega), h3 b (by omega)]
      · intro y hy
        show (if y = s.bc + k then _ else _) = _
        rw [if_neg (by omega), h4 y hy])
  subst h1
  rw [hb] at e
  exact ⟨o, by rw [hb]; exact e, h2, fun y hy => h3 y (by omega), h4, h5⟩

/-! ## Tables -/

theorem tableZero_ok {b : Nat} (E : Nat → Bool) (h : b ≤ TH / 8 / 2 / 8 + 1) :
    ∃ v, tableZero TH b = ok v ∧ b ≤ v.len ∧ ∀ j, j < b → v.f j = some (tbl (bef 0 E) j) := by
  unfold tableZero
  obtain ⟨v, e, h1, h2⟩ := forN_inv (body := fun k (v : Vec (Option Byte)) => v.set k (some 0#8))
    (fun k v => v.len = TH / 8 / 2 / 8 + 1 ∧ ∀ j, j < k → v.f j = some 0#8) b (fresh (TH / 8 / 2 / 8 + 1))
    ⟨rfl, by intro j hj; omega⟩
    (by
      intro k v hk ⟨h1, h2⟩
      rw [Vec.set_ok _ (by omega)]
      refine ⟨_, rfl, h1, fun j hj => ?_⟩
      show (if j = k then _ else _) = _
      by_cases hjk : j = k
      · rw [if_pos hjk]
      · rw [if_neg hjk]; exact h2 j (by omega))
  refine ⟨v, e, by omega, fun j hj => ?_⟩
  rw [tbl_none]; exact h2 j hj

theorem tableMark_ok {v : Vec (Option Byte)} {E : Nat → Bool} {b p : Nat} (hl : b ≤ v.len) (hp : p / 8 < b)
    (hv : ∀ j, j < b → v.f j = some (tbl (bef p E) j)) (hE : E p = true) :
    ∃ v', tableMark v p = ok v' ∧ b ≤ v'.len ∧ ∀ j, j < b → v'.f j = some (tbl (bef (p + 1) E) j) := by
  unfold tableMark
  rw [uget_ok (by omega) (hv _ hp), ok_bind, Vec.set_ok _ (by omega)]
  refine ⟨_, rfl, hl, fun j hj => ?_⟩
  show (if j = p / 8 then _ else _) = _
  by_cases hjp : j = p / 8
  · rw [if_pos hjp, hjp, tbl_mark hE]
  · rw [if_neg hjp, hv j hj, tbl_same (Or.inl hjp)]

theorem table_same {v : Vec (Option Byte)} {E : Nat → Bool} {b p : Nat}
    (hv : ∀ j, j < b → v.f j = some (tbl (bef p E) j)) (hE : E p = false) :
    ∀ j, j < b → v.f j = some (tbl (bef (p + 1) E) j) := by
  intro j hj
  rw [hv j hj, tbl_same (Or.inr hE)]

theorem tableStore_ok {out v : Vec (Option Byte)} {o b : Nat} {c : Nat → Byte} (hv : b ≤ v.len)
    (hc : ∀ j, j < b → v.f j = some (c j)) (h : o + b ≤ out.len) :
    ∃ out', tableStore out o b v = ok out' ∧ out'.len = out.len ∧ (∀ j, j < b → out'.f (o + j) = some (c j)) ∧
      (∀ x, x < o ∨ o + b ≤ x → out'.f x = out.f x) ∧ Keeps out out' := by
  unfold tableStore
  obtain ⟨out', e, h1, h2, h3, h4⟩ := forN_inv (body := fun k (out : Vec (Option Byte)) => do
      let x ← uget v k
      out.set (o + k) (some x))
    (fun k out' => out'.len = out.len ∧ (∀ j, j < k → out'.f (o + j) = some (c j)) ∧
      (∀ x, x < o ∨ o + b ≤ x → out'.f x = out.f x) ∧ Keeps out out') b out
    ⟨rfl, by intro j hj; omega, fun _ _ => rfl, Keeps.refl _⟩
    (by
      intro k out' hk ⟨h1, h2, h3, h4⟩
      rw [uget_ok (by omega) (hc k hk), ok_bind, Vec.set_ok _ (by omega)]
      refine ⟨_, rfl, h1, fun j hj => ?_, fun x hx => ?_, h4.trans Keeps.set⟩
      · show (if o + j = o + k then _ else _) = _
        by_cases hjk : j = k
        · rw [if_pos (by omega), hjk]
        · rw [if_neg (by omega)]; exact h2 j (by omega)
      · show (if x = o + k then _ else _) = _
        rw [if_neg (by omega)]; exact h3 x hx)
  exact ⟨out', e, h1, h2, h3, h4⟩

/-! ## A block with pairs left out -/

/-- Inside a block, after `p` pairs; the kept bytes start at `d`. -/
structure PairInvS (k : Nat) (c : Nat → Byte) (b d : Nat) (s0 : EncS) (p : Nat)
    (s : EncS × Vec (Option Byte) × Vec (Option Byte)) : Prop where
  sel : s.1.sel = s0.sel
  bk : s.1.bk = s0.bk
  kind : s.1.kind = s0.kind
  len : s.1.out.len = s0.out.len
  bc : s.1.bc = d + 2 * kp k c p
  kept : Kept k c d p s.1.out
  low : ∀ x, x < d → s.1.out.f x = s0.out.f x
  keeps : Keeps s0.out s.1.out
  l1 : b ≤ s.2.1.len
  w1 : ∀ j, j < b → s.2.1.f j = some (tbl (bef p (dp k c)) j)
  l2 : k = 3 → b ≤ s.2.2.len
  w2 : k = 3 → ∀ j, j < b → s.2.2.f j = some (tbl (bef p (fp c)) j)

theorem encPairS_ok {k m : Nat} (hk : k ≠ 0) {con : Con} (hc : ConDone t L m con) {b d : Nat} {s0 : EncS}
    (ho : d + 2 * kp k (bb t L m) (nby t L m / 2) ≤ s0.out.len) {p : Nat} (hp : p < nby t L m / 2) (hpb : p / 8 < b)
    {s : EncS × Vec (Option Byte) × Vec (Option Byte)} (hi : PairInvS k (bb t L m) b d s0 p s) :
    ∃ s', encPairS k con p s = ok s' ∧ PairInvS k (bb t L m) b d s0 (p + 1) s' := by
  have hcl := hc.len
  unfold encPairS
  rw [uget_ok (by omega) (hc.val (2 * p) (by omega)), ok_bind,
    uget_ok (by omega) (hc.val (2 * p + 1) (by omega)), ok_bind]
  generalize hcc : bb t L m = c at *
  have hdp : dropped k (c (2 * p)) (c (2 * p + 1)) = dp k c p := by
    unfold dp
    rw [show (k != 0) = true by simp [hk], Bool.true_and]
  have h2 : ∃ v2, (if k = 3 ∧ c (2 * p) = 255#8 ∧ c (2 * p + 1) = 255#8 then tableMark s.2.2 p else ok s.2.2) = ok v2 ∧
      (k = 3 → b ≤ v2.len) ∧ (k = 3 → ∀ j, j < b → v2.f j = some (tbl (bef (p + 1) (fp c)) j)) := by
    by_cases h3 : k = 3
    · cases hf : fp c p
      · rw [if_neg (fun hh => by rw [(fp_iff c p).1 hh.2] at hf; cases hf)]
        exact ⟨_, rfl, hi.l2, fun h3 => table_same (hi.w2 h3) hf⟩
      · rw [if_pos ⟨h3, (fp_iff c p).2 hf⟩]
        obtain ⟨v2, e, h4, h5⟩ := tableMark_ok (hi.l2 h3) hpb (hi.w2 h3) hf
        exact ⟨v2, e, fun _ => h4, fun _ => h5⟩
    · rw [if_neg (fun hh => h3 hh.1)]
      exact ⟨_, rfl, fun h => absurd h h3, fun h => absurd h h3⟩
  obtain ⟨v2, e2, h4, h5⟩ := h2
  rw [e2, ok_bind, hdp]
  have hm := kp_mono k c (show p + 1 ≤ nby t L m / 2 by omega)
  have hks := kp_succ k c p
  have hlen := hi.len
  have hbc := hi.bc
  cases hd : dp k c p
  · rw [if_neg (by simp)]
    rw [hd, if_neg (by simp)] at hks
    rw [putS_ok (by omega), ok_bind, putS_ok (by show s.1.bc + 1 < s.1.out.len; omega), ok_bind]
    refine ⟨_, rfl, hi.sel, hi.bk, hi.kind, hlen, ?_, ⟨?_⟩, ?_, (hi.keeps.trans Keeps.set).trans Keeps.set, hi.l1,
      table_same hi.w1 hd, h4, h5⟩
    · show s.1.bc + 1 + 1 = _; omega
    · intro p' hp' hd' b hb
      show (if _ = s.1.bc + 1 then _ else if _ = s.1.bc then _ else _) = _
      by_cases hpp : p' = p
      · subst hpp
        have : b = 0 ∨ b = 1 := by omega
        rcases this with rfl | rfl
        · rw [if_neg (by omega), if_pos (by omega)]; rfl
        · rw [if_pos (by omega)]
      · have := kp_lt hd' (show p' < p by omega)
        rw [if_neg (by omega), if_neg (by omega)]
        exact hi.kept.kept p' (by omega) hd' b hb
    · intro x hx
      show (if _ = s.1.bc + 1 then _ else if _ = s.1.bc then _ else _) = _
      rw [if_neg (by omega), if_neg (by omega), hi.low x hx]
  · rw [if_pos rfl]
    rw [hd, if_pos rfl] at hks
    obtain ⟨v1, e1, h6, h7⟩ := tableMark_ok hi.l1 hpb hi.w1 hd
    rw [e1, ok_bind]
    refine ⟨_, rfl, hi.sel, hi.bk, hi.kind, hlen, ?_, ⟨?_⟩, hi.low, hi.keeps, h6, h7, h4, h5⟩
    · show s.1.bc = _; omega
    · intro p' hp' hd' b hb
      have hpp : p' ≠ p := fun hpp => by rw [hpp, hd] at hd'; cases hd'
      exact hi.kept.kept p' (by omega) hd' b hb

theorem tbs_le {m : Nat} (h : Dense t L TH m) : tbs t L m ≤ TH / 8 / 2 / 8 + 1 := by
  have := dense_le h
  unfold tbs
  omega

theorem pair_tbs {m p : Nat} (hL : 1 ≤ L) (hm : m < nbk t L) (h : m < tot t / L) (hp : p < nby t L m / 2) :
    p / 8 < tbs t L m := by
  have := bl_pos hL hm
  unfold nby sb at hp
  rw [if_pos h] at hp
  unfold tbs
  omega

theorem tableLen_eq {m : Nat} (hL : 1 ≤ L) (hlen : t.len < 2 ^ 60) (hm : m < nbk t L) :
    tableLen (bl t L m) = tbs t L m := by
  have hbp := bl_pos hL hm
  have hen := en_le (t := t) (L := L) hL (show m + 1 ≤ nbk t L by omega)
  have hes := en_succ hL hm
  unfold tableLen tbs
  rw [sub64_eq (by omega) (by simp only [W64]; omega)]

theorem encComp_ok {k m : Nat} (hL : 1 ≤ L) (hlen : t.len < 2 ^ 60) (hm : m + 1 < nbk t L) (hd : Dense t L TH m)
    (hk : k = 3 ∨ k = 1 ∨ k = 2) {w : Walk} (hw : WalkEnd t L TH m w) {s : EncS}
    (ho : s.bc + (hdS k (tbs t L m) + 2 * kp k (bb t L m) (nby t L m / 2) + nby t L m % 2) ≤ s.out.len) :
    ∃ o, encComp TH k w s = ok { s with out := o, bc := s.bc +
        (hdS k (tbs t L m) + 2 * kp k (bb t L m) (nby t L m / 2) + nby t L m % 2) } ∧ o.len = s.out.len ∧
      Packed k (bb t L m) (nby t L m) (tbs t L m) s.bc o ∧
      (∀ y, y < s.bc → o.f y = s.out.f y) ∧ Keeps s.out o := by
  have hk0 : k ≠ 0 := by omega
  have hc := hw.con hd
  have hcb := hc.bytes
  have hcl := hc.len
  have hhd := hdS_ge (b := tbs t L m) hk0
  have hkm := fun p (hp : p ≤ nby t L m / 2) => kp_mono k (bb t L m) hp
  unfold encComp
  simp only []
  rw [hw.len, tableLen_eq hL hlen (by omega), hcb]
  obtain ⟨v1, e1, a1, a2⟩ := tableZero_ok (dp k (bb t L m)) (tbs_le hd)
  obtain ⟨v2, e2, b1, b2⟩ := tableZero_ok (fp (bb t L m)) (tbs_le hd)
  rw [e1] at e2
  injection e2 with e2
  subst e2
  rw [e1, ok_bind, ok_bind]
  have hh : (if k = 3 then 2 * tbs t L m else tbs t L m) = hdS k (tbs t L m) := by
    unfold hdS
    by_cases h3 : k = 3
    · rw [if_pos h3, if_pos h3]
    · rw [if_neg h3, if_neg h3, if_neg hk0]
  rw [hh]
  obtain ⟨⟨s', u1, u2⟩, e', i'⟩ := forN_inv (body := encPairS k w.con)
    (PairInvS k (bb t L m) (tbs t L m) (s.bc + hdS k (tbs t L m)) { s with bc := s.bc + hdS k (tbs t L m) })
    (nby t L m / 2) ({ s with bc := s.bc + hdS k (tbs t L m) }, v1, v1)
    ⟨rfl, rfl, rfl, rfl, rfl, ⟨by intro p' hp'; omega⟩, fun _ _ => rfl, Keeps.refl _, a1, a2, fun _ => b1, fun _ => b2⟩
    (by
      intro p s' hp' hi
      exact encPairS_ok hk0 hc (by show _ ≤ s.out.len; omega) hp' (pair_tbs hL (by omega) (full_of_lt hm) hp') hi)
  rw [e', ok_bind]
  simp only []
  have j1 : s'.sel = s.sel := i'.sel
  have j2 : s'.bk = s.bk := i'.bk
  have j3 : s'.kind = s.kind := i'.kind
  have j4 : s'.out.len = s.out.len := i'.len
  have j5 : s'.bc = s.bc + hdS k (tbs t L m) + 2 * kp k (bb t L m) (nby t L m / 2) := i'.bc
  have j6 : ∀ x, x < s.bc + hdS k (tbs t L m) → s'.out.f x = s.out.f x := i'.low
  have j7 : Keeps s.out s'.out := i'.keeps
  have hodd : ∃ o, (if nby t L m % 2 = 1 then do
      let a ← uget w.con.cont (nby t L m - 1)
      s'.put a
    else ok s') = ok { s' with out := o, bc := s'.bc + nby t L m % 2 } ∧ o.len = s.out.len ∧
      (∀ x, x < s'.bc → o.f x = s'.out.f x) ∧ Keeps s'.out o ∧
      (nby t L m % 2 = 1 → o.f s'.bc = some (bb t L m (nby t L m - 1))) := by
    by_cases h1 : nby t L m % 2 = 1
    · rw [if_pos h1, uget_ok (by omega) (hc.val _ (by omega)), ok_bind, putS_ok (by omega)]
      refine ⟨⟨s'.out.len, fun j => if j = s'.bc then some (bb t L m (nby t L m - 1)) else s'.out.f j⟩, by rw [h1], j4, fun x hx => ?_, Keeps.set, fun _ => ?_⟩
      · show (if x = s'.bc then _ else _) = _
        rw [if_neg (by omega)]
      · show (if s'.bc = s'.bc then _ else _) = _
        rw [if_pos rfl]
    · rw [if_neg h1, show nby t L m % 2 = 0 by omega]
      exact ⟨s'.out, rfl, j4, fun _ _ => rfl, Keeps.refl _, fun h => absurd h (by omega)⟩
  obtain ⟨o1, e3, o2, o3, o4, o5⟩ := hodd
  rw [e3, ok_bind]
  simp only []
  obtain ⟨p1, e4, p2, p3, p4, p5⟩ := tableStore_ok (out := o1) (o := s.bc) i'.l1 i'.w1 (by omega)
  rw [e4, ok_bind]
  have hst : ∃ q, (if k = 3 then tableStore p1 (s.bc + tbs t L m) (tbs t L m) u2 else ok p1) = ok q ∧ q.len = p1.len ∧
      (k = 3 → ∀ j, j < tbs t L m → q.f (s.bc + tbs t L m + j) = some (tbl (bef (nby t L m / 2) (fp (bb t L m))) j)) ∧
      (∀ x, x < s.bc + tbs t L m ∨ s.bc + hdS k (tbs t L m) ≤ x → q.f x = p1.f x) ∧ Keeps p1 q := by
    by_cases h3 : k = 3
    · rw [if_pos h3]
      have := hhd.2 h3
      obtain ⟨q, e5, q1, q2, q3, q4⟩ := tableStore_ok (out := p1) (o := s.bc + tbs t L m) (i'.l2 h3) (i'.w2 h3) (by omega)
      exact ⟨q, e5, q1, fun _ => q2, fun x hx => q3 x (by omega), q4⟩
    · rw [if_neg h3]
      exact ⟨p1, rfl, rfl, fun h => absurd h h3, fun _ _ => rfl, Keeps.refl _⟩
  obtain ⟨q, e5, q1, q2, q3, q4⟩ := hst
  rw [e5, ok_bind]
  have hup : ∀ x, s.bc + hdS k (tbs t L m) ≤ x → q.f x = o1.f x := by
    intro x hx
    rw [q3 x (by omega), p4 x (by omega)]
  refine ⟨q, ?_, by omega, ⟨fun j hj => ?_, q2, ⟨fun p hp hd' b hb => ?_⟩, fun h1 => ?_⟩, fun y hy => ?_,
    ((j7.trans o4).trans p5).trans q4⟩
  · rw [j5, j1, j2, j3, Nat.add_assoc, Nat.add_assoc, Nat.add_assoc]
  · rw [q3 _ (by omega), p3 j hj]
  · have := kp_lt hd' hp
    rw [hup _ (by omega), o3 _ (by omega)]
    exact i'.kept.kept p hp hd' b hb
  · rw [hup _ (by omega), ← j5]
    exact o5 h1
  · rw [q3 _ (by omega), p4 _ (by omega), o3 _ (by omega), j6 _ (by omega)]

end MRS.Mran
