import Verif.Model.Mranisz.SelMpe32
import Verif.Proofs.Mranisz.SelMpeSuper
import Verif.Proofs.Mranisz.S32Bch

/-! # 32-bit compressed select with pairs left out: loops, tables, blocks -/

set_option autoImplicit false

namespace MRS.Mran.S32
open Outcome Spec Poppy

variable {ty : MpeType} {t : Vec Byte} {L TH : Nat}

/-- Bytes that block `m` takes. -/
def wdS (ty : MpeType) (t : Vec Byte) (L TH m : Nat) : Nat :=
  if ks ty t L TH m = 0 then wd t L TH m
  else hdS (ks ty t L TH m) (tbs t L m) + 2 * kp (ks ty t L TH m) (bb t L m) (nby t L m / 2) + nby t L m % 2

/-- Where they start. -/
def offS (ty : MpeType) (t : Vec Byte) (L TH m : Nat) : Nat := psum (wdS ty t L TH) m

theorem offS_succ (m : Nat) : offS ty t L TH (m + 1) = offS ty t L TH m + wdS ty t L TH m := rfl

theorem offS_mono {a b : Nat} (h : a ≤ b) : offS ty t L TH a ≤ offS ty t L TH b := psum_mono _ h

/-- The bytes of block `m`. -/
structure DataS (ty : MpeType) (t : Vec Byte) (L TH m : Nat) (bits : Vec (Option Byte)) : Prop where
  sp : sparse t L TH m = true → ∀ j, j < sq t L m → ∀ b, b < 4 →
    bits.f (offS ty t L TH m + 4 * j + b) = some (BitVec.ofNat 8 (sel t (m * L + 1 + j) >>> (8 * b)))
  de : Dense t L TH m → ks ty t L TH m = 0 → ∀ y, y < nby t L m → bits.f (offS ty t L TH m + y) = some (bb t L m y)
  co : ks ty t L TH m ≠ 0 → Packed (ks ty t L TH m) (bb t L m) (nby t L m) (tbs t L m) (offS ty t L TH m) bits

theorem wdS_sparse {m : Nat} (h : sparse t L TH m = true) : wdS ty t L TH m = 4 * sq t L m := by
  unfold wdS wd
  rw [if_pos (ks_not (fun hd => hd.not_sparse h)), if_pos h]

theorem wdS_mono {m : Nat} (h : sparse t L TH m = false) (h' : mono t L TH m = true) : wdS ty t L TH m = 0 := by
  unfold wdS wd
  rw [if_pos (ks_not (fun hd => by have := hd.2; rw [h'] at this; cases this)), if_neg (by rw [h]; simp), if_pos h']

theorem wdS_dense {m : Nat} (h : Dense t L TH m) (hk : ks ty t L TH m = 0) : wdS ty t L TH m = nby t L m := by
  unfold wdS wd
  rw [if_pos hk, if_neg (by rw [h.1]; simp), if_neg (by rw [h.2]; simp)]
  rfl

theorem wdS_comp {m : Nat} (hk : ks ty t L TH m ≠ 0) : wdS ty t L TH m =
    hdS (ks ty t L TH m) (tbs t L m) + 2 * kp (ks ty t L TH m) (bb t L m) (nby t L m / 2) + nby t L m % 2 := by
  unfold wdS
  rw [if_neg hk]

theorem DataS.frame {m : Nat} {b b' : Vec (Option Byte)} (h : DataS ty t L TH m b)
    (hf : ∀ y, y < offS ty t L TH (m + 1) → b'.f y = b.f y) : DataS ty t L TH m b' := by
  rw [offS_succ] at hf
  refine ⟨fun h1 j hj c hc => ?_, fun h1 h2 y hy => ?_, fun h1 => ?_⟩
  · rw [wdS_sparse h1] at hf
    rw [hf _ (by omega), h.sp h1 j hj c hc]
  · rw [wdS_dense h1 h2] at hf
    rw [hf _ (by omega), h.de h1 h2 y hy]
  · rw [wdS_comp h1] at hf
    exact (h.co h1).congr h1 hf

theorem advance_ok {m p : Nat} {w : Walk} {v : Vec (Option Nat)} (hL : 1 ≤ L) (hlen : t.len < 2 ^ 29)
    (hv : Evens t L v) (h : WalkEnd t L TH m w) (hp : p + 1 = en t L (m + 1)) (hm : m + 1 < nbk t L) :
    ∃ w', advance L TH v w = ok w' ∧ WalkAt t L TH (m + 1) (p + 1) (2 * (m + 1)) w' := by
  have hcn := h.cnt
  have hvl := hv.len
  have hlq := len_eq (m := m + 1) hL hlen hm
  rw [if_neg (by omega), show m + 1 + 1 = m + 2 by omega] at hlq
  have hlt2 := en_lt hL hm
  have h2 := hv.ev (m + 2) (by omega)
  rw [show 2 * (m + 2) = w.cnt + 2 by omega] at h2
  have h1 := hv.ev (m + 1) (by omega)
  rw [show 2 * (m + 1) = w.cnt by omega] at h1
  unfold advance
  rw [uget_ok (by omega) h2, ok_bind, uget_ok (by omega) h1, ok_bind]
  simp only []
  rw [hlq]
  refine ⟨_, rfl, hm, by omega, by omega, hcn, rfl, rfl, rfl, rfl, h.clen, fun _ => ⟨?_, ?_, ?_, ?_⟩⟩
  · show 0 = _; rw [hp, Nat.sub_self]
  · show 7 = _; rw [hp, Nat.sub_self]
  · rw [hp, Nat.sub_self]; rfl
  · intro y hy; rw [hp, Nat.sub_self] at hy; omega

theorem walkStart_ok {v : Vec (Option Nat)} (hL : 1 ≤ L) (hlen : t.len < 2 ^ 29) (hn : 0 < nbk t L)
    (hv : Evens t L v) : ∃ w, walkStart L TH v = ok w ∧ WalkAt t L TH 0 0 0 w := by
  have hvl := hv.len
  have hlq := len_eq (m := 0) hL hlen hn
  rw [if_pos rfl] at hlq
  have hlt2 := en_lt hL hn
  unfold walkStart
  rw [uget_ok (by omega) (hv.ev 1 (by omega)), ok_bind, uget_ok (by omega) (hv.ev 0 (by omega)), ok_bind]
  simp only []
  rw [hlq]
  refine ⟨_, rfl, hn, by rw [en_zero]; exact Nat.le_refl _, by rw [en_zero] at hlt2; exact hlt2, rfl, rfl, rfl, rfl, rfl, rfl,
    fun _ => ⟨?_, ?_, ?_, ?_⟩⟩
  · show 0 = _; rw [Nat.zero_sub]
  · show 7 = _; rw [Nat.zero_sub]
  · rw [Nat.zero_sub]; rfl
  · intro y hy; rw [Nat.zero_sub] at hy; omega

/-- The loop keeps an invariant `I` of blocks and positions, and ends with `F`, unless an action fails. -/
theorem walkS_ok {σ : Type} {A : Acts σ} {I : Nat → Nat → σ → Prop} {F : σ → Prop} {Fail : Fault → Prop}
    (hL : 1 ≤ L) (hlen : t.len < 2 ^ 29)
    (hsel : ∀ m p s, I m p s → Evens t L (A.sel s))
    (hstay : ∀ m p s, m < nbk t L → en t L m ≤ p → p + 1 < en t L (m + 1) → I m p s →
      (sparse t L TH m = true → tbit t p = false) → I m (p + 1) s)
    (hpos : ∀ m p s, m < nbk t L → en t L m ≤ p → p + 1 < en t L (m + 1) → I m p s →
      sparse t L TH m = true → tbit t p = true →
      (∃ s', A.pos p s = ok s' ∧ I m (p + 1) s') ∨ ∃ f, A.pos p s = ub f ∧ Fail f)
    (hnext : ∀ m p w s, en t L m ≤ p → p + 1 = en t L (m + 1) → m + 1 < nbk t L → I m p s → WalkEnd t L TH m w →
      (∃ s', A.next w s = ok s' ∧ I (m + 1) (p + 1) s') ∨ ∃ f, A.next w s = ub f ∧ Fail f)
    (hlast : ∀ m p w s, p + 1 = en t L (m + 1) → m + 1 = nbk t L → I m p s →
      WalkAt t L TH m p (2 * (m + 1)) w →
      (∃ s', A.last true p w s = ok s' ∧ F s') ∨ ∃ f, A.last true p w s = ub f ∧ Fail f) :
    ∀ n p m w s, p + n = 8 * t.len → WalkAt t L TH m p (2 * m) w → I m p s →
    (∃ w' s', walkS A L TH t (2 * nbk t L) n p w s = ok (w', s') ∧ w'.cnt = 2 * nbk t L ∧ F s') ∨
      ∃ f, walkS A L TH t (2 * nbk t L) n p w s = ub f ∧ Fail f := by
  intro n
  induction n with
  | zero =>
    intro p m w s hp h _
    have := en_le (t := t) (L := L) hL (show m + 1 ≤ nbk t L from h.lt)
    have := h.hi
    omega
  | succ n ih =>
    intro p m w s hp h hI
    have hlt := h.lt
    have hhi := h.hi
    have hlo := h.lo
    have hcn := h.cnt
    have hen := en_last hL h.lt
    have hup := h.up
    unfold walkS
    rw [bitAt_ok (by omega), ok_bind, Nat.mod_eq_of_lt (show p < W32 by simp only [W32]; omega)]
    by_cases hpe : p = en t L (m + 1) - 1
    · rw [if_pos (by omega)]
      simp only []
      rw [← hpe] at hen
      have h2 : WalkAt t L TH m p (2 * (m + 1)) { w with cnt := w.cnt + 2 } :=
        ⟨h.lt, h.lo, h.hi, by show w.cnt + 2 = _; omega, h.up, h.len, h.fsp, h.fmo, h.clen, h.con⟩
      by_cases hm : m + 1 = nbk t L
      · rw [if_pos (by omega), hen.2.2.2.1]
        rcases hlast m p _ s (by omega) hm hI h2 with ⟨s', e, hF⟩ | ⟨f, e, hf⟩
        · left
          rw [e, ok_bind]
          exact ⟨_, _, rfl, by rw [← hm]; exact h2.cnt, hF⟩
        · right
          rw [e]
          exact ⟨f, rfl, hf⟩
      · rw [if_neg (by omega)]
        have hm' : m + 1 < nbk t L := by omega
        obtain ⟨w1, e1, hw1⟩ := Walk.flush_ok hL h2 (by omega) (full_of_lt hm')
        rw [e1, ok_bind]
        rcases hnext m p w1 s hlo (by omega) hm' hI hw1 with ⟨s', e, hI'⟩ | ⟨f, e, hf⟩
        · rw [e, ok_bind]
          obtain ⟨w2, e2, hw2⟩ := advance_ok (p := p) hL hlen (hsel _ _ _ hI') hw1 (by omega) hm'
          rw [e2, ok_bind]
          exact ih (p + 1) (m + 1) w2 s' (by omega) hw2 hI'
        · right
          rw [e]
          exact ⟨f, rfl, hf⟩
    · rw [if_neg (by omega)]
      have hp1 : p + 1 < en t L (m + 1) := by omega
      cases hmo : mono t L TH m
      · rw [if_neg (by rw [h.fmo, hmo]; simp)]
        cases hsp : sparse t L TH m
        · rw [if_neg (by rw [h.fsp, hsp]; simp)]
          have hd : Dense t L TH m := ⟨hsp, hmo⟩
          have hth := dense_le hd
          have hbs := en_succ hL hlt
          obtain ⟨c', e, hc1, hc2⟩ := Con.bit_ok hlo (h.con hd) (by rw [h.clen]; omega)
          rw [e, ok_bind]
          exact ih (p + 1) m _ s (by omega)
            ⟨hlt, by omega, hp1, h.cnt, h.up, h.len, h.fsp, h.fmo, hc1.trans h.clen, fun _ => hc2⟩
            (hstay m p s hlt hlo hp1 hI (fun hh => by rw [hsp] at hh; cases hh))
        · rw [if_pos (by rw [h.fsp, hsp])]
          have hw' : WalkAt t L TH m (p + 1) (2 * m) w :=
            ⟨hlt, by omega, hp1, h.cnt, h.up, h.len, h.fsp, h.fmo, h.clen, fun hd => by have := hd.1; rw [hsp] at this; cases this⟩
          cases hb : tbit t p
          · rw [if_neg (by simp), ok_bind]
            exact ih (p + 1) m w s (by omega) hw' (hstay m p s hlt hlo hp1 hI (fun _ => hb))
          · rw [if_pos rfl]
            rcases hpos m p s hlt hlo hp1 hI hsp hb with ⟨s', e, hI'⟩ | ⟨f, e, hf⟩
            · rw [e, ok_bind]
              exact ih (p + 1) m w s' (by omega) hw' hI'
            · right
              rw [e]
              exact ⟨f, rfl, hf⟩
      · rw [if_pos (by rw [h.fmo, hmo])]
        exact ih (p + 1) m w s (by omega)
          ⟨hlt, by omega, hp1, h.cnt, h.up, h.len, h.fsp, h.fmo, h.clen, fun hd => by have := hd.2; rw [hmo] at this; cases this⟩
          (hstay m p s hlt hlo hp1 hI (fun hh => by
            exfalso
            unfold sparse at hh
            unfold mono at hmo
            rw [decide_eq_true_eq] at hh hmo
            exact hmo.1 hh))

theorem wdS_eq (m : Nat) : wdS ty t L TH m + 2 * drops ty t L TH m = wd t L TH m + tabs ty t L TH m := by
  by_cases h : ks ty t L TH m = 0
  · rw [tabs_zero h, drops_zero h]; unfold wdS; rw [if_pos h]
  · rw [wdS_comp h]
    have hd := (ks_dense h).2
    have hw : wd t L TH m = nby t L m := by
      unfold wd
      rw [if_neg (by rw [hd.1]; simp), if_neg (by rw [hd.2]; simp)]
      rfl
    have := kp_le (ks ty t L TH m) (bb t L m) (nby t L m / 2)
    rw [hw]
    unfold tabs drops
    omega

theorem offS_eq (m : Nat) : offS ty t L TH m + 2 * psum (drops ty t L TH) m = off t L TH m + psum (tabs ty t L TH) m := by
  induction m with
  | zero => rfl
  | succ m ih =>
    have := wdS_eq (ty := ty) (t := t) (L := L) (TH := TH) m
    rw [offS_succ, off_succ, psum_succ, psum_succ]
    omega

theorem planNext_ok {g : Option (Nat → Byte)} {m : Nat} {w : Walk} {s : PlanS} (hL : 1 ≤ L) (hlen : t.len < 2 ^ 29)
    (hm : m + 1 < nbk t L) (h : PlanInvS ty t L TH g m s) (hw : WalkEnd t L TH m w) :
    ∃ s', planNext ty w s = ok s' ∧ PlanInvS ty t L TH g (m + 1) s' := by
  have hbk := h.bk
  have hfl := h.len
  unfold planNext
  rw [Vec.set_ok _ (by omega), ok_bind, dense_flags hw.fsp hw.fmo]
  have fin : ∀ (fl : Vec (Option Byte)) (a d : Nat), fl.len = nbk t L →
      (∀ j, fl.f j = if j = m then some (BitVec.ofNat 8 (ks ty t L TH m)) else s.flags.f j) →
      a = tabs ty t L TH m → d = drops ty t L TH m →
      PlanInvS ty t L TH g (m + 1) ⟨fl, s.bk + 1, s.added + a, s.pairs + d⟩ := by
    intro fl a d h1 h2 h3 h4
    refine ⟨h1, by show s.bk + 1 = _; omega, ?_, ?_, ?_, ?_⟩
    · intro k hk
      show fl.f k = _
      rw [h2]
      by_cases hkm : k = m
      · rw [if_pos hkm, hkm]
      · rw [if_neg hkm]; exact h.val k (by omega)
    · intro k hk
      show fl.f k = _
      rw [h2, if_neg (by omega)]
      exact h.rest k (by omega)
    · rw [psum_succ, ← h.added, h3]
    · rw [psum_succ, ← h.pairs, h4]
  by_cases hd : Dense t L TH m
  · rw [if_pos (decide_eq_true hd)]
    rw [countPairsS_ok (hw.con hd), ok_bind]
    simp only []
    have hbp := bl_pos hL (show m < nbk t L by omega)
    have hen := en_le (t := t) (L := L) hL (show m + 1 ≤ nbk t L by omega)
    have hes := en_succ hL (show m < nbk t L by omega)
    have htl : tableLen w.len = tbs t L m := by
      unfold tableLen tbs
      rw [hw.len, sub32_eq (by omega) (by simp only [W32]; omega)]
    rw [htl]
    have hks : ks ty t L TH m = kindS ty (zc (bb t L m) (nby t L m / 2)) (fc (bb t L m) (nby t L m / 2))
      (zc (bb t L m) (nby t L m / 2) + fc (bb t L m) (nby t L m / 2)) (tbs t L m) := by
      unfold ks; rw [if_pos ⟨hm, hd⟩]
    rw [← hks]
    obtain ⟨k3, k1, k2⟩ := kp_counts (bb t L m) (nby t L m / 2)
    have hlt := ks_lt (ty := ty) (t := t) (L := L) (TH := TH) m
    have htd : tabs ty t L TH m = hdS (ks ty t L TH m) (tbs t L m) := rfl
    have hdd : drops ty t L TH m = nby t L m / 2 - kp (ks ty t L TH m) (bb t L m) (nby t L m / 2) := rfl
    generalize ks ty t L TH m = k at *
    have hk : k = 3 ∨ k = 1 ∨ k = 2 ∨ k = 0 := by omega
    rcases hk with rfl | rfl | rfl | rfl
    · simp only []
      rw [Vec.set_ok _ (by show s.bk < s.flags.len; omega), ok_bind]
      refine ⟨_, rfl, fin _ _ _ hfl ?_ (by rw [htd]; rfl) ?_⟩
      · intro j
        show (if j = s.bk then _ else if j = s.bk then _ else _) = _
        rw [hbk]; split <;> rfl
      · rw [hdd]; split <;> omega
    · simp only []
      rw [Vec.set_ok _ (by show s.bk < s.flags.len; omega), ok_bind]
      refine ⟨_, rfl, fin _ _ _ hfl ?_ (by rw [htd]; rfl) ?_⟩
      · intro j
        show (if j = s.bk then _ else if j = s.bk then _ else _) = _
        rw [hbk]; split <;> rfl
      · rw [hdd]; omega
    · simp only []
      rw [Vec.set_ok _ (by show s.bk < s.flags.len; omega), ok_bind]
      refine ⟨_, rfl, fin _ _ _ hfl ?_ (by rw [htd]; rfl) ?_⟩
      · intro j
        show (if j = s.bk then _ else if j = s.bk then _ else _) = _
        rw [hbk]; split <;> rfl
      · rw [hdd]; omega
    · refine ⟨_, rfl, fin _ 0 0 hfl ?_ (by rw [htd]; rfl) (by rw [hdd, kp_zero, Nat.sub_self])⟩
      intro j
      show (if j = s.bk then _ else _) = _
      rw [hbk]
  · rw [if_neg (by simp [hd])]
    have hk := ks_not (ty := ty) hd
    refine ⟨_, rfl, fin _ 0 0 hfl ?_ (tabs_zero hk).symm (drops_zero hk).symm⟩
    intro j
    show (if j = s.bk then _ else _) = _
    rw [hbk, hk]

theorem planS_ok (ty : MpeType) (g : Option (Nat → Byte)) {v : Vec (Option Nat)} (hL : 1 ≤ L) (hlen : t.len < 2 ^ 29)
    (hn : 0 < nbk t L) (hv : Evens t L v) :
    ∃ s, planS ty L TH g t (tot t) (2 * nbk t L) (nbk t L) v = ok s ∧ PlanOKS ty t L TH g s := by
  unfold planS
  obtain ⟨w, e, hw⟩ := walkStart_ok (TH := TH) hL hlen hn hv
  rw [e, ok_bind]
  have := walkS_ok (A := planActs ty L (tot t) v) (I := fun m _ s => PlanInvS ty t L TH g m s)
    (F := PlanOKS ty t L TH g) (Fail := fun _ => False) (TH := TH) hL hlen
    (fun _ _ _ _ => hv) (fun _ _ _ _ _ _ h _ => h) (fun _ _ s _ _ _ h _ _ => Or.inl ⟨s, rfl, h⟩)
    (fun m p w s _ _ hm h hw => Or.inl (planNext_ok hL hlen hm h hw))
    (fun m p w s hp hm h hw => Or.inl (by
      have hbk := h.bk
      have hfl := h.len
      have k0 : ks ty t L TH m = 0 := ks_last (by omega)
      have ha : psum (tabs ty t L TH) (nbk t L) = psum (tabs ty t L TH) m := by
        rw [← hm, psum_succ, tabs_zero k0]; rfl
      have hp' : psum (drops ty t L TH) (nbk t L) = psum (drops ty t L TH) m := by
        rw [← hm, psum_succ, drops_zero k0]; rfl
      show ∃ s', planLast L (tot t) true p w s = ok s' ∧ _
      unfold planLast
      by_cases hr : tot t % L > 0
      · rw [if_pos hr]
        have hnK : ¬ m < tot t / L := by
          have : nbk t L = tot t / L + 1 := by unfold nbk; rw [if_pos hr]
          omega
        have fin : PlanOKS ty t L TH g ⟨⟨s.flags.len, fun j => if j = s.bk then some 0#8 else s.flags.f j⟩, s.bk + 1, s.added, s.pairs⟩ := by
          refine ⟨hfl, ?_, ?_, ?_, by rw [ha]; exact h.added, by rw [hp']; exact h.pairs⟩
          · intro k hk
            show (if k = s.bk then _ else _) = _
            rw [if_neg (by omega)]; exact h.val k (by omega)
          · intro _
            show (if nbk t L - 1 = s.bk then _ else _) = _
            rw [if_pos (by omega)]
          · intro h0; omega
        rw [Vec.set_ok _ (by omega), ok_bind, dense_flags hw.fsp hw.fmo]
        by_cases hd : Dense t L TH m
        · rw [if_pos (decide_eq_true hd), if_pos rfl]
          obtain ⟨c', e, -⟩ := Con.last_ok hL hw.lt hw.lo (hw.con hd) hp hnK hw.clen hd
          rw [e, ok_bind]
          exact ⟨_, rfl, fin⟩
        · rw [if_neg (by simp [hd])]
          exact ⟨_, rfl, fin⟩
      · rw [if_neg hr]
        refine ⟨s, rfl, hfl, fun k hk => h.val k (by omega), fun h0 => absurd h0 hr, fun _ => h.rest _ (by omega),
          by rw [ha]; exact h.added, by rw [hp']; exact h.pairs⟩))
    (8 * t.len) 0 0 w ⟨memory g (nbk t L), 0, 0, 0⟩ (by omega) hw
    ⟨rfl, rfl, by intro k hk; omega, fun _ _ => rfl, rfl, rfl⟩
  rcases this with ⟨w', s', e, -, h⟩ | ⟨f, -, h⟩
  · rw [e, ok_bind]
    exact ⟨_, rfl, h⟩
  · exact absurd h id

theorem putPosS_ok {s : EncS} {p : Nat} (h : s.bc + 4 ≤ s.out.len) :
    ∃ o, putPosS s p = ok { s with out := o, bc := s.bc + 4 } ∧ o.len = s.out.len ∧
      (∀ b, b < 4 → o.f (s.bc + b) = some (BitVec.ofNat 8 (p >>> (8 * b)))) ∧
      (∀ y, y < s.bc → o.f y = s.out.f y) ∧ Keeps s.out o := by
  unfold putPosS
  obtain ⟨s', e, o, h1, h2, h3, h4, h5⟩ := forN_inv
    (body := fun k (s : EncS) => s.put (BitVec.ofNat 8 (p >>> (8 * k))))
    (fun k s' => ∃ o, s' = { s with out := o, bc := s.bc + k } ∧ o.len = s.out.len ∧
      (∀ b, b < k → o.f (s.bc + b) = some (BitVec.ofNat 8 (p >>> (8 * b)))) ∧
      (∀ y, y < s.bc → o.f y = s.out.f y) ∧ Keeps s.out o) 4 s
    ⟨s.out, rfl, rfl, by intro b hb; omega, fun _ _ => rfl, Keeps.refl _⟩
    (by
      intro k s' hk ⟨o, h1, h2, h3, h4, h5⟩
      subst h1
      rw [putS_ok (by show s.bc + k < o.len; omega)]
      refine ⟨_, rfl, _, rfl, h2, ?_, ?_, h5.trans Keeps.set⟩
      · intro b hb
        show (if s.bc + b = s.bc + k then _ else _) = _
        by_cases hbk : b = k
        · rw [if_pos (by omega), hbk]
        · rw [if_neg (by omega), h3 b (by omega)]
      · intro y hy
        show (if y = s.bc + k then _ else _) = _
        rw [if_neg (by omega), h4 y hy])
  subst h1
  exact ⟨o, e, h2, h3, h4, h5⟩

theorem putPosS_oob {s : EncS} {p : Nat} (h : ¬ s.bc + 4 ≤ s.out.len) : putPosS s p = ub .oob := by
  have key : ∀ n k (s : EncS), ¬ s.bc + n ≤ s.out.len → 0 < n →
      forFrom k n (fun k (s : EncS) => s.put (BitVec.ofNat 8 (p >>> (8 * k)))) s = ub .oob := by
    intro n
    induction n with
    | zero => intro k s _ h; omega
    | succ n ih =>
      intro k s hs _
      unfold forFrom
      simp only []
      by_cases hb : s.bc < s.out.len
      · rw [putS_ok hb, ok_bind]
        refine ih _ _ ?_ (by omega)
        show ¬ s.bc + 1 + n ≤ s.out.len
        omega
      · rw [putS_oob hb]; rfl
  exact key 4 0 s h (by omega)

theorem tableLen_eq {m : Nat} (hL : 1 ≤ L) (hlen : t.len < 2 ^ 29) (hm : m < nbk t L) :
    tableLen (bl t L m) = tbs t L m := by
  have hbp := bl_pos hL hm
  have hen := en_le (t := t) (L := L) hL (show m + 1 ≤ nbk t L by omega)
  have hes := en_succ hL hm
  unfold tableLen tbs
  rw [sub32_eq (by omega) (by simp only [W32]; omega)]

theorem encComp_ok {k m : Nat} (hL : 1 ≤ L) (hlen : t.len < 2 ^ 29) (hm : m + 1 < nbk t L) (hd : Dense t L TH m)
    (hk : k = 3 ∨ k = 1 ∨ k = 2) {w : Walk} (hw : WalkEnd t L TH m w) {s : EncS}
    (ho : s.bc + (hdS k (tbs t L m) + 2 * kp k (bb t L m) (nby t L m / 2) + nby t L m % 2) ≤ s.out.len) :
    ∃ o, encComp TH k w s = ok { s with out := o, bc := s.bc +
        (hdS k (tbs t L m) + 2 * kp k (bb t L m) (nby t L m / 2) + nby t L m % 2) } ∧ o.len = s.out.len ∧
      Packed k (bb t L m) (nby t L m) (tbs t L m) s.bc o ∧
      (∀ y, y < s.bc → o.f y = s.out.f y) ∧ Keeps s.out o := by
  have hk0 : k ≠ 0 := by omega
  have hc := hw.con hd
  have hcb := hc.bytes
  have hcl := hc.len
  have hhd := hdS_ge (b := tbs t L m) hk0
  have hkm := fun p (hp : p ≤ nby t L m / 2) => kp_mono k (bb t L m) hp
  unfold encComp
  simp only []
  rw [hw.len, tableLen_eq hL hlen (by omega), hcb]
  obtain ⟨v1, e1, a1, a2⟩ := tableZero_ok (dp k (bb t L m)) (tbs_le hd)
  obtain ⟨v2, e2, b1, b2⟩ := tableZero_ok (fp (bb t L m)) (tbs_le hd)
  rw [e1] at e2
  injection e2 with e2
  subst e2
  rw [e1, ok_bind, ok_bind]
  have hh : (if k = 3 then 2 * tbs t L m else tbs t L m) = hdS k (tbs t L m) := by
    unfold hdS
    by_cases h3 : k = 3
    · rw [if_pos h3, if_pos h3]
    · rw [if_neg h3, if_neg h3, if_neg hk0]
  rw [hh]
  obtain ⟨⟨s', u1, u2⟩, e', i'⟩ := forN_inv (body := encPairS k w.con)
    (PairInvS k (bb t L m) (tbs t L m) (s.bc + hdS k (tbs t L m)) { s with bc := s.bc + hdS k (tbs t L m) })
    (nby t L m / 2) ({ s with bc := s.bc + hdS k (tbs t L m) }, v1, v1)
    ⟨rfl, rfl, rfl, rfl, rfl, ⟨by intro p' hp'; omega⟩, fun _ _ => rfl, Keeps.refl _, a1, a2, fun _ => b1, fun _ => b2⟩
    (by
      intro p s' hp' hi
      exact encPairS_ok hk0 hc (by show _ ≤ s.out.len; omega) hp' (pair_tbs hL (by omega) (full_of_lt hm) hp') hi)
  rw [e', ok_bind]
  simp only []
  have j1 : s'.sel = s.sel := i'.sel
  have j2 : s'.bk = s.bk := i'.bk
  have j3 : s'.kind = s.kind := i'.kind
  have j4 : s'.out.len = s.out.len := i'.len
  have j5 : s'.bc = s.bc + hdS k (tbs t L m) + 2 * kp k (bb t L m) (nby t L m / 2) := i'.bc
  have j6 : ∀ x, x < s.bc + hdS k (tbs t L m) → s'.out.f x = s.out.f x := i'.low
  have j7 : Keeps s.out s'.out := i'.keeps
  have hodd : ∃ o, (if nby t L m % 2 = 1 then do
      let a ← uget w.con.cont (nby t L m - 1)
      s'.put a
    else ok s') = ok { s' with out := o, bc := s'.bc + nby t L m % 2 } ∧ o.len = s.out.len ∧
      (∀ x, x < s'.bc → o.f x = s'.out.f x) ∧ Keeps s'.out o ∧
      (nby t L m % 2 = 1 → o.f s'.bc = some (bb t L m (nby t L m - 1))) := by
    by_cases h1 : nby t L m % 2 = 1
    · rw [if_pos h1, uget_ok (by omega) (hc.val _ (by omega)), ok_bind, putS_ok (by omega)]
      refine ⟨⟨s'.out.len, fun j => if j = s'.bc then some (bb t L m (nby t L m - 1)) else s'.out.f j⟩, by rw [h1], j4, fun x hx => ?_, Keeps.set, fun _ => ?_⟩
      · show (if x = s'.bc then _ else _) = _
        rw [if_neg (by omega)]
      · show (if s'.bc = s'.bc then _ else _) = _
        rw [if_pos rfl]
    · rw [if_neg h1, show nby t L m % 2 = 0 by omega]
      exact ⟨s'.out, rfl, j4, fun _ _ => rfl, Keeps.refl _, fun h => absurd h (by omega)⟩
  obtain ⟨o1, e3, o2, o3, o4, o5⟩ := hodd
  rw [e3, ok_bind]
  simp only []
  obtain ⟨p1, e4, p2, p3, p4, p5⟩ := tableStore_ok (out := o1) (o := s.bc) i'.l1 i'.w1 (by omega)
  rw [e4, ok_bind]
  have hst : ∃ q, (if k = 3 then tableStore p1 (s.bc + tbs t L m) (tbs t L m) u2 else ok p1) = ok q ∧ q.len = p1.len ∧
      (k = 3 → ∀ j, j < tbs t L m → q.f (s.bc + tbs t L m + j) = some (tbl (bef (nby t L m / 2) (fp (bb t L m))) j)) ∧
      (∀ x, x < s.bc + tbs t L m ∨ s.bc + hdS k (tbs t L m) ≤ x → q.f x = p1.f x) ∧ Keeps p1 q := by
    by_cases h3 : k = 3
    · rw [if_pos h3]
      have := hhd.2 h3
      obtain ⟨q, e5, q1, q2, q3, q4⟩ := tableStore_ok (out := p1) (o := s.bc + tbs t L m) (i'.l2 h3) (i'.w2 h3) (by omega)
      exact ⟨q, e5, q1, fun _ => q2, fun x hx => q3 x (by omega), q4⟩
    · rw [if_neg h3]
      exact ⟨p1, rfl, rfl, fun h => absurd h h3, fun _ _ => rfl, Keeps.refl _⟩
  obtain ⟨q, e5, q1, q2, q3, q4⟩ := hst
  rw [e5, ok_bind]
  have hup : ∀ x, s.bc + hdS k (tbs t L m) ≤ x → q.f x = o1.f x := by
    intro x hx
    rw [q3 x (by omega), p4 x (by omega)]
  refine ⟨q, ?_, by omega, ⟨fun j hj => ?_, q2, ⟨fun p hp hd' b hb => ?_⟩, fun h1 => ?_⟩, fun y hy => ?_,
    ((j7.trans o4).trans p5).trans q4⟩
  · rw [j5, j1, j2, j3, Nat.add_assoc, Nat.add_assoc, Nat.add_assoc]
  · rw [q3 _ (by omega), p3 j hj]
  · have := kp_lt hd' hp
    rw [hup _ (by omega), o3 _ (by omega)]
    exact i'.kept.kept p hp hd' b hb
  · rw [hup _ (by omega), ← j5]
    exact o5 h1
  · rw [q3 _ (by omega), p4 _ (by omega), o3 _ (by omega), j6 _ (by omega)]

/-! ## Stores that fail -/

theorem forFrom_or {σ : Type} {body : Nat → σ → Outcome σ} (I : Nat → σ → Prop) {F : Fault} : ∀ n a s, I a s →
    (∀ k s, a ≤ k → k < a + n → I k s → (∃ s', body k s = ok s' ∧ I (k + 1) s') ∨ body k s = ub F) →
    (∃ s', forFrom a n body s = ok s' ∧ I (a + n) s') ∨ forFrom a n body s = ub F := by
  intro n
  induction n with
  | zero => intro a s h _; exact Or.inl ⟨s, rfl, h⟩
  | succ n ih =>
    intro a s h hb
    unfold forFrom
    rcases hb a s (Nat.le_refl _) (by omega) h with ⟨s', e, h'⟩ | e
    · rw [e, ok_bind]
      rcases ih (a + 1) s' h' (fun k s h1 h2 => hb k s (by omega) (by omega)) with ⟨s2, e2, h2⟩ | e2
      · exact Or.inl ⟨s2, e2, by rw [show a + (n + 1) = a + 1 + n by omega]; exact h2⟩
      · exact Or.inr e2
    · rw [e]; exact Or.inr rfl

theorem copyS_oob {m : Nat} {s : EncS} {c : Con} (hc : ConDone t L m c) (h : ¬ s.bc + nby t L m ≤ s.out.len)
    (hs : s.bc ≤ s.out.len) : s.copy c = ub .oob := by
  have hb := hc.bytes
  have hl := hc.len
  unfold EncS.copy
  have key : ∀ n k (s : EncS), k + n = nby t L m → ¬ s.bc + n ≤ s.out.len → 0 < n →
      forFrom k n (fun k (s : EncS) => do
        let a ← uget c.cont k
        s.put a) s = ub .oob := by
    intro n
    induction n with
    | zero => intro k s _ _ h; omega
    | succ n ih =>
      intro k s hk hs _
      unfold forFrom
      simp only []
      rw [uget_ok (by omega) (hc.val k (by omega)), ok_bind]
      by_cases hb : s.bc < s.out.len
      · rw [putS_ok hb, ok_bind]
        refine ih _ _ (by omega) ?_ (by omega)
        show ¬ s.bc + 1 + n ≤ s.out.len
        omega
      · rw [putS_oob hb]; rfl
  rw [hb]
  exact key _ 0 s (by omega) h (by omega)

theorem tableStore_oob {out v : Vec (Option Byte)} {o b : Nat} {c : Nat → Byte} (hv : b ≤ v.len)
    (hc : ∀ j, j < b → v.f j = some (c j)) (hb : 0 < b) (h : ¬ o + b ≤ out.len) : tableStore out o b v = ub .oob := by
  unfold tableStore
  have key : ∀ n k (out : Vec (Option Byte)), k + n = b → ¬ o + b ≤ out.len → 0 < n →
      forFrom k n (fun k (out : Vec (Option Byte)) => do
        let x ← uget v k
        out.set (o + k) (some x)) out = ub .oob := by
    intro n
    induction n with
    | zero => intro k s _ _ h; omega
    | succ n ih =>
      intro k out hk hs _
      unfold forFrom
      simp only []
      rw [uget_ok (by omega) (hc k (by omega)), ok_bind]
      by_cases hb : o + k < out.len
      · rw [Vec.set_ok _ hb, ok_bind]
        exact ih _ _ (by omega) hs (by omega)
      · rw [set_oob (by omega)]; rfl
  exact key _ 0 out (by omega) h hb

theorem encPairS_room {k m : Nat} (hk : k ≠ 0) {con : Con} (hc : ConDone t L m con) {b d : Nat} {s0 : EncS}
     {p : Nat} (hp : p < nby t L m / 2) (hpb : p / 8 < b)
    (ho : d + 2 * kp k (bb t L m) (p + 1) ≤ s0.out.len)
    {s : EncS × Vec (Option Byte) × Vec (Option Byte)} (hi : PairInvS k (bb t L m) b d s0 p s) :
    ∃ s', encPairS k con p s = ok s' ∧ PairInvS k (bb t L m) b d s0 (p + 1) s' := by
  have hcl := hc.len
  unfold encPairS
  rw [uget_ok (by omega) (hc.val (2 * p) (by omega)), ok_bind,
    uget_ok (by omega) (hc.val (2 * p + 1) (by omega)), ok_bind]
  generalize hcc : bb t L m = c at *
  have hdp : dropped k (c (2 * p)) (c (2 * p + 1)) = dp k c p := by
    unfold dp
    rw [show (k != 0) = true by simp [hk], Bool.true_and]
  have h2 : ∃ v2, (if k = 3 ∧ c (2 * p) = 255#8 ∧ c (2 * p + 1) = 255#8 then tableMark s.2.2 p else ok s.2.2) = ok v2 ∧
      (k = 3 → b ≤ v2.len) ∧ (k = 3 → ∀ j, j < b → v2.f j = some (tbl (bef (p + 1) (fp c)) j)) := by
    by_cases h3 : k = 3
    · cases hf : fp c p
      · rw [if_neg (fun hh => by rw [(fp_iff c p).1 hh.2] at hf; cases hf)]
        exact ⟨_, rfl, hi.l2, fun h3 => table_same (hi.w2 h3) hf⟩
      · rw [if_pos ⟨h3, (fp_iff c p).2 hf⟩]
        obtain ⟨v2, e, h4, h5⟩ := tableMark_ok (hi.l2 h3) hpb (hi.w2 h3) hf
        exact ⟨v2, e, fun _ => h4, fun _ => h5⟩
    · rw [if_neg (fun hh => h3 hh.1)]
      exact ⟨_, rfl, fun h => absurd h h3, fun h => absurd h h3⟩
  obtain ⟨v2, e2, h4, h5⟩ := h2
  rw [e2, ok_bind, hdp]
  have hks := kp_succ k c p
  have hlen := hi.len
  have hbc := hi.bc
  cases hd : dp k c p
  · rw [if_neg (by simp)]
    rw [hd, if_neg (by simp)] at hks
    rw [putS_ok (by omega), ok_bind, putS_ok (by show s.1.bc + 1 < s.1.out.len; omega), ok_bind]
    refine ⟨_, rfl, hi.sel, hi.bk, hi.kind, hlen, ?_, ⟨?_⟩, ?_, (hi.keeps.trans Keeps.set).trans Keeps.set, hi.l1,
      table_same hi.w1 hd, h4, h5⟩
    · show s.1.bc + 1 + 1 = _; omega
    · intro p' hp' hd' b hb
      show (if _ = s.1.bc + 1 then _ else if _ = s.1.bc then _ else _) = _
      by_cases hpp : p' = p
      · subst hpp
        have : b = 0 ∨ b = 1 := by omega
        rcases this with rfl | rfl
        · rw [if_neg (by omega), if_pos (by omega)]; rfl
        · rw [if_pos (by omega)]
      · have := kp_lt hd' (show p' < p by omega)
        rw [if_neg (by omega), if_neg (by omega)]
        exact hi.kept.kept p' (by omega) hd' b hb
    · intro x hx
      show (if _ = s.1.bc + 1 then _ else if _ = s.1.bc then _ else _) = _
      rw [if_neg (by omega), if_neg (by omega), hi.low x hx]
  · rw [if_pos rfl]
    rw [hd, if_pos rfl] at hks
    obtain ⟨v1, e1, h6, h7⟩ := tableMark_ok hi.l1 hpb hi.w1 hd
    rw [e1, ok_bind]
    refine ⟨_, rfl, hi.sel, hi.bk, hi.kind, hlen, ?_, ⟨?_⟩, hi.low, hi.keeps, h6, h7, h4, h5⟩
    · show s.1.bc = _; omega
    · intro p' hp' hd' b hb
      have hpp : p' ≠ p := fun hpp => by rw [hpp, hd] at hd'; cases hd'
      exact hi.kept.kept p' (by omega) hd' b hb

theorem encPairS_oob {k m : Nat} (hk : k ≠ 0) {con : Con} (hc : ConDone t L m con) {b d : Nat} {s0 : EncS}
    {p : Nat} (hp : p < nby t L m / 2) (hpb : p / 8 < b)
    (ho : ¬ d + 2 * kp k (bb t L m) (p + 1) ≤ s0.out.len) (hd : dp k (bb t L m) p = false)
    {s : EncS × Vec (Option Byte) × Vec (Option Byte)} (hi : PairInvS k (bb t L m) b d s0 p s) :
    encPairS k con p s = ub .oob := by
  have hcl := hc.len
  unfold encPairS
  rw [uget_ok (by omega) (hc.val (2 * p) (by omega)), ok_bind,
    uget_ok (by omega) (hc.val (2 * p + 1) (by omega)), ok_bind]
  generalize hcc : bb t L m = c at *
  have hdp : dropped k (c (2 * p)) (c (2 * p + 1)) = dp k c p := by
    unfold dp
    rw [show (k != 0) = true by simp [hk], Bool.true_and]
  have h2 : ∃ v2, (if k = 3 ∧ c (2 * p) = 255#8 ∧ c (2 * p + 1) = 255#8 then tableMark s.2.2 p else ok s.2.2) = ok v2 := by
    by_cases h3 : k = 3
    · cases hf : fp c p
      · rw [if_neg (fun hh => by rw [(fp_iff c p).1 hh.2] at hf; cases hf)]
        exact ⟨_, rfl⟩
      · rw [if_pos ⟨h3, (fp_iff c p).2 hf⟩]
        obtain ⟨v2, e, -⟩ := tableMark_ok (hi.l2 h3) hpb (hi.w2 h3) hf
        exact ⟨v2, e⟩
    · rw [if_neg (fun hh => h3 hh.1)]
      exact ⟨_, rfl⟩
  obtain ⟨v2, e2⟩ := h2
  have hks := kp_succ k c p
  rw [hd, if_neg (by simp)] at hks
  have hlen := hi.len
  have hbc := hi.bc
  rw [e2, ok_bind, hdp, hd, if_neg (by simp)]
  by_cases h1 : s.1.bc < s.1.out.len
  · rw [putS_ok h1, ok_bind, putS_oob (by show ¬ s.1.bc + 1 < s.1.out.len; omega)]
    rfl
  · rw [putS_oob h1]; rfl

theorem encPairS_drop {k m : Nat} (hk : k ≠ 0) {con : Con} (hc : ConDone t L m con) {b d : Nat} {s0 : EncS}
    {p : Nat} (hp : p < nby t L m / 2) (hpb : p / 8 < b)
    (hd : dp k (bb t L m) p = true)
    {s : EncS × Vec (Option Byte) × Vec (Option Byte)} (hi : PairInvS k (bb t L m) b d s0 p s) :
    ∃ s', encPairS k con p s = ok s' ∧ PairInvS k (bb t L m) b d s0 (p + 1) s' := by
  have hcl := hc.len
  unfold encPairS
  rw [uget_ok (by omega) (hc.val (2 * p) (by omega)), ok_bind,
    uget_ok (by omega) (hc.val (2 * p + 1) (by omega)), ok_bind]
  generalize hcc : bb t L m = c at *
  have hdp : dropped k (c (2 * p)) (c (2 * p + 1)) = dp k c p := by
    unfold dp
    rw [show (k != 0) = true by simp [hk], Bool.true_and]
  have h2 : ∃ v2, (if k = 3 ∧ c (2 * p) = 255#8 ∧ c (2 * p + 1) = 255#8 then tableMark s.2.2 p else ok s.2.2) = ok v2 ∧
      (k = 3 → b ≤ v2.len) ∧ (k = 3 → ∀ j, j < b → v2.f j = some (tbl (bef (p + 1) (fp c)) j)) := by
    by_cases h3 : k = 3
    · cases hf : fp c p
      · rw [if_neg (fun hh => by rw [(fp_iff c p).1 hh.2] at hf; cases hf)]
        exact ⟨_, rfl, hi.l2, fun h3 => table_same (hi.w2 h3) hf⟩
      · rw [if_pos ⟨h3, (fp_iff c p).2 hf⟩]
        obtain ⟨v2, e, h4, h5⟩ := tableMark_ok (hi.l2 h3) hpb (hi.w2 h3) hf
        exact ⟨v2, e, fun _ => h4, fun _ => h5⟩
    · rw [if_neg (fun hh => h3 hh.1)]
      exact ⟨_, rfl, fun h => absurd h h3, fun h => absurd h h3⟩
  obtain ⟨v2, e2, h4, h5⟩ := h2
  rw [e2, ok_bind, hdp]
  have hks := kp_succ k c p
  have hlen := hi.len
  have hbc := hi.bc
  · rw [hd, if_pos rfl]
    rw [hd, if_pos rfl] at hks
    obtain ⟨v1, e1, h6, h7⟩ := tableMark_ok hi.l1 hpb hi.w1 hd
    rw [e1, ok_bind]
    refine ⟨_, rfl, hi.sel, hi.bk, hi.kind, hlen, ?_, ⟨?_⟩, hi.low, hi.keeps, h6, h7, h4, h5⟩
    · show s.1.bc = _; omega
    · intro p' hp' hd' b hb
      have hpp : p' ≠ p := fun hpp => by rw [hpp, hd] at hd'; cases hd'
      exact hi.kept.kept p' (by omega) hd' b hb

theorem encComp_oob {k m : Nat} (hL : 1 ≤ L) (hlen : t.len < 2 ^ 29) (hm : m + 1 < nbk t L) (hd : Dense t L TH m)
    (hk : k = 3 ∨ k = 1 ∨ k = 2) {w : Walk} (hw : WalkEnd t L TH m w) {s : EncS}
    (ho : ¬ s.bc + (hdS k (tbs t L m) + 2 * kp k (bb t L m) (nby t L m / 2) + nby t L m % 2) ≤ s.out.len) :
    encComp TH k w s = ub .oob := by
  have hk0 : k ≠ 0 := by omega
  have hc := hw.con hd
  have hcb := hc.bytes
  have hcl := hc.len
  have hhd := hdS_ge (b := tbs t L m) hk0
  have htp := tbs_pos (t := t) (L := L) m
  unfold encComp
  simp only []
  rw [hw.len, tableLen_eq hL hlen (by omega), hcb]
  obtain ⟨v1, e1, a1, a2⟩ := tableZero_ok (dp k (bb t L m)) (tbs_le hd)
  obtain ⟨v2, e2, b1, b2⟩ := tableZero_ok (fp (bb t L m)) (tbs_le hd)
  rw [e1] at e2
  injection e2 with e2
  subst e2
  rw [e1, ok_bind, ok_bind]
  have hh : (if k = 3 then 2 * tbs t L m else tbs t L m) = hdS k (tbs t L m) := by
    unfold hdS
    by_cases h3 : k = 3
    · rw [if_pos h3, if_pos h3]
    · rw [if_neg h3, if_neg h3, if_neg hk0]
  rw [hh]
  have hor := forFrom_or (body := encPairS k w.con) (F := .oob)
    (fun p s' => PairInvS k (bb t L m) (tbs t L m) (s.bc + hdS k (tbs t L m)) { s with bc := s.bc + hdS k (tbs t L m) } p s' ∧
      (0 < kp k (bb t L m) p → s.bc + hdS k (tbs t L m) + 2 * kp k (bb t L m) p ≤ s.out.len))
    (nby t L m / 2) 0 ({ s with bc := s.bc + hdS k (tbs t L m) }, v1, v1)
    ⟨⟨rfl, rfl, rfl, rfl, rfl, ⟨by intro p' hp'; omega⟩, fun _ _ => rfl, Keeps.refl _, a1, a2, fun _ => b1, fun _ => b2⟩,
      fun h => absurd h (Nat.lt_irrefl 0)⟩
    (by
      intro p s' _ hp' ⟨hi, hi2⟩
      rw [Nat.zero_add] at hp'
      have hpt := pair_tbs hL (show m < nbk t L by omega) (full_of_lt hm) hp'
      by_cases hr : s.bc + hdS k (tbs t L m) + 2 * kp k (bb t L m) (p + 1) ≤ s.out.len
      · left
        obtain ⟨s2, e2, i2⟩ := encPairS_room (s0 := { s with bc := s.bc + hdS k (tbs t L m) }) hk0 hc hp' hpt hr hi
        exact ⟨s2, e2, i2, fun _ => hr⟩
      · cases hdp : dp k (bb t L m) p
        · right
          exact encPairS_oob (s0 := { s with bc := s.bc + hdS k (tbs t L m) }) hk0 hc hp' hpt hr hdp hi
        · left
          have hks := kp_succ k (bb t L m) p
          rw [if_pos hdp, Nat.add_zero] at hks
          rw [hks] at hr ⊢
          have h0 : kp k (bb t L m) p = 0 := by
            rcases Nat.eq_zero_or_pos (kp k (bb t L m) p) with h | h
            · exact h
            · exact absurd (hi2 h) hr
          obtain ⟨s2, e2, i2⟩ := encPairS_drop hk0 hc hp' hpt hdp hi
          exact ⟨s2, e2, i2, hi2⟩)
  rcases hor with ⟨⟨s', u1, u2⟩, e', i', hl'⟩ | e'
  · rw [Nat.zero_add] at i' hl'
    have e'' : forN (nby t L m / 2) (encPairS k w.con) ({ s with bc := s.bc + hdS k (tbs t L m) }, v1, v1) = ok (s', u1, u2) := e'
    rw [e'', ok_bind]
    simp only []
    have j4 : s'.out.len = s.out.len := i'.len
    have j5 : s'.bc = s.bc + hdS k (tbs t L m) + 2 * kp k (bb t L m) (nby t L m / 2) := i'.bc
    by_cases h1 : nby t L m % 2 = 1
    · rw [if_pos h1, uget_ok (by omega) (hc.val _ (by omega)), ok_bind, putS_oob (by omega)]
      rfl
    · have h0 : kp k (bb t L m) (nby t L m / 2) = 0 := by
        rcases Nat.eq_zero_or_pos (kp k (bb t L m) (nby t L m / 2)) with h | h
        · exact h
        · have := hl' h; omega
      rw [if_neg h1, ok_bind]
      by_cases hs1 : s.bc + tbs t L m ≤ s'.out.len
      · obtain ⟨p1, e4, p2, -⟩ := tableStore_ok (out := s'.out) (o := s.bc) i'.l1 i'.w1 hs1
        rw [e4, ok_bind]
        have h3 : k = 3 := by
          rcases hk with h | h | h
          · exact h
          · exfalso; rw [h] at ho h0; unfold hdS at ho; rw [if_neg (by decide), if_neg (by decide)] at ho; omega
          · exfalso; rw [h] at ho h0; unfold hdS at ho; rw [if_neg (by decide), if_neg (by decide)] at ho; omega
        have := hhd.2 h3
        rw [if_pos h3, tableStore_oob (i'.l2 h3) (i'.w2 h3) htp (by omega)]
        rfl
      · rw [tableStore_oob i'.l1 i'.w1 htp hs1]
        rfl
  · have e'' : forN (nby t L m / 2) (encPairS k w.con) ({ s with bc := s.bc + hdS k (tbs t L m) }, v1, v1) = ub .oob := e'
    rw [e'']
    rfl

end MRS.Mran.S32
