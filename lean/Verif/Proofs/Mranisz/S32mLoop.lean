import Verif.Proofs.Mranisz.S32mEnc
import Verif.Proofs.Mranisz.SelMpeTop

/-! # Compressed select with pairs left out, 32 bits: the third loop and what follows it -/

set_option autoImplicit false

namespace MRS.Mran.S32
open Outcome Spec Poppy

variable {ty : MpeType} {t : Vec Byte} {L TH : Nat}

/-- State before position `p` of block `m`; `g` is the rest of the array of entries, `out0` the array of bytes
before the loop. -/
structure EncInvS (ty : MpeType) (t : Vec Byte) (L TH SL : Nat) (out0 fl : Vec (Option Byte)) (g : Nat → Option Nat)
    (m p : Nat) (s : EncS) : Prop where
  slen : s.sel.len = SL
  ev : ∀ k, k ≤ nbk t L → s.sel.f (2 * k) = some (en t L k - 1)
  od : ∀ k, k ≤ nbk t L → s.sel.f (2 * k + 1) = some (if k ≤ m then offS ty t L TH k else 0)
  rest : ∀ y, 2 * nbk t L + 2 ≤ y → s.sel.f y = g y
  blen : s.out.len = out0.len
  bk : s.bk = m + 1
  kind : ∃ b, fl.f m = some b ∧ s.kind = b.toNat
  fin : ∀ k, k < m → DataS ty t L TH k s.out
  keeps : Keeps out0 s.out
  sp : sparse t L TH m = true → s.bc = offS ty t L TH m + 4 * (T t p - m * L) ∧
    ∀ j, j < T t p - m * L → ∀ b, b < 4 →
      s.out.f (offS ty t L TH m + 4 * j + b) = some (BitVec.ofNat 8 (sel t (m * L + 1 + j) >>> (8 * b)))
  ns : sparse t L TH m = false → s.bc = offS ty t L TH m
  ble : s.bc ≤ out0.len

theorem EncInvS.bc_ge {SL : Nat} {out0 fl : Vec (Option Byte)} {g : Nat → Option Nat} {m p : Nat} {s : EncS}
    (h : EncInvS ty t L TH SL out0 fl g m p s) : offS ty t L TH m ≤ s.bc := by
  cases h1 : sparse t L TH m
  · rw [h.ns h1]; exact Nat.le_refl _
  · rw [(h.sp h1).1]; omega

/-- How the loop fails. -/
def FailS (ty : MpeType) (t : Vec Byte) (L TH : Nat) (out0 fl : Vec (Option Byte)) (f : Fault) : Prop :=
  (f = .oob ∧ out0.len < offS ty t L TH (nbk t L)) ∨ (f = .uninit ∧ fl.f (nbk t L - 1) = none)

theorem fin_frame {m : Nat} {a b : Vec (Option Byte)} (h : ∀ k, k < m → DataS ty t L TH k a)
    (he : ∀ y, y < offS ty t L TH m → b.f y = a.f y) : ∀ k, k < m → DataS ty t L TH k b := by
  intro k hk
  refine (h k hk).frame (fun y hy => ?_)
  have := offS_mono (ty := ty) (t := t) (L := L) (TH := TH) (show k + 1 ≤ m from hk)
  exact he y (by omega)

theorem encPos_ok {SL : Nat} {out0 fl : Vec (Option Byte)} {g : Nat → Option Nat} (hL : 1 ≤ L) {m p : Nat} {s : EncS}
    (hlt : m < nbk t L) (hlo : en t L m ≤ p) (hp : p + 1 < en t L (m + 1))
    (h : EncInvS ty t L TH SL out0 fl g m p s) (hsp : sparse t L TH m = true) (hb : tbit t p = true) :
    (∃ s', putPosS s p = ok s' ∧ EncInvS ty t L TH SL out0 fl g m (p + 1) s') ∨
      ∃ f, putPosS s p = ub f ∧ FailS ty t L TH out0 fl f := by
  have hen := en_le (t := t) (L := L) hL (show m + 1 ≤ nbk t L from hlt)
  have hoff := offS_mono (ty := ty) (t := t) (L := L) (TH := TH) (show m + 1 ≤ nbk t L from hlt)
  rw [offS_succ, wdS_sparse hsp] at hoff
  have hbl := h.blen
  have hge := h.bc_ge
  obtain ⟨c1, c2⟩ := h.sp hsp
  have hTin := T_in hL hlt (show en t L m ≤ p + 1 by omega) (by omega)
  have hTp := (T_in hL hlt hlo (by omega)).1
  have hob := ob_sq hL hlt
  have hT := T_succ t p
  rw [hb] at hT
  have hT' : T t (p + 1) = T t p + 1 := hT
  have hsq : T t (p + 1) - m * L ≤ sq t L m := by
    by_cases hk : m < tot t / L
    · have := hob.1 hk; omega
    · have := hob.2 hk; omega
  by_cases hroom : s.bc + 4 ≤ s.out.len
  · left
    obtain ⟨o, e, o1, o2, o3, o4⟩ := putPosS_ok (p := p) hroom
    rw [e]
    refine ⟨_, rfl, h.slen, h.ev, h.od, h.rest, o1.trans hbl, h.bk, h.kind,
      fin_frame h.fin (fun y hy => o3 y (by omega)), h.keeps.trans o4, fun _ => ?_, fun hh => (by rw [hsp] at hh; cases hh), by show s.bc + 4 ≤ _; omega⟩
    rw [hT']
    refine ⟨by show s.bc + 4 = _; omega, ?_⟩
    intro j hj b hb'
    show o.f _ = _
    by_cases hjj : j = T t p - m * L
    · rw [show offS ty t L TH m + 4 * j + b = s.bc + b by omega, o2 b hb']
      have : sel t (m * L + 1 + j) = p := sel_eq (by omega) hb (by omega)
      rw [this]
    · rw [o3 _ (by omega), c2 j (by omega) b hb']
  · right
    rw [putPosS_oob hroom]
    exact ⟨_, rfl, Or.inl ⟨rfl, by omega⟩⟩

theorem encStay {SL : Nat} {out0 fl : Vec (Option Byte)} {g : Nat → Option Nat} {m p : Nat} {s : EncS}
    (h : EncInvS ty t L TH SL out0 fl g m p s) (hb : sparse t L TH m = true → tbit t p = false) :
    EncInvS ty t L TH SL out0 fl g m (p + 1) s := by
  refine ⟨h.slen, h.ev, h.od, h.rest, h.blen, h.bk, h.kind, h.fin, h.keeps, fun hsp => ?_, h.ns, h.ble⟩
  have hT := T_succ t p
  rw [hb hsp] at hT
  rw [hT]
  exact h.sp hsp

/-- The bytes of a complete block. -/
theorem encBody_ok {SL : Nat} {out0 fl : Vec (Option Byte)} {g : Nat → Option Nat} (hL : 1 ≤ L) (hlen : t.len < 2 ^ 29)
    (hfl : FlagsOK ty t L TH fl)
    {m p : Nat} {s : EncS} {w : Walk} (hlo : en t L m ≤ p) (hp : p + 1 = en t L (m + 1)) (hm : m + 1 < nbk t L)
    (h : EncInvS ty t L TH SL out0 fl g m p s) (hw : WalkEnd t L TH m w) :
    (∃ o, (if !w.sparse && !w.mono then
      if s.kind = 3 ∨ s.kind = 1 ∨ s.kind = 2 then encComp TH s.kind w s else s.copy w.con
      else ok s) = ok { s with out := o, bc := offS ty t L TH (m + 1) } ∧ o.len = s.out.len ∧
      (∀ k, k < m + 1 → DataS ty t L TH k o) ∧ Keeps s.out o ∧ offS ty t L TH (m + 1) ≤ out0.len) ∨
    ((if !w.sparse && !w.mono then
      if s.kind = 3 ∨ s.kind = 1 ∨ s.kind = 2 then encComp TH s.kind w s else s.copy w.con
      else ok s) = ub .oob ∧ out0.len < offS ty t L TH (nbk t L)) := by
  have hble := h.ble
  have hlt : m < nbk t L := by omega
  have hoff := offS_mono (ty := ty) (t := t) (L := L) (TH := TH) (show m + 1 ≤ nbk t L from hlt)
  have hbl := h.blen
  have hfr : ∀ (o : Vec (Option Byte)), (∀ y, y < offS ty t L TH m → o.f y = s.out.f y) → DataS ty t L TH m o →
      ∀ k, k < m + 1 → DataS ty t L TH k o := by
    intro o ho hd k hk
    by_cases hkm : k = m
    · rw [hkm]; exact hd
    · exact fin_frame h.fin ho k (by omega)
  rw [dense_flags hw.fsp hw.fmo]
  by_cases hd : Dense t L TH m
  · rw [if_pos (decide_eq_true hd)]
    have hbc := h.ns hd.1
    have hkd : s.kind = ks ty t L TH m := by
      obtain ⟨b, hb1, hb2⟩ := h.kind
      rw [hfl.val m hm] at hb1
      injection hb1 with hb1
      have := ks_lt (ty := ty) (t := t) (L := L) (TH := TH) m
      rw [hb2, ← hb1, BitVec.toNat_ofNat]
      omega
    have hlt4 := ks_lt (ty := ty) (t := t) (L := L) (TH := TH) m
    by_cases hk : ks ty t L TH m = 0
    · rw [if_neg (by omega)]
      have hwd := wdS_dense hd hk
      rw [offS_succ] at hoff
      by_cases hr : s.bc + nby t L m ≤ s.out.len
      case neg =>
        right
        rw [copyS_oob (hw.con hd) hr (by omega)]
        exact ⟨rfl, by omega⟩
      left
      obtain ⟨o, e, o1, o2, o3, o4⟩ := copyS_ok (s := s) (hw.con hd) hr
      rw [e]
      rw [hbc] at o2 o3
      refine ⟨o, by rw [offS_succ, hwd, hbc], o1, hfr o o3 ⟨fun hh => absurd hh hd.not_sparse, fun _ _ => o2, fun hh => absurd hk hh⟩, o4, by rw [offS_succ]; omega⟩
    · rw [if_pos (by omega), hkd]
      have hwd := wdS_comp hk
      rw [offS_succ] at hoff
      by_cases hr : s.bc + (hdS (ks ty t L TH m) (tbs t L m) + 2 * kp (ks ty t L TH m) (bb t L m) (nby t L m / 2) + nby t L m % 2) ≤ s.out.len
      case neg =>
        right
        rw [encComp_oob hL hlen hm hd (by omega) hw hr]
        exact ⟨rfl, by omega⟩
      left
      obtain ⟨o, e, o1, o2, o3, o4⟩ := encComp_ok (k := ks ty t L TH m) (s := s) hL hlen hm hd (by omega) hw (by omega)
      rw [e]
      rw [hbc] at o2 o3
      refine ⟨o, by rw [offS_succ, hwd, hbc, hkd], o1, hfr o o3 ⟨fun hh => absurd hh hd.not_sparse, fun _ hh => absurd hh hk, fun _ => o2⟩, o4, by rw [offS_succ]; omega⟩
  · rw [if_neg (by simp [hd])]
    have hk := ks_not (ty := ty) hd
    cases hsp : sparse t L TH m
    · have hmo : mono t L TH m = true := by
        cases hmo : mono t L TH m
        · exact absurd ⟨hsp, hmo⟩ hd
        · rfl
      have hbc := h.ns hsp
      left
      refine ⟨s.out, by rw [offS_succ, wdS_mono hsp hmo, Nat.add_zero, ← hbc], rfl, hfr _ (fun _ _ => rfl)
        ⟨fun hh => ?_, fun hh => absurd hh hd, fun hh => absurd hk hh⟩, Keeps.refl _, by rw [offS_succ, wdS_mono hsp hmo]; omega⟩
      rw [hsp] at hh; cases hh
    · obtain ⟨c1, c2⟩ := h.sp hsp
      have hTl := (en_last hL hlt).2.2.2.2
      have hob := (ob_sq hL hlt).1 (full_of_lt hm)
      rw [show en t L (m + 1) - 1 = p by omega] at hTl
      left
      refine ⟨s.out, ?_, rfl, hfr _ (fun _ _ => rfl)
        ⟨fun _ j hj b hb => c2 j (by omega) b hb, fun hh => absurd hh hd, fun hh => absurd hk hh⟩, Keeps.refl _, by rw [offS_succ, wdS_sparse hsp]; omega⟩
      rw [offS_succ, wdS_sparse hsp, show offS ty t L TH m + 4 * sq t L m = s.bc by omega]

theorem encNext_ok {SL : Nat} {out0 fl : Vec (Option Byte)} {g : Nat → Option Nat} (hL : 1 ≤ L) (hlen : t.len < 2 ^ 29)
    (hSL : 2 * nbk t L + 2 ≤ SL)
    (hfl : FlagsOK ty t L TH fl)
    {m p : Nat} {s : EncS} {w : Walk} (hlo : en t L m ≤ p) (hp : p + 1 = en t L (m + 1)) (hm : m + 1 < nbk t L)
    (h : EncInvS ty t L TH SL out0 fl g m p s) (hw : WalkEnd t L TH m w) :
    (∃ s', encNext fl TH w s = ok s' ∧ EncInvS ty t L TH SL out0 fl g (m + 1) (p + 1) s') ∨
      ∃ f, encNext fl TH w s = ub f ∧ FailS ty t L TH out0 fl f := by
  unfold encNext
  rcases encBody_ok hL hlen hfl hlo hp hm h hw with ⟨o, e, o1, o2, o3, o5⟩ | ⟨e, hf⟩
  case inr =>
    right
    rw [e]
    exact ⟨_, rfl, Or.inl ⟨rfl, hf⟩⟩
  rw [e, ok_bind]
  simp only []
  have hcn := hw.cnt
  have hsl := h.slen
  have hbk := h.bk
  rw [Vec.set_ok _ (by omega), ok_bind, hbk]
  cases hv : fl.f (m + 1) with
  | none =>
    right
    rw [uget_uninit (by rw [hfl.len]; omega) hv]
    refine ⟨_, rfl, Or.inr ⟨rfl, ?_⟩⟩
    by_cases hm2 : m + 1 + 1 < nbk t L
    · rw [hfl.val _ hm2] at hv; cases hv
    · rw [show nbk t L - 1 = m + 1 by omega]; exact hv
  | some b =>
    left
    rw [uget_ok (by rw [hfl.len]; omega) hv, ok_bind]
    refine ⟨_, rfl, hsl, ?_, ?_, ?_, o1.trans h.blen, rfl, ⟨b, hv, rfl⟩, o2, h.keeps.trans o3, fun _ => ?_, fun _ => rfl, o5⟩
    · intro k hk
      show (if 2 * k = w.cnt + 1 then _ else _) = _
      rw [if_neg (by omega)]; exact h.ev k hk
    · intro k hk
      show (if 2 * k + 1 = w.cnt + 1 then _ else _) = _
      by_cases hkk : k = m + 1
      · rw [if_pos (by omega), if_pos (by omega), hkk]
      · rw [if_neg (by omega), h.od k hk]
        by_cases hkm : k ≤ m
        · rw [if_pos hkm, if_pos (by omega)]
        · rw [if_neg hkm, if_neg (by omega)]
    · intro y hy
      show (if y = w.cnt + 1 then _ else _) = _
      rw [if_neg (by omega)]; exact h.rest y hy
    · rw [hp, T_en hL (by omega), ob_lt hL hm, Nat.sub_self]
      exact ⟨rfl, by intro j hj; omega⟩

/-- What the third loop leaves. -/
structure EncFin (ty : MpeType) (t : Vec Byte) (L TH SL : Nat) (out0 fl : Vec (Option Byte)) (g : Nat → Option Nat)
    (s : EncS) : Prop where
  slen : s.sel.len = SL
  ev : ∀ k, k ≤ nbk t L → s.sel.f (2 * k) = some (en t L k - 1)
  od : ∀ k, k ≤ nbk t L → s.sel.f (2 * k + 1) = some (if k < nbk t L then offS ty t L TH k else 0)
  rest : ∀ y, 2 * nbk t L + 2 ≤ y → s.sel.f y = g y
  blen : s.out.len = out0.len
  room : offS ty t L TH (nbk t L) ≤ out0.len
  data : ∀ k, k < nbk t L → DataS ty t L TH k s.out
  keeps : Keeps out0 s.out
  flag : fl.f (nbk t L - 1) ≠ none

theorem encLast_ok {SL : Nat} {out0 fl : Vec (Option Byte)} {g : Nat → Option Nat} (hL : 1 ≤ L)
    {m p : Nat} {s : EncS} {w : Walk} (hp : p + 1 = en t L (m + 1)) (hm : m + 1 = nbk t L)
    (h : EncInvS ty t L TH SL out0 fl g m p s) (hw : WalkAt t L TH m p (2 * (m + 1)) w) :
    (∃ s', encLast L (tot t) true p w s = ok s' ∧ EncFin ty t L TH SL out0 fl g s') ∨
      ∃ f, encLast L (tot t) true p w s = ub f ∧ FailS ty t L TH out0 fl f := by
  have hlt := hw.lt
  have hlo := hw.lo
  have hod : ∀ k, k ≤ nbk t L → s.sel.f (2 * k + 1) = some (if k < nbk t L then offS ty t L TH k else 0) := by
    intro k hk
    rw [h.od k hk]
    by_cases hkm : k ≤ m
    · rw [if_pos hkm, if_pos (by omega)]
    · rw [if_neg hkm, if_neg (by omega)]
  have hbl := h.blen
  have hble := h.ble
  have hge := h.bc_ge
  have hoe : offS ty t L TH (nbk t L) = offS ty t L TH m + wdS ty t L TH m := by rw [← hm, offS_succ]
  have hfr : ∀ (o : Vec (Option Byte)), (∀ y, y < offS ty t L TH m → o.f y = s.out.f y) → DataS ty t L TH m o →
      ∀ k, k < nbk t L → DataS ty t L TH k o := by
    intro o ho hd k hk
    by_cases hkm : k = m
    · rw [hkm]; exact hd
    · exact fin_frame h.fin ho k (by omega)
  have hflag : fl.f (nbk t L - 1) ≠ none := by
    obtain ⟨b, hb, -⟩ := h.kind
    rw [← hm, Nat.add_sub_cancel, hb]
    exact Option.some_ne_none _
  have k0 : ks ty t L TH m = 0 := ks_last (by omega)
  have hflg := dense_flags hw.fsp hw.fmo
  have hcopy : ∀ c : Con, Dense t L TH m → ConDone t L m c →
      (∃ s', s.copy c = ok s' ∧ EncFin ty t L TH SL out0 fl g s') ∨ ∃ f, s.copy c = ub f ∧ FailS ty t L TH out0 fl f := by
    intro c hd hc
    have hwd := wdS_dense hd k0
    have hbc := h.ns hd.1
    by_cases hr : s.bc + nby t L m ≤ s.out.len
    case neg =>
      right
      rw [copyS_oob hc hr (by omega)]
      exact ⟨_, rfl, Or.inl ⟨rfl, by omega⟩⟩
    left
    obtain ⟨o, e, o1, o2, o3, o4⟩ := copyS_ok (s := s) hc (by omega)
    rw [hbc] at o2 o3
    exact ⟨_, e, h.slen, h.ev, hod, h.rest, o1.trans hbl, by omega,
      hfr o o3 ⟨fun hh => absurd hh hd.not_sparse, fun _ _ => o2, fun hh => absurd k0 hh⟩, h.keeps.trans o4, hflag⟩
  have hmono : sparse t L TH m = false → ¬ Dense t L TH m → EncFin ty t L TH SL out0 fl g s := by
    intro hsp hd
    have hmo : mono t L TH m = true := by
      cases hmo : mono t L TH m
      · exact absurd ⟨hsp, hmo⟩ hd
      · rfl
    exact ⟨h.slen, h.ev, hod, h.rest, hbl, by rw [hoe, wdS_mono hsp hmo, Nat.add_zero, ← h.ns hsp]; exact hble, hfr _ (fun _ _ => rfl)
      ⟨fun hh => (by rw [hsp] at hh; cases hh), fun hh => absurd hh hd, fun hh => absurd k0 hh⟩, h.keeps, hflag⟩
  unfold encLast
  by_cases hr : tot t % L > 0
  · rw [if_pos hr]
    have hnK : ¬ m < tot t / L := by
      have : nbk t L = tot t / L + 1 := by unfold nbk; rw [if_pos hr]
      omega
    cases hsp : sparse t L TH m
    · rw [if_neg (by rw [hw.fsp, hsp]; simp), ok_bind, hflg]
      by_cases hd : Dense t L TH m
      · rw [if_pos (decide_eq_true hd), if_pos rfl]
        obtain ⟨c', e, hc⟩ := Con.last_ok hL hlt hlo (hw.con hd) hp hnK hw.clen hd
        rw [e, ok_bind]
        exact hcopy c' hd hc
      · left
        rw [if_neg (by simp [hd])]
        exact ⟨s, rfl, hmono hsp hd⟩
    · rw [if_pos (by rw [hw.fsp, hsp]; rfl)]
      obtain ⟨c1, c2⟩ := h.sp hsp
      have hwd := wdS_sparse (ty := ty) hsp
      have hTl := (en_last hL hlt).2.2.2
      have hob := ((ob_sq hL hlt).2 hnK).1
      have hTp := (T_in hL hlt hlo hw.hi).1
      rw [show en t L (m + 1) - 1 = p by omega] at hTl
      have hpl : p < 8 * t.len := by
        have := (en_last hL hlt).2.2.1
        omega
      have hd : ¬ Dense t L TH m := fun hd => hd.not_sparse hsp
      by_cases hroom : s.bc + 4 ≤ s.out.len
      · left
        obtain ⟨o, e, o1, o2, o3, o4⟩ := putPosS_ok (s := s) (p := p) hroom
        rw [e, ok_bind, hflg, if_neg (by simp [hd])]
        refine ⟨_, rfl, h.slen, h.ev, hod, h.rest, o1.trans hbl, by omega,
          hfr _ (fun y hy => o3 y (by omega)) ⟨fun _ j hj b hb => ?_, fun hh => absurd hh hd, fun hh => absurd k0 hh⟩,
          h.keeps.trans o4, hflag⟩
        by_cases hjj : j = T t p - m * L
        · rw [show offS ty t L TH m + 4 * j + b = s.bc + b by omega]
          rw [o2 b hb]
          have : sel t (m * L + 1 + j) = p := sel_eq hpl hTl.1 (by omega)
          rw [this]
        · rw [o3 _ (by omega)]
          exact c2 j (by omega) b hb
      · right
        rw [putPosS_oob hroom]
        exact ⟨_, rfl, Or.inl ⟨rfl, by omega⟩⟩
  · rw [if_neg hr, Bool.and_comm, hflg]
    have hK : m < tot t / L := by
      have : nbk t L = tot t / L := by unfold nbk; rw [if_neg hr, Nat.add_zero]
      omega
    by_cases hd : Dense t L TH m
    · rw [if_pos (decide_eq_true hd)]
      obtain ⟨w', e, hw'⟩ := Walk.flush_ok hL hw hp hK
      rw [e, ok_bind]
      exact hcopy _ hd (hw'.con hd)
    · left
      rw [if_neg (by simp [hd])]
      cases hsp : sparse t L TH m
      · exact ⟨s, rfl, hmono hsp hd⟩
      · obtain ⟨c1, c2⟩ := h.sp hsp
        have hTl := (en_last hL hlt).2.2.2.2
        have hob := (ob_sq hL hlt).1 hK
        rw [show en t L (m + 1) - 1 = p by omega] at hTl
        exact ⟨s, rfl, h.slen, h.ev, hod, h.rest, hbl, by rw [hoe, wdS_sparse hsp]; omega, hfr _ (fun _ _ => rfl)
          ⟨fun _ j hj b hb => c2 j (by omega) b hb, fun hh => absurd hh hd, fun hh => absurd k0 hh⟩, h.keeps, hflag⟩

/-- The third loop: the blocks are in place, or the array of bytes is too short, or the flag of the last block
was never written. -/
theorem encLoop_ok {SL : Nat} {out0 fl : Vec (Option Byte)} {v : Vec (Option Nat)} (hL : 1 ≤ L) (hlen : t.len < 2 ^ 29)
    (hn : 0 < nbk t L) (hv : Evens t L v) (hvl : v.len = SL) (hod : ∀ k, k ≤ nbk t L → v.f (2 * k + 1) = some 0)
    (hfl : FlagsOK ty t L TH fl)
    {b : Byte} (hb : fl.f 0 = some b) {w : Walk} (hw : WalkAt t L TH 0 0 0 w) :
    (∃ w' s, walkS (encActs fl L TH (tot t)) L TH t (2 * nbk t L) (8 * t.len) 0 w ⟨v, out0, 0, 1, b.toNat⟩ = ok (w', s) ∧
      w'.cnt = 2 * nbk t L ∧ EncFin ty t L TH SL out0 fl v.f s) ∨
      ∃ f, walkS (encActs fl L TH (tot t)) L TH t (2 * nbk t L) (8 * t.len) 0 w ⟨v, out0, 0, 1, b.toNat⟩ = ub f ∧
        FailS ty t L TH out0 fl f := by
  have hSL : 2 * nbk t L + 2 ≤ SL := by rw [← hvl]; exact hv.len
  refine walkS_ok (I := EncInvS ty t L TH SL out0 fl v.f) (F := EncFin ty t L TH SL out0 fl v.f)
    (Fail := FailS ty t L TH out0 fl) hL hlen ?_ ?_ ?_ ?_ ?_ (8 * t.len) 0 0 w _ (by omega) hw ?_
  · exact fun m p s h => ⟨by show _ ≤ s.sel.len; rw [h.slen]; exact hSL, h.ev⟩
  · exact fun m p s _ _ _ h hb => encStay h hb
  · exact fun m p s hlt hlo hp h hsp hb => encPos_ok hL hlt hlo hp h hsp hb
  · exact fun m p w s hlo hp hm h hw => encNext_ok hL hlen hSL hfl hlo hp hm h hw
  · intro m p w s hp hm h hw
    exact encLast_ok hL hp hm h hw
  · refine ⟨hvl, hv.ev, fun k hk => ?_, fun _ _ => rfl, rfl, rfl, ⟨b, hb, rfl⟩, by intro k hk; omega, Keeps.refl _, fun _ => ?_,
      fun _ => rfl, Nat.zero_le _⟩
    · show v.f _ = _
      rw [hod k hk]
      by_cases h0 : k ≤ 0
      · rw [if_pos h0, show k = 0 by omega]; rfl
      · rw [if_neg h0]
    · rw [T_zero]
      exact ⟨by show 0 = 0 + 4 * (0 - 0 * L); omega, by intro j hj; omega⟩

/-- Offsets of the temporary array: those of the padding are those of the last block. -/
def oS (ty : MpeType) (t : Vec Byte) (L TH k : Nat) : Nat := offS ty t L TH (min k (nbk t L - 1))

/-- What the third loop and the two loops after it leave. -/
structure EncDone (ty : MpeType) (t : Vec Byte) (L TH N : Nat) (out0 fl : Vec (Option Byte)) (s : EncS) : Prop where
  slen : s.sel.len = 32 * N
  ev : ∀ k, k < 16 * N → s.sel.f (2 * k) = some (hv t L k)
  od : ∀ k, k < 16 * N → s.sel.f (2 * k + 1) = some (oS ty t L TH k)
  blen : s.out.len = out0.len
  room : offS ty t L TH (nbk t L) ≤ out0.len
  data : ∀ k, k < nbk t L → DataS ty t L TH k s.out
  keeps : Keeps out0 s.out
  flag : fl.f (nbk t L - 1) ≠ none

theorem encInc {v : Vec (Option Nat)} {SL : Nat} (hL : 1 ≤ L) (hlen : t.len < 2 ^ 29) (hSL : 2 * nbk t L + 2 ≤ SL)
    (hv : v.len = SL) (ev : ∀ k, k ≤ nbk t L → v.f (2 * k) = some (en t L k - 1)) :
    ∃ w, forN ((2 * nbk t L + 2) / 2 - 1) (fun k (v : Vec (Option Nat)) => do
        let x ← uget v (2 + 2 * k)
        v.set (2 + 2 * k) (some (add32 x 1))) v = ok w ∧ w.len = SL ∧
      (∀ k, k ≤ nbk t L → w.f (2 * k) = some (en t L k)) ∧ (∀ k, nbk t L < k → w.f (2 * k) = v.f (2 * k)) ∧
      ∀ k, w.f (2 * k + 1) = v.f (2 * k + 1) := by
  obtain ⟨w, e, h1, h2, h3, h4⟩ := forN_inv
    (body := fun k (v : Vec (Option Nat)) => do
      let x ← uget v (2 + 2 * k)
      v.set (2 + 2 * k) (some (add32 x 1)))
    (fun j w => w.len = SL ∧ (∀ k, k ≤ nbk t L → w.f (2 * k) = some (if k ≤ j then en t L k else en t L k - 1)) ∧
      (∀ k, nbk t L < k → w.f (2 * k) = v.f (2 * k)) ∧ ∀ k, w.f (2 * k + 1) = v.f (2 * k + 1))
    ((2 * nbk t L + 2) / 2 - 1) v
    ⟨hv, by
      intro k hk
      rw [ev k hk]
      by_cases hk0 : k ≤ 0
      · rw [if_pos hk0, show k = 0 by omega]; rfl
      · rw [if_neg hk0], fun _ _ => rfl, fun _ => rfl⟩
    (by
      intro j v' hj ⟨v1, v2, v3, v4⟩
      have hx := v2 (j + 1) (by omega)
      rw [if_neg (by omega)] at hx
      have hpos := en_lt (t := t) (L := L) (m := j) hL (by omega)
      have hle := en_le (t := t) (L := L) (m := j + 1) hL (by omega)
      have ha : add32 (en t L (j + 1) - 1) 1 = en t L (j + 1) := by
        unfold add32
        rw [Nat.mod_eq_of_lt (by simp only [W32]; omega)]
        omega
      rw [uget_ok (i := 2 + 2 * j) (a := en t L (j + 1) - 1) (by omega)
        (by rw [show 2 + 2 * j = 2 * (j + 1) by omega]; exact hx), ok_bind, Vec.set_ok _ (by omega)]
      refine ⟨_, rfl, v1, ?_, ?_, ?_⟩
      · intro k hk
        show (if 2 * k = 2 + 2 * j then _ else _) = _
        by_cases hkj : k = j + 1
        · rw [if_pos (by omega), if_pos (by omega), hkj, ha]
        · rw [if_neg (by omega), v2 k hk]
          by_cases hk' : k ≤ j
          · rw [if_pos hk', if_pos (by omega)]
          · rw [if_neg hk', if_neg (by omega)]
      · intro k hk
        show (if 2 * k = 2 + 2 * j then _ else _) = _
        rw [if_neg (by omega), v3 k hk]
      · intro k
        show (if 2 * k + 1 = 2 + 2 * j then _ else _) = _
        rw [if_neg (by omega), v4 k])
  refine ⟨w, e, h1, fun k hk => ?_, h3, h4⟩
  rw [h2 k hk, if_pos (by omega)]

theorem encodeS_ok {N : Nat} {out0 fl : Vec (Option Byte)} {v : Vec (Option Nat)} (hL : 1 ≤ L) (hlen : t.len < 2 ^ 29)
    (hn : 0 < nbk t L) (hN : nbk t L < 16 * N) (hvl : v.len = 32 * N)
    (hev : ∀ m, m ≤ nbk t L → v.f (2 * m) = some (en t L m - 1) ∧ v.f (2 * m + 1) = some 0)
    (hz : ∀ y, 2 * nbk t L + 2 ≤ y → y < 32 * N → v.f y = some 0) (hfl : FlagsOK ty t L TH fl)
    (hE2 : 2 * nbk t L + 2 < W32) :
    (∃ s, encodeS L TH t (tot t) (2 * nbk t L + 2) (32 * N) fl out0 v = ok s ∧ EncDone ty t L TH N out0 fl s) ∨
      ∃ f, encodeS L TH t (tot t) (2 * nbk t L + 2) (32 * N) fl out0 v = ub f ∧ FailS ty t L TH out0 fl f := by
  have hE : Evens t L v := ⟨by omega, fun k hk => (hev k hk).1⟩
  obtain ⟨w, ew, hw⟩ := walkStart_ok (TH := TH) hL hlen hn hE
  unfold encodeS
  rw [ew, ok_bind, sub32_eq (by omega) hE2, Nat.add_sub_cancel]
  cases hb : fl.f 0 with
  | none =>
    right
    rw [uget_uninit (by rw [hfl.len]; exact hn) hb]
    refine ⟨_, rfl, Or.inr ⟨rfl, ?_⟩⟩
    have : ¬ 1 < nbk t L := fun h => by
      have := hfl.val 0 (by omega)
      rw [hb] at this
      cases this
    rw [show nbk t L - 1 = 0 by omega, hb]
  | some b =>
    rw [uget_ok (by rw [hfl.len]; exact hn) hb, ok_bind]
    rcases encLoop_ok (SL := 32 * N) (out0 := out0) hL hlen hn hE hvl (fun k hk => (hev k hk).2) hfl hb hw with
      ⟨w', s, e, hc, hs⟩ | ⟨f, e, hf⟩
    · left
      rw [e, ok_bind]
      simp only [hc]
      rw [sub32_eq (by omega) (by omega)]
      have ho := hs.od (nbk t L - 1) (by omega)
      rw [if_pos (by omega)] at ho
      obtain ⟨v1, e1, a1, a2, a3, a4⟩ := encPad (c := nbk t L - 1) hs.slen (by omega) ho
      rw [show 2 * (nbk t L - 1 + 1) = 2 * nbk t L by omega,
        show 2 * (nbk t L - 1) + 1 = 2 * nbk t L - 1 by omega] at e1
      rw [e1, ok_bind]
      obtain ⟨v2, e2, b1, b2, b3, b4⟩ := encInc (SL := 32 * N) hL hlen (by omega) a1
        (fun k hk => (a2 k).trans (hs.ev k hk))
      rw [e2, ok_bind]
      refine ⟨_, rfl, b1, fun k hk => ?_, fun k hk => ?_, hs.blen, hs.room, hs.data, hs.keeps, hs.flag⟩
      · show v2.f (2 * k) = _
        unfold hv
        by_cases hk' : k ≤ nbk t L
        · rw [if_pos hk', b2 k hk']
        · rw [if_neg hk', b3 k (by omega), a2, hs.rest _ (by omega), hz _ (by omega) (by omega)]
      · show v2.f (2 * k + 1) = _
        rw [b4]
        unfold oS
        by_cases hk' : k ≤ nbk t L - 1
        · rw [a3 k hk', hs.od k (by omega), if_pos (by omega), Nat.min_eq_left hk']
        · rw [a4 k (by omega) hk, Nat.min_eq_right (by omega)]
    · right
      rw [e]
      exact ⟨f, rfl, hf⟩

end MRS.Mran.S32
