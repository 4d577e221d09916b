import Verif.Proofs.Mranisz.SelBuild

/-! # Compressed select: the second loop -/

set_option autoImplicit false

namespace MRS.Mran
open Outcome Spec Poppy

variable {t : Vec Byte} {L TH : Nat}

/-! ## Stores -/

theorem put_ok {s : Sel2} {x : Byte} (h : s.bc < s.bits.len) :
    s.put x = ok { s with bits := ⟨s.bits.len, fun j => if j = s.bc then some x else s.bits.f j⟩,
                          bc := s.bc + 1 } := by
  unfold Sel2.put
  rw [Vec.set_ok _ h]
  rfl

theorem put_oob {s : Sel2} {x : Byte} (h : ¬ s.bc < s.bits.len) : s.put x = ub .oob := by
  unfold Sel2.put Vec.set
  rw [if_neg h]
  rfl

theorem putPos_ok {s : Sel2} {p : Nat} (h : s.bc + 8 ≤ s.bits.len) :
    ∃ o, s.putPos p = ok { s with bits := o, bc := s.bc + 8 } ∧ o.len = s.bits.len ∧
      (∀ b, b < 8 → o.f (s.bc + b) = some (BitVec.ofNat 8 (p >>> (8 * b)))) ∧
      ∀ y, y < s.bc → o.f y = s.bits.f y := by
  unfold Sel2.putPos
  obtain ⟨s', e, o, h1, h2, h3, h4⟩ := forN_inv
    (body := fun k (s : Sel2) => s.put (BitVec.ofNat 8 (p >>> (8 * k))))
    (fun k s' => ∃ o, s' = { s with bits := o, bc := s.bc + k } ∧ o.len = s.bits.len ∧
      (∀ b, b < k → o.f (s.bc + b) = some (BitVec.ofNat 8 (p >>> (8 * b)))) ∧
      ∀ y, y < s.bc → o.f y = s.bits.f y) 8 s
    ⟨s.bits, rfl, rfl, by intro b hb; omega, fun _ _ => rfl⟩
    (by
      intro k s' hk ⟨o, h1, h2, h3, h4⟩
      subst h1
      rw [put_ok (by show s.bc + k < o.len; omega)]
      refine ⟨_, rfl, _, rfl, h2, ?_, ?_⟩
      · intro b hb
        show (if s.bc + b = s.bc + k then _ else _) = _
        by_cases hbk : b = k
        · rw [if_pos (by omega), hbk]
        · rw [if_neg (by omega), h3 b (by omega)]
      · intro y hy
        show (if y = s.bc + k then _ else _) = _
        rw [if_neg (by omega), h4 y hy])
  subst h1
  exact ⟨o, e, h2, h3, h4⟩

theorem putPos_oob {s : Sel2} {p : Nat} (h : ¬ s.bc + 8 ≤ s.bits.len) : s.putPos p = ub .oob := by
  have key : ∀ n k (s : Sel2), ¬ s.bc + n ≤ s.bits.len → 0 < n →
      forFrom k n (fun k (s : Sel2) => s.put (BitVec.ofNat 8 (p >>> (8 * k)))) s = ub .oob := by
    intro n
    induction n with
    | zero => intro k s _ h; omega
    | succ n ih =>
      intro k s hs _
      unfold forFrom
      simp only []
      by_cases hb : s.bc < s.bits.len
      · rw [put_ok hb, ok_bind]
        refine ih _ _ ?_ (by omega)
        show ¬ s.bc + 1 + n ≤ s.bits.len
        omega
      · rw [put_oob hb]; rfl
  exact key 8 0 s h (by omega)

/-! ## The invariant -/

theorem ob_sq (hL : 1 ≤ L) {m : Nat} (h : m < nbk t L) :
    (m < tot t / L → m * L + sq t L m + 1 = ob t L (m + 1)) ∧
    (¬ m < tot t / L → m * L + sq t L m = ob t L (m + 1) ∧ m + 1 = nbk t L ∧ tot t % L > 0) := by
  have h1 := Nat.div_add_mod (tot t) L
  rw [Nat.mul_comm] at h1
  unfold sq
  refine ⟨fun hm => ?_, fun hm => ?_⟩
  · rw [if_pos hm, ob_full (by omega), Nat.add_mul, Nat.one_mul]; omega
  · rw [if_neg hm]
    have hK : m = tot t / L ∧ tot t % L > 0 := by
      unfold nbk at h
      by_cases hr : tot t % L > 0
      · rw [if_pos hr] at h; omega
      · rw [if_neg hr] at h; omega
    have hn : m + 1 = nbk t L := by unfold nbk; rw [if_pos hK.2]; omega
    refine ⟨?_, hn, hK.2⟩
    rw [hn, ob_all hL, hK.1]; omega

/-- What has been written of block `m` before position `p`. -/
structure Cur (t : Vec Byte) (L TH m p : Nat) (s : Sel2) : Prop where
  sp : sparse t L TH m = true → s.bc = off t L TH m + 8 * (T t p - m * L) ∧
    ∀ j, j < T t p - m * L → ∀ b, b < 8 →
      s.bits.f (off t L TH m + 8 * j + b) = some (BitVec.ofNat 8 (sel t (m * L + 1 + j) >>> (8 * b)))
  mo : sparse t L TH m = false → mono t L TH m = true → s.bc = off t L TH m
  de : sparse t L TH m = false → mono t L TH m = false →
    s.bc = off t L TH m + (p - en t L m) / 8 ∧ s.bpos = 7 - (p - en t L m) % 8 ∧
    s.btw = bacc t (en t L m + 8 * ((p - en t L m) / 8)) ((p - en t L m) % 8) ∧
    ∀ y, y < (p - en t L m) / 8 → s.bits.f (off t L TH m + y) = some (bacc t (en t L m + 8 * y) 8)

/-- State before position `p` of block `m`; `g` is the rest of the array of entries. -/
structure S2Inv (t : Vec Byte) (L TH SL BL : Nat) (g : Nat → Option Nat) (m p : Nat) (s : Sel2) : Prop where
  lt : m < nbk t L
  lo : en t L m ≤ p
  hi : p < en t L (m + 1)
  cnt : s.cnt = 2 * m
  up : s.upTo = en t L (m + 1) - 1
  fsp : s.sparse = sparse t L TH m
  fmo : s.mono = mono t L TH m
  slen : s.sel.len = SL
  ev : ∀ k, k ≤ nbk t L → s.sel.f (2 * k) = some (en t L k - 1)
  od : ∀ k, k ≤ nbk t L → s.sel.f (2 * k + 1) = some (if k ≤ m then off t L TH k else 0)
  rest : ∀ y, 2 * nbk t L + 2 ≤ y → s.sel.f y = g y
  blen : s.bits.len = BL
  bcle : s.bc ≤ BL
  fin : ∀ k, k < m → Data t L TH k s.bits
  cur : Cur t L TH m p s

theorem bc_ge {m p : Nat} {s : Sel2} (h : Cur t L TH m p s) : off t L TH m ≤ s.bc := by
  cases h1 : sparse t L TH m
  · cases h2 : mono t L TH m
    · rw [(h.de h1 h2).1]; omega
    · rw [h.mo h1 h2]; exact Nat.le_refl _
  · rw [(h.sp h1).1]; omega

theorem sel2In_ok {SL BL m p : Nat} {g : Nat → Option Nat} {s : Sel2} (hL : 1 ≤ L)
    (h : S2Inv t L TH SL BL g m p s) (hp : p + 1 < en t L (m + 1)) :
    (∃ s', sel2In (tbit t p) p s = ok s' ∧ S2Inv t L TH SL BL g m (p + 1) s') ∨
      (sel2In (tbit t p) p s = ub .oob ∧ BL < off t L TH (nbk t L)) := by
  have hlt := h.lt
  have hlo := h.lo
  have hen := en_le (t := t) (L := L) hL (show m + 1 ≤ nbk t L from h.lt)
  have hoff := off_mono (t := t) (L := L) TH (show m + 1 ≤ nbk t L from h.lt)
  rw [off_succ] at hoff
  have hbl := h.blen
  have hsb : p - en t L m + 1 ≤ sb t L m := by
    have := en_succ hL h.lt
    unfold sb
    split <;> omega
  have hge := bc_ge h.cur
  have fm := h.fmo
  have fs := h.fsp
  unfold sel2In
  cases hsp : sparse t L TH m
  · cases hmo : mono t L TH m
    · -- dense
      rw [if_neg (by rw [fm, hmo]; simp), if_neg (by rw [fs, hsp]; simp)]
      obtain ⟨c1, c2, c3, c4⟩ := h.cur.de hsp hmo
      have hsubs : p + 1 - en t L m = (p - en t L m) + 1 := by omega
      have hpos : p = en t L m + 8 * ((p - en t L m) / 8) + (p - en t L m) % 8 := by omega
      have hw : wd t L TH m = (sb t L m + 7) / 8 := by
        unfold wd; rw [hsp, hmo, if_neg (by simp), if_neg (by simp)]
      have hbtw : (if tbit t p = true then s.btw + 1#8 <<< s.bpos else s.btw) =
          bacc t (en t L m + 8 * ((p - en t L m) / 8)) ((p - en t L m) % 8 + 1) := by
        rw [c2, c3]
        show _ = (if tbit t (_ + _) = true then _ else _)
        rw [← hpos]
      have hs' : (if tbit t p = true then { s with btw := s.btw + 1#8 <<< s.bpos } else s) =
          { s with btw := bacc t (en t L m + 8 * ((p - en t L m) / 8)) ((p - en t L m) % 8 + 1) } := by
        rw [← hbtw]
        cases tbit t p <;> rfl
      rw [hs']
      simp only []
      by_cases hz : (p - en t L m) % 8 = 7
      · rw [if_pos (by omega)]
        by_cases hroom : s.bc < s.bits.len
        · left
          rw [put_ok (by exact hroom), ok_bind]
          refine ⟨_, rfl, h.lt, by omega, hp, h.cnt, h.up, h.fsp, h.fmo, h.slen, h.ev, h.od,
            h.rest, hbl, by show s.bc + 1 ≤ BL; omega, ?_, ?_, ?_, ?_⟩
          · intro k hk
            refine (h.fin k hk).frame (fun y hy => ?_)
            have := off_mono (t := t) (L := L) TH (show k + 1 ≤ m from hk)
            show (if y = s.bc then _ else _) = _
            rw [if_neg (by omega)]
          · intro hh; rw [hsp] at hh; cases hh
          · intro _ hh; rw [hmo] at hh; cases hh
          · intro _ _
            have e1 : (p + 1 - en t L m) / 8 = (p - en t L m) / 8 + 1 := by omega
            have e2 : (p + 1 - en t L m) % 8 = 0 := by omega
            rw [e1, e2]
            refine ⟨by show s.bc + 1 = _; omega, rfl, rfl, ?_⟩
            intro y hy
            show (if off t L TH m + y = s.bc then _ else _) = _
            by_cases hyy : y = (p - en t L m) / 8
            · rw [if_pos (by omega), hyy, hz]
            · rw [if_neg (by omega), c4 y (by omega)]
        · right
          rw [put_oob (by exact hroom)]
          exact ⟨rfl, by omega⟩
      · rw [if_neg (by omega)]
        left
        refine ⟨_, rfl, h.lt, by omega, hp, h.cnt, h.up, h.fsp, h.fmo, h.slen, h.ev, h.od,
          h.rest, hbl, h.bcle, h.fin, ?_, ?_, ?_⟩
        · intro hh; rw [hsp] at hh; cases hh
        · intro _ hh; rw [hmo] at hh; cases hh
        · intro _ _
          have e1 : (p + 1 - en t L m) / 8 = (p - en t L m) / 8 := by omega
          have e2 : (p + 1 - en t L m) % 8 = (p - en t L m) % 8 + 1 := by omega
          rw [e1, e2]
          exact ⟨c1, by show s.bpos - 1 = _; omega, rfl, c4⟩
    · rw [if_pos (by rw [fm, hmo])]
      left
      refine ⟨s, rfl, h.lt, by omega, hp, h.cnt, h.up, h.fsp, h.fmo, h.slen, h.ev, h.od, h.rest, hbl, h.bcle,
        h.fin, ?_, ?_, ?_⟩
      · intro hh; rw [hsp] at hh; cases hh
      · exact h.cur.mo
      · intro _ hh; rw [hmo] at hh; cases hh
  · have hmo : mono t L TH m = false := by
      unfold sparse at hsp
      unfold mono
      rw [decide_eq_true_eq] at hsp
      exact decide_eq_false (by omega)
    rw [if_neg (by rw [fm, hmo]; simp), if_pos (by rw [fs, hsp])]
    obtain ⟨c1, c2⟩ := h.cur.sp hsp
    have hw : wd t L TH m = 8 * sq t L m := by unfold wd; rw [hsp, if_pos rfl]
    have hTin := T_in hL h.lt (show en t L m ≤ p + 1 by omega) (by omega)
    have hTp := (T_in hL h.lt h.lo h.hi).1
    have hob := ob_sq hL h.lt
    have hT := T_succ t p
    have hsq : T t (p + 1) - m * L ≤ sq t L m := by
      by_cases hk : m < tot t / L
      · have := hob.1 hk; omega
      · have := hob.2 hk; omega
    cases hb : tbit t p
    · rw [if_neg (by simp)]
      rw [hb] at hT
      have hT' : T t (p + 1) = T t p := hT
      left
      refine ⟨s, rfl, h.lt, by omega, hp, h.cnt, h.up, h.fsp, h.fmo, h.slen, h.ev, h.od, h.rest, hbl, h.bcle,
        h.fin, ?_, ?_, ?_⟩
      · intro _; rw [hT']; exact ⟨c1, c2⟩
      · intro hh; rw [hsp] at hh; cases hh
      · intro hh; rw [hsp] at hh; cases hh
    · rw [if_pos rfl]
      rw [hb] at hT
      have hT' : T t (p + 1) = T t p + 1 := hT
      by_cases hroom : s.bc + 8 ≤ s.bits.len
      · left
        obtain ⟨o, e, o1, o2, o3⟩ := putPos_ok (p := p) hroom
        rw [e]
        refine ⟨_, rfl, h.lt, by omega, hp, h.cnt, h.up, h.fsp, h.fmo, h.slen, h.ev, h.od, h.rest,
          o1.trans hbl, by show s.bc + 8 ≤ BL; omega, ?_, ?_, ?_, ?_⟩
        · intro k hk
          refine (h.fin k hk).frame (fun y hy => ?_)
          have := off_mono (t := t) (L := L) TH (show k + 1 ≤ m from hk)
          exact o3 y (by omega)
        · intro _
          rw [hT']
          refine ⟨by show s.bc + 8 = _; omega, ?_⟩
          intro j hj b hb'
          show o.f _ = _
          by_cases hjj : j = T t p - m * L
          · rw [show off t L TH m + 8 * j + b = s.bc + b by omega, o2 b hb']
            have : sel t (m * L + 1 + j) = p := sel_eq (by omega) hb (by omega)
            rw [this]
          · rw [o3 _ (by omega), c2 j (by omega) b hb']
        · intro hh; rw [hsp] at hh; cases hh
        · intro hh; rw [hsp] at hh; cases hh
      · right
        rw [putPos_oob hroom]
        exact ⟨rfl, by omega⟩

/-! ## Ends of blocks -/

/-- A complete block is in place once its last byte is flushed. -/
theorem flush_ok {SL BL m p : Nat} {g : Nat → Option Nat} {s : Sel2} (hL : 1 ≤ L)
    (h : S2Inv t L TH SL BL g m p s) (hp : p + 1 = en t L (m + 1)) (hm : m < tot t / L) (c : Nat) :
    (∃ o, (if !s.mono && !s.sparse && s.bpos != 7 then ({ s with cnt := c } : Sel2).put s.btw else ok { s with cnt := c }) =
        ok { s with cnt := c, bits := o, bc := off t L TH (m + 1) } ∧ o.len = BL ∧ off t L TH (m + 1) ≤ BL ∧
        (∀ k, k < m + 1 → Data t L TH k o)) ∨
      ((if !s.mono && !s.sparse && s.bpos != 7 then ({ s with cnt := c } : Sel2).put s.btw else ok { s with cnt := c }) = ub .oob ∧
        BL < off t L TH (nbk t L)) := by
  have hlt := h.lt
  have hlo := h.lo
  have hoff := off_mono (t := t) (L := L) TH (show m + 1 ≤ nbk t L from h.lt)
  have hbl := h.blen
  have hle := h.bcle
  have hbs := en_succ hL h.lt
  have hsb : sb t L m = p - en t L m := by
    unfold sb
    rw [if_pos hm]
    omega
  have hge := bc_ge h.cur
  have hfr : ∀ (o : Vec (Option Byte)), (∀ y, y < s.bc → o.f y = s.bits.f y) → Data t L TH m o →
      ∀ k, k < m + 1 → Data t L TH k o := by
    intro o ho hd k hk
    by_cases hkm : k = m
    · rw [hkm]; exact hd
    · refine (h.fin k (by omega)).frame (fun y hy => ?_)
      have := off_mono (t := t) (L := L) TH (show k + 1 ≤ m by omega)
      exact ho y (by omega)
  have fm := h.fmo
  have fs := h.fsp
  cases hsp : sparse t L TH m
  · cases hmo : mono t L TH m
    · obtain ⟨c1, c2, c3, c4⟩ := h.cur.de hsp hmo
      have hw : wd t L TH m = (sb t L m + 7) / 8 := by
        unfold wd; rw [hsp, hmo, if_neg (by simp), if_neg (by simp)]
      rw [off_succ, hw] at hoff ⊢
      by_cases hz : (p - en t L m) % 8 = 0
      · left
        have hb7 : s.bpos = 7 := by omega
        rw [if_neg (by rw [hb7]; simp)]
        refine ⟨s.bits, ?_, hbl, by omega, hfr _ (fun _ _ => rfl) ⟨fun hh => ?_, fun _ _ y hy => ?_⟩⟩
        · rw [show off t L TH m + (sb t L m + 7) / 8 = s.bc by omega]
        · rw [hsp] at hh; cases hh
        · rw [c4 y (by omega), show min 8 (sb t L m - 8 * y) = 8 by omega]
      · have hcond : (!s.mono && !s.sparse && s.bpos != 7) = true := by
          have : s.bpos ≠ 7 := by omega
          rw [fm, fs, hsp, hmo]
          simp [this]
        rw [if_pos hcond]
        by_cases hroom : s.bc < s.bits.len
        · left
          rw [put_ok (by exact hroom)]
          refine ⟨⟨s.bits.len, fun j => if j = s.bc then some s.btw else s.bits.f j⟩, by rw [show off t L TH m + (sb t L m + 7) / 8 = s.bc + 1 by omega], hbl, by omega, hfr _ ?_ ⟨fun hh => ?_, fun _ _ y hy => ?_⟩⟩
          · intro y hy
            show (if y = s.bc then _ else _) = _
            rw [if_neg (by omega)]
          · rw [hsp] at hh; cases hh
          · show (if off t L TH m + y = s.bc then _ else _) = _
            by_cases hyy : y = (p - en t L m) / 8
            · rw [if_pos (by omega), c3, hyy, show min 8 (sb t L m - 8 * ((p - en t L m) / 8)) = (p - en t L m) % 8 by omega]
            · rw [if_neg (by omega), c4 y (by omega), show min 8 (sb t L m - 8 * y) = 8 by omega]
        · right
          rw [put_oob (by exact hroom)]
          exact ⟨rfl, by omega⟩
    · left
      have hw : wd t L TH m = 0 := by unfold wd; rw [hsp, hmo]; rfl
      have c1 := h.cur.mo hsp hmo
      rw [off_succ, hw] at hoff ⊢
      refine ⟨s.bits, ?_, hbl, by omega, hfr _ (fun _ _ => rfl) ⟨fun hh => ?_, fun _ hh => ?_⟩⟩
      · rw [Nat.add_zero, ← c1, if_neg (by rw [fm, hmo]; simp)]
      · rw [hsp] at hh; cases hh
      · rw [hmo] at hh; cases hh
  · left
    obtain ⟨c1, c2⟩ := h.cur.sp hsp
    have hw : wd t L TH m = 8 * sq t L m := by unfold wd; rw [hsp, if_pos rfl]
    have hTl := (en_last hL h.lt).2.2.2.2
    have hob := (ob_sq hL h.lt).1 hm
    rw [show en t L (m + 1) - 1 = p by omega] at hTl
    rw [off_succ, hw] at hoff ⊢
    refine ⟨s.bits, ?_, hbl, by omega, hfr _ (fun _ _ => rfl) ⟨fun _ j hj b hb => ?_, fun hh => ?_⟩⟩
    · rw [show off t L TH m + 8 * sq t L m = s.bc by omega, if_neg (by rw [fs, hsp]; simp)]
    · exact c2 j (by omega) b hb
    · rw [hsp] at hh; cases hh

theorem sel2Next_ok {SL BL m p : Nat} {g : Nat → Option Nat} {s : Sel2} (hL : 1 ≤ L) (hlen : t.len < 2 ^ 60)
    (hSL : 2 * nbk t L + 2 ≤ SL)
    (h : S2Inv t L TH SL BL g m p s) (hp : p + 1 = en t L (m + 1)) (hm : m + 1 < nbk t L) :
    (∃ s', sel2Next L TH { s with cnt := s.cnt + 2 } = ok s' ∧ S2Inv t L TH SL BL g (m + 1) (p + 1) s') ∨
      (sel2Next L TH { s with cnt := s.cnt + 2 } = ub .oob ∧ BL < off t L TH (nbk t L)) := by
  have hK : m < tot t / L := by
    unfold nbk at hm; split at hm <;> omega
  have hcn := h.cnt
  unfold sel2Next
  rcases flush_ok hL h hp hK (s.cnt + 2) with ⟨o, e, o1, o2, o3⟩ | ⟨e, hb⟩
  · left
    simp only []
    rw [e, ok_bind]
    have hsl := h.slen
    simp only []
    rw [Vec.set_ok _ (by omega), ok_bind]
    have hev1 := h.ev (m + 2) (by omega)
    have hev0 := h.ev (m + 1) (by omega)
    rw [uget_ok (a := en t L (m + 2) - 1) (by show s.cnt + 2 + 2 < s.sel.len; omega)
      (by show (if s.cnt + 2 + 2 = s.cnt + 2 + 1 then _ else _) = _
          rw [if_neg (by omega), show s.cnt + 2 + 2 = 2 * (m + 2) by omega, hev1]), ok_bind]
    rw [uget_ok (a := en t L (m + 1) - 1) (by show s.cnt + 2 < s.sel.len; omega)
      (by show (if s.cnt + 2 = s.cnt + 2 + 1 then _ else _) = _
          rw [if_neg (by omega), show s.cnt + 2 = 2 * (m + 1) by omega, hev0]), ok_bind]
    have hlq := len_eq (m := m + 1) hL hlen hm
    rw [if_neg (by omega)] at hlq
    rw [show m + 1 + 1 = m + 2 by omega] at hlq
    rw [hlq]
    have hlt2 := en_lt hL hm
    refine ⟨_, rfl, hm, by omega, by omega, by show s.cnt + 2 = _; omega, rfl, rfl, rfl, hsl, ?_, ?_, ?_, o1, o2, o3, ?_, ?_, ?_⟩
    · intro k hk
      show (if 2 * k = s.cnt + 2 + 1 then _ else _) = _
      rw [if_neg (by omega)]; exact h.ev k hk
    · intro k hk
      show (if 2 * k + 1 = s.cnt + 2 + 1 then _ else _) = _
      by_cases hkk : k = m + 1
      · rw [if_pos (by omega), if_pos (by omega), hkk]
      · rw [if_neg (by omega), h.od k hk]
        by_cases hkm : k ≤ m
        · rw [if_pos hkm, if_pos (by omega)]
        · rw [if_neg hkm, if_neg (by omega)]
    · intro y hy
      show (if y = s.cnt + 2 + 1 then _ else _) = _
      rw [if_neg (by omega)]; exact h.rest y hy
    · intro _
      rw [hp, T_en hL (by omega), ob_lt hL hm, Nat.sub_self]
      exact ⟨rfl, by intro j hj; omega⟩
    · intro _ _; rfl
    · intro _ _
      rw [hp, Nat.sub_self]
      exact ⟨rfl, rfl, rfl, by intro y hy; omega⟩
  · right
    simp only []
    rw [e]
    exact ⟨rfl, hb⟩

/-- What the second loop leaves. -/
structure S2Fin (t : Vec Byte) (L TH SL BL : Nat) (g : Nat → Option Nat) (s : Sel2) : Prop where
  slen : s.sel.len = SL
  ev : ∀ k, k ≤ nbk t L → s.sel.f (2 * k) = some (en t L k - 1)
  od : ∀ k, k ≤ nbk t L → s.sel.f (2 * k + 1) = some (if k < nbk t L then off t L TH k else 0)
  rest : ∀ y, 2 * nbk t L + 2 ≤ y → s.sel.f y = g y
  blen : s.bits.len = BL
  room : off t L TH (nbk t L) ≤ BL
  data : ∀ k, k < nbk t L → Data t L TH k s.bits

theorem sel2Last_ok {SL BL m p : Nat} {g : Nat → Option Nat} {s : Sel2} (hL : 1 ≤ L)
    (h : S2Inv t L TH SL BL g m p s) (hp : p + 1 = en t L (m + 1)) (hm : m + 1 = nbk t L) :
    (∃ s', sel2Last L (tot t) true p { s with cnt := s.cnt + 2 } = ok s' ∧ S2Fin t L TH SL BL g s') ∨
      (sel2Last L (tot t) true p { s with cnt := s.cnt + 2 } = ub .oob ∧ BL < off t L TH (nbk t L)) := by
  have hod : ∀ k, k ≤ nbk t L → s.sel.f (2 * k + 1) = some (if k < nbk t L then off t L TH k else 0) := by
    intro k hk
    rw [h.od k hk]
    by_cases hkm : k ≤ m
    · rw [if_pos hkm, if_pos (by omega)]
    · rw [if_neg hkm, if_neg (by omega)]
  have hbl := h.blen
  have hle := h.bcle
  have hlo := h.lo
  have hbs := en_succ hL h.lt
  have hge := bc_ge h.cur
  have hoe : off t L TH (nbk t L) = off t L TH m + wd t L TH m := by rw [← hm, off_succ]
  unfold sel2Last
  by_cases hr : tot t % L > 0
  · rw [if_pos hr]
    have hnK : ¬ m < tot t / L := by
      have : nbk t L = tot t / L + 1 := by unfold nbk; rw [if_pos hr]
      omega
    have hsb : sb t L m = p - en t L m + 1 := by unfold sb; rw [if_neg hnK]; omega
    have hfr : ∀ (o : Vec (Option Byte)), (∀ y, y < s.bc → o.f y = s.bits.f y) → Data t L TH m o →
        ∀ k, k < nbk t L → Data t L TH k o := by
      intro o ho hd k hk
      by_cases hkm : k = m
      · rw [hkm]; exact hd
      · refine (h.fin k (by omega)).frame (fun y hy => ?_)
        have := off_mono (t := t) (L := L) TH (show k + 1 ≤ m by omega)
        exact ho y (by omega)
    have fm := h.fmo
    have fs := h.fsp
    simp only []
    cases hsp : sparse t L TH m
    · rw [if_neg (by rw [fs, hsp]; simp), ok_bind]
      simp only []
      cases hmo : mono t L TH m
      · obtain ⟨c1, c2, c3, c4⟩ := h.cur.de hsp hmo
        have hw : wd t L TH m = (sb t L m + 7) / 8 := by
          unfold wd; rw [hsp, hmo, if_neg (by simp), if_neg (by simp)]
        rw [if_pos (by rw [fs, fm, hsp, hmo]; rfl), if_pos trivial]
        have hbit := (en_last hL h.lt).2.2.2.1
        rw [show en t L (m + 1) - 1 = p by omega] at hbit
        have hpos : p = en t L m + 8 * ((p - en t L m) / 8) + (p - en t L m) % 8 := by omega
        have hbtw : s.btw + 1#8 <<< s.bpos =
            bacc t (en t L m + 8 * ((p - en t L m) / 8)) ((p - en t L m) % 8 + 1) := by
          rw [c2, c3]
          show _ = (if tbit t (_ + _) = true then _ else _)
          rw [← hpos, hbit, if_pos rfl]
        rw [hbtw]
        by_cases hroom : s.bc < s.bits.len
        · left
          rw [put_ok (by exact hroom)]
          refine ⟨_, rfl, h.slen, h.ev, hod, h.rest, hbl, by omega, hfr _ ?_ ⟨fun hh => ?_, fun _ _ y hy => ?_⟩⟩
          · intro y hy
            show (if y = s.bc then _ else _) = _
            rw [if_neg (by omega)]
          · rw [hsp] at hh; cases hh
          · show (if off t L TH m + y = s.bc then _ else _) = _
            by_cases hyy : y = (p - en t L m) / 8
            · rw [if_pos (by omega), hyy,
                show min 8 (sb t L m - 8 * ((p - en t L m) / 8)) = (p - en t L m) % 8 + 1 by omega]
            · rw [if_neg (by omega), c4 y (by omega), show min 8 (sb t L m - 8 * y) = 8 by omega]
        · right
          rw [put_oob (by exact hroom)]
          exact ⟨rfl, by omega⟩
      · left
        rw [if_neg (by rw [fm, hmo]; simp)]
        have hw : wd t L TH m = 0 := by unfold wd; rw [hsp, hmo]; rfl
        refine ⟨_, rfl, h.slen, h.ev, hod, h.rest, hbl, by omega,
          hfr _ (fun _ _ => rfl) ⟨fun hh => ?_, fun _ hh => ?_⟩⟩
        · rw [hsp] at hh; cases hh
        · rw [hmo] at hh; cases hh
    · rw [if_pos (by rw [fs, hsp]; rfl)]
      obtain ⟨c1, c2⟩ := h.cur.sp hsp
      have hw : wd t L TH m = 8 * sq t L m := by unfold wd; rw [hsp, if_pos rfl]
      have hTl := (en_last hL h.lt).2.2.2
      have hob := ((ob_sq hL h.lt).2 hnK).1
      have hTp := (T_in hL h.lt h.lo h.hi).1
      rw [show en t L (m + 1) - 1 = p by omega] at hTl
      have hpl : p < 8 * t.len := by
        have := (en_last hL h.lt).2.2.1
        omega
      by_cases hroom : s.bc + 8 ≤ s.bits.len
      · left
        obtain ⟨o, e, o1, o2, o3⟩ := putPos_ok (s := { s with cnt := s.cnt + 2 }) (p := p) hroom
        rw [e, ok_bind]
        simp only []
        rw [if_neg (by rw [fs, hsp]; simp)]
        refine ⟨_, rfl, h.slen, h.ev, hod, h.rest, o1.trans hbl, by omega,
          hfr _ o3 ⟨fun _ j hj b hb => ?_, fun hh => ?_⟩⟩
        · by_cases hjj : j = T t p - m * L
          · rw [show off t L TH m + 8 * j + b = s.bc + b by omega]
            rw [o2 b hb]
            have : sel t (m * L + 1 + j) = p := sel_eq hpl hTl.1 (by omega)
            rw [this]
          · rw [o3 _ (by show _ < s.bc; omega)]
            exact c2 j (by omega) b hb
        · rw [hsp] at hh; cases hh
      · right
        rw [putPos_oob (by exact hroom)]
        exact ⟨rfl, by omega⟩
  · rw [if_neg hr]
    have hK : m < tot t / L := by
      have : nbk t L = tot t / L := by unfold nbk; rw [if_neg hr, Nat.add_zero]
      omega
    rcases flush_ok hL h hp hK (s.cnt + 2) with ⟨o, e, o1, o2, o3⟩ | ⟨e, hb⟩
    · left
      simp only []
      refine ⟨_, e, h.slen, h.ev, hod, h.rest, o1, by rw [← hm]; exact o2, ?_⟩
      intro k hk
      exact o3 k (by omega)
    · right
      exact ⟨e, hb⟩

theorem sel2Loop_ok {SL BL : Nat} {g : Nat → Option Nat} (hL : 1 ≤ L) (hlen : t.len < 2 ^ 60)
    (hSL : 2 * nbk t L + 2 ≤ SL) : ∀ n p m s, p + n = 8 * t.len → S2Inv t L TH SL BL g m p s →
    (∃ s', sel2Loop L TH t (tot t) (2 * nbk t L) n p s = ok s' ∧ S2Fin t L TH SL BL g s') ∨
      (sel2Loop L TH t (tot t) (2 * nbk t L) n p s = ub .oob ∧ BL < off t L TH (nbk t L)) := by
  intro n
  induction n with
  | zero =>
    intro p m s hp h
    have := en_le (t := t) (L := L) hL (show m + 1 ≤ nbk t L from h.lt)
    have := h.hi
    omega
  | succ n ih =>
    intro p m s hp h
    have hlt := h.lt
    have hhi := h.hi
    have hcn := h.cnt
    have hen := en_last hL h.lt
    unfold sel2Loop
    rw [bitAt_ok (by omega), ok_bind]
    have hup := h.up
    by_cases hpe : p = en t L (m + 1) - 1
    · rw [if_pos (by omega)]
      simp only []
      rw [← hpe] at hen
      by_cases hm : m + 1 = nbk t L
      · rw [if_pos (by omega), hen.2.2.2.1]
        exact sel2Last_ok hL h (by omega) hm
      · rw [if_neg (by omega)]
        rcases sel2Next_ok hL hlen hSL h (by omega) (by omega) with ⟨s', e, hi⟩ | ⟨e, hb⟩
        · rw [e, ok_bind]
          exact ih (p + 1) (m + 1) s' (by omega) hi
        · right
          rw [e]
          exact ⟨rfl, hb⟩
    · rw [if_neg (by omega)]
      rcases sel2In_ok hL h (by omega) with ⟨s', e, hi⟩ | ⟨e, hb⟩
      · rw [e, ok_bind]
        exact ih (p + 1) m s' (by omega) hi
      · right
        rw [e]
        exact ⟨rfl, hb⟩

end MRS.Mran
