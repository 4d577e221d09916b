import Verif.Proofs.Mranisz.SelMpeText

/-! # Compressed select with pairs left out: the loop over the text -/

set_option autoImplicit false

namespace MRS.Mran
open Outcome Spec Poppy

variable {ty : MpeType} {t : Vec Byte} {L TH : Nat}

theorem Con.push_ok {c : Con} {x : Byte} (h : c.bytes < c.cont.len) :
    c.push x = ok { c with cont := ⟨c.cont.len, fun j => if j = c.bytes then some x else c.cont.f j⟩,
                           bytes := c.bytes + 1 } := by
  unfold Con.push
  rw [Vec.set_ok _ h]
  rfl

/-- `bitsContainer` before position `p` of block `m`. -/
structure ConAt (t : Vec Byte) (L m p : Nat) (c : Con) : Prop where
  bytes : c.bytes = (p - en t L m) / 8
  bpos : c.bpos = 7 - (p - en t L m) % 8
  btw : c.btw = bacc t (en t L m + 8 * ((p - en t L m) / 8)) ((p - en t L m) % 8)
  val : ∀ y, y < (p - en t L m) / 8 → c.cont.f y = some (bacc t (en t L m + 8 * y) 8)

/-- `bitsContainer` with all bytes of block `m`. -/
structure ConDone (t : Vec Byte) (L m : Nat) (c : Con) : Prop where
  len : nby t L m ≤ c.cont.len
  bytes : c.bytes = nby t L m
  val : ∀ y, y < nby t L m → c.cont.f y = some (bb t L m y)

theorem Con.bit_ok {m p : Nat} {c : Con} (hlo : en t L m ≤ p) (h : ConAt t L m p c) (hl : (p - en t L m) / 8 < c.cont.len) :
    ∃ c', c.bit (tbit t p) = ok c' ∧ c'.cont.len = c.cont.len ∧ ConAt t L m (p + 1) c' := by
  have c1 := h.bytes
  have c2 := h.bpos
  have c3 := h.btw
  have c4 := h.val
  unfold Con.bit
  have hpos : p = en t L m + 8 * ((p - en t L m) / 8) + (p - en t L m) % 8 := by omega
  have hbtw : (if tbit t p = true then c.btw + 1#8 <<< c.bpos else c.btw) =
      bacc t (en t L m + 8 * ((p - en t L m) / 8)) ((p - en t L m) % 8 + 1) := by
    rw [c2, c3]
    show _ = (if tbit t (_ + _) = true then _ else _)
    rw [← hpos]
  have hs' : (if tbit t p = true then { c with btw := c.btw + 1#8 <<< c.bpos } else c) =
      { c with btw := bacc t (en t L m + 8 * ((p - en t L m) / 8)) ((p - en t L m) % 8 + 1) } := by
    rw [← hbtw]
    cases tbit t p <;> rfl
  rw [hs']
  simp only []
  by_cases hz : (p - en t L m) % 8 = 7
  · rw [if_pos (by omega), Con.push_ok (by show c.bytes < c.cont.len; omega), ok_bind]
    refine ⟨_, rfl, rfl, ?_, ?_, ?_, ?_⟩
    · show c.bytes + 1 = _; omega
    · show 7 = _; omega
    · rw [show (p + 1 - en t L m) % 8 = 0 by omega]; rfl
    · intro y hy
      show (if y = c.bytes then _ else _) = _
      by_cases hyy : y = (p - en t L m) / 8
      · rw [if_pos (by omega), hyy, hz]
      · rw [if_neg (by omega), c4 y (by omega)]
  · rw [if_neg (by omega)]
    have e1 : (p + 1 - en t L m) / 8 = (p - en t L m) / 8 := by omega
    have e2 : (p + 1 - en t L m) % 8 = (p - en t L m) % 8 + 1 := by omega
    refine ⟨_, rfl, rfl, ?_, ?_, ?_, ?_⟩
    · show c.bytes = _; omega
    · show c.bpos - 1 = _; omega
    · rw [e1, e2]
    · rw [e1]; exact c4

/-- The loop before position `p` of block `m`; `c` is `selectCounter`. -/
structure WalkAt (t : Vec Byte) (L TH m p c : Nat) (w : Walk) : Prop where
  lt : m < nbk t L
  lo : en t L m ≤ p
  hi : p < en t L (m + 1)
  cnt : w.cnt = c
  up : w.upTo = en t L (m + 1) - 1
  len : w.len = bl t L m
  fsp : w.sparse = sparse t L TH m
  fmo : w.mono = mono t L TH m
  clen : w.con.cont.len = TH / 8 + 1
  con : Dense t L TH m → ConAt t L m p w.con

/-- The loop at the end of block `m`. -/
structure WalkEnd (t : Vec Byte) (L TH m : Nat) (w : Walk) : Prop where
  cnt : w.cnt = 2 * (m + 1)
  len : w.len = bl t L m
  fsp : w.sparse = sparse t L TH m
  fmo : w.mono = mono t L TH m
  clen : w.con.cont.len = TH / 8 + 1
  con : Dense t L TH m → ConDone t L m w.con

theorem dense_flags {m : Nat} {w : Walk} (h1 : w.sparse = sparse t L TH m) (h2 : w.mono = mono t L TH m) :
    (!w.sparse && !w.mono) = decide (Dense t L TH m) := by
  rw [h1, h2, Bool.eq_iff_iff, decide_eq_true_iff]
  unfold Dense
  simp

theorem dense_le {m : Nat} (h : Dense t L TH m) : bl t L m ≤ TH := by
  have := h.1
  unfold sparse at this
  rw [decide_eq_false_iff_not] at this
  omega

theorem Walk.flush_ok {m p : Nat} {w : Walk} (hL : 1 ≤ L) (h : WalkAt t L TH m p (2 * (m + 1)) w)
    (hp : p + 1 = en t L (m + 1)) (hm : m < tot t / L) : ∃ w', w.flush = ok w' ∧ WalkEnd t L TH m w' := by
  have hfl := dense_flags h.fsp h.fmo
  have hlo := h.lo
  have hbs := en_succ hL h.lt
  have hsb : sb t L m = p - en t L m := by
    unfold sb
    rw [if_pos hm]
    omega
  have hn : nby t L m = (p - en t L m + 7) / 8 := by unfold nby; rw [hsb]
  have hcl := h.clen
  unfold Walk.flush
  rw [Bool.and_comm (!w.mono), hfl]
  by_cases hd : Dense t L TH m
  · have hc := h.con hd
    have c1 := hc.bytes
    have c2 := hc.bpos
    have hth := dense_le hd
    by_cases hz : (p - en t L m) % 8 = 0
    · rw [if_neg (by rw [show w.con.bpos = 7 by omega]; simp)]
      refine ⟨w, rfl, h.cnt, h.len, h.fsp, h.fmo, h.clen, fun _ => ⟨by omega, by omega, fun y hy => ?_⟩⟩
      rw [hc.val y (by omega)]
      unfold bb
      rw [show min 8 (sb t L m - 8 * y) = 8 by omega]
    · rw [if_pos (by simp [hd]; omega), Con.push_ok (by omega), ok_bind]
      refine ⟨_, rfl, h.cnt, h.len, h.fsp, h.fmo, h.clen, fun _ => ⟨?_, ?_, fun y hy => ?_⟩⟩
      · show nby t L m ≤ w.con.cont.len; omega
      · show w.con.bytes + 1 = _; omega
      · show (if y = w.con.bytes then _ else _) = _
        unfold bb
        by_cases hyy : y = (p - en t L m) / 8
        · rw [if_pos (by omega), hc.btw, hyy,
            show min 8 (sb t L m - 8 * ((p - en t L m) / 8)) = (p - en t L m) % 8 by omega]
        · rw [if_neg (by omega), hc.val y (by omega), show min 8 (sb t L m - 8 * y) = 8 by omega]
  · rw [if_neg (by simp [hd])]
    exact ⟨w, rfl, h.cnt, h.len, h.fsp, h.fmo, h.clen, fun hh => absurd hh hd⟩

/-- The last byte of an incomplete block. -/
theorem Con.last_ok {m p : Nat} {c : Con} (hL : 1 ≤ L) (hlt : m < nbk t L) (hlo : en t L m ≤ p)
    (h : ConAt t L m p c) (hp : p + 1 = en t L (m + 1)) (hm : ¬ m < tot t / L)
    (hcl : c.cont.len = TH / 8 + 1) (hd : Dense t L TH m) :
    ∃ c', c.push (c.btw + 1#8 <<< c.bpos) = ok c' ∧ ConDone t L m c' := by
  have hbs := en_succ hL hlt
  have hth := dense_le hd
  have c1 := h.bytes
  have c2 := h.bpos
  have hsb : sb t L m = p - en t L m + 1 := by unfold sb; rw [if_neg hm]; omega
  have hn : nby t L m = (p - en t L m + 1 + 7) / 8 := by unfold nby; rw [hsb]
  have hbit := (en_last hL hlt).2.2.2.1
  rw [show en t L (m + 1) - 1 = p by omega] at hbit
  have hpos : p = en t L m + 8 * ((p - en t L m) / 8) + (p - en t L m) % 8 := by omega
  have hbtw : c.btw + 1#8 <<< c.bpos =
      bacc t (en t L m + 8 * ((p - en t L m) / 8)) ((p - en t L m) % 8 + 1) := by
    rw [c2, h.btw]
    show _ = (if tbit t (_ + _) = true then _ else _)
    rw [← hpos, hbit, if_pos rfl]
  rw [hbtw, Con.push_ok (by omega)]
  refine ⟨_, rfl, ?_, ?_, fun y hy => ?_⟩
  · show nby t L m ≤ c.cont.len; omega
  · show c.bytes + 1 = _; omega
  · show (if y = c.bytes then _ else _) = _
    unfold bb
    by_cases hyy : y = (p - en t L m) / 8
    · rw [if_pos (by omega), hyy,
        show min 8 (sb t L m - 8 * ((p - en t L m) / 8)) = (p - en t L m) % 8 + 1 by omega]
    · rw [if_neg (by omega), h.val y (by omega), show min 8 (sb t L m - 8 * y) = 8 by omega]

/-- The even entries of `selectsTemp`. -/
structure Evens (t : Vec Byte) (L : Nat) (v : Vec (Option Nat)) : Prop where
  len : 2 * nbk t L + 2 ≤ v.len
  ev : ∀ k, k ≤ nbk t L → v.f (2 * k) = some (en t L k - 1)

theorem Walk.advance_ok {m p : Nat} {w : Walk} {v : Vec (Option Nat)} (hL : 1 ≤ L) (hlen : t.len < 2 ^ 60)
    (hv : Evens t L v) (h : WalkEnd t L TH m w) (hp : p + 1 = en t L (m + 1)) (hm : m + 1 < nbk t L) :
    ∃ w', w.advance L TH v = ok w' ∧ WalkAt t L TH (m + 1) (p + 1) (2 * (m + 1)) w' := by
  have hcn := h.cnt
  have hvl := hv.len
  have hlq := len_eq (m := m + 1) hL hlen hm
  rw [if_neg (by omega), show m + 1 + 1 = m + 2 by omega] at hlq
  have hlt2 := en_lt hL hm
  have h2 := hv.ev (m + 2) (by omega)
  rw [show 2 * (m + 2) = w.cnt + 2 by omega] at h2
  have h1 := hv.ev (m + 1) (by omega)
  rw [show 2 * (m + 1) = w.cnt by omega] at h1
  unfold Walk.advance
  rw [uget_ok (by omega) h2, ok_bind, uget_ok (by omega) h1, ok_bind]
  simp only []
  rw [hlq]
  refine ⟨_, rfl, hm, by omega, by omega, hcn, rfl, rfl, rfl, rfl, h.clen, fun _ => ⟨?_, ?_, ?_, ?_⟩⟩
  · show 0 = _; rw [hp, Nat.sub_self]
  · show 7 = _; rw [hp, Nat.sub_self]
  · rw [hp, Nat.sub_self]; rfl
  · intro y hy; rw [hp, Nat.sub_self] at hy; omega

theorem walkStart_ok {v : Vec (Option Nat)} (hL : 1 ≤ L) (hlen : t.len < 2 ^ 60) (hn : 0 < nbk t L)
    (hv : Evens t L v) : ∃ w, walkStart L TH v = ok w ∧ WalkAt t L TH 0 0 0 w := by
  have hvl := hv.len
  have hlq := len_eq (m := 0) hL hlen hn
  rw [if_pos rfl] at hlq
  have hlt2 := en_lt hL hn
  unfold walkStart
  rw [uget_ok (by omega) (hv.ev 1 (by omega)), ok_bind, uget_ok (by omega) (hv.ev 0 (by omega)), ok_bind]
  simp only []
  rw [hlq]
  refine ⟨_, rfl, hn, by rw [en_zero]; exact Nat.le_refl _, by rw [en_zero] at hlt2; exact hlt2, rfl, rfl, rfl, rfl, rfl, rfl,
    fun _ => ⟨?_, ?_, ?_, ?_⟩⟩
  · show 0 = _; rw [Nat.zero_sub]
  · show 7 = _; rw [Nat.zero_sub]
  · rw [Nat.zero_sub]; rfl
  · intro y hy; rw [Nat.zero_sub] at hy; omega

/-- The loop keeps an invariant `I` of blocks and positions, and ends with `F`, unless an action fails. -/
theorem walkS_ok {σ : Type} {A : Acts σ} {I : Nat → Nat → σ → Prop} {F : σ → Prop} {Fail : Fault → Prop}
    (hL : 1 ≤ L) (hlen : t.len < 2 ^ 60)
    (hsel : ∀ m p s, I m p s → Evens t L (A.sel s))
    (hstay : ∀ m p s, m < nbk t L → en t L m ≤ p → p + 1 < en t L (m + 1) → I m p s →
      (sparse t L TH m = true → tbit t p = false) → I m (p + 1) s)
    (hpos : ∀ m p s, m < nbk t L → en t L m ≤ p → p + 1 < en t L (m + 1) → I m p s →
      sparse t L TH m = true → tbit t p = true →
      (∃ s', A.pos p s = ok s' ∧ I m (p + 1) s') ∨ ∃ f, A.pos p s = ub f ∧ Fail f)
    (hnext : ∀ m p w s, en t L m ≤ p → p + 1 = en t L (m + 1) → m + 1 < nbk t L → I m p s → WalkEnd t L TH m w →
      (∃ s', A.next w s = ok s' ∧ I (m + 1) (p + 1) s') ∨ ∃ f, A.next w s = ub f ∧ Fail f)
    (hlast : ∀ m p w s, p + 1 = en t L (m + 1) → m + 1 = nbk t L → I m p s →
      WalkAt t L TH m p (2 * (m + 1)) w →
      (∃ s', A.last true p w s = ok s' ∧ F s') ∨ ∃ f, A.last true p w s = ub f ∧ Fail f) :
    ∀ n p m w s, p + n = 8 * t.len → WalkAt t L TH m p (2 * m) w → I m p s →
    (∃ w' s', walkS A L TH t (2 * nbk t L) n p w s = ok (w', s') ∧ w'.cnt = 2 * nbk t L ∧ F s') ∨
      ∃ f, walkS A L TH t (2 * nbk t L) n p w s = ub f ∧ Fail f := by
  intro n
  induction n with
  | zero =>
    intro p m w s hp h _
    have := en_le (t := t) (L := L) hL (show m + 1 ≤ nbk t L from h.lt)
    have := h.hi
    omega
  | succ n ih =>
    intro p m w s hp h hI
    have hlt := h.lt
    have hhi := h.hi
    have hlo := h.lo
    have hcn := h.cnt
    have hen := en_last hL h.lt
    have hup := h.up
    unfold walkS
    rw [bitAt_ok (by omega), ok_bind]
    by_cases hpe : p = en t L (m + 1) - 1
    · rw [if_pos (by omega)]
      simp only []
      rw [← hpe] at hen
      have h2 : WalkAt t L TH m p (2 * (m + 1)) { w with cnt := w.cnt + 2 } :=
        ⟨h.lt, h.lo, h.hi, by show w.cnt + 2 = _; omega, h.up, h.len, h.fsp, h.fmo, h.clen, h.con⟩
      by_cases hm : m + 1 = nbk t L
      · rw [if_pos (by omega), hen.2.2.2.1]
        rcases hlast m p _ s (by omega) hm hI h2 with ⟨s', e, hF⟩ | ⟨f, e, hf⟩
        · left
          rw [e, ok_bind]
          exact ⟨_, _, rfl, by rw [← hm]; exact h2.cnt, hF⟩
        · right
          rw [e]
          exact ⟨f, rfl, hf⟩
      · rw [if_neg (by omega)]
        have hm' : m + 1 < nbk t L := by omega
        obtain ⟨w1, e1, hw1⟩ := Walk.flush_ok hL h2 (by omega) (full_of_lt hm')
        rw [e1, ok_bind]
        rcases hnext m p w1 s hlo (by omega) hm' hI hw1 with ⟨s', e, hI'⟩ | ⟨f, e, hf⟩
        · rw [e, ok_bind]
          obtain ⟨w2, e2, hw2⟩ := Walk.advance_ok (p := p) hL hlen (hsel _ _ _ hI') hw1 (by omega) hm'
          rw [e2, ok_bind]
          exact ih (p + 1) (m + 1) w2 s' (by omega) hw2 hI'
        · right
          rw [e]
          exact ⟨f, rfl, hf⟩
    · rw [if_neg (by omega)]
      have hp1 : p + 1 < en t L (m + 1) := by omega
      cases hmo : mono t L TH m
      · rw [if_neg (by rw [h.fmo, hmo]; simp)]
        cases hsp : sparse t L TH m
        · rw [if_neg (by rw [h.fsp, hsp]; simp)]
          have hd : Dense t L TH m := ⟨hsp, hmo⟩
          have hth := dense_le hd
          have hbs := en_succ hL hlt
          obtain ⟨c', e, hc1, hc2⟩ := Con.bit_ok hlo (h.con hd) (by rw [h.clen]; omega)
          rw [e, ok_bind]
          exact ih (p + 1) m _ s (by omega)
            ⟨hlt, by omega, hp1, h.cnt, h.up, h.len, h.fsp, h.fmo, hc1.trans h.clen, fun _ => hc2⟩
            (hstay m p s hlt hlo hp1 hI (fun hh => by rw [hsp] at hh; cases hh))
        · rw [if_pos (by rw [h.fsp, hsp])]
          have hw' : WalkAt t L TH m (p + 1) (2 * m) w :=
            ⟨hlt, by omega, hp1, h.cnt, h.up, h.len, h.fsp, h.fmo, h.clen, fun hd => by have := hd.1; rw [hsp] at this; cases this⟩
          cases hb : tbit t p
          · rw [if_neg (by simp), ok_bind]
            exact ih (p + 1) m w s (by omega) hw' (hstay m p s hlt hlo hp1 hI (fun _ => hb))
          · rw [if_pos rfl]
            rcases hpos m p s hlt hlo hp1 hI hsp hb with ⟨s', e, hI'⟩ | ⟨f, e, hf⟩
            · rw [e, ok_bind]
              exact ih (p + 1) m w s' (by omega) hw' hI'
            · right
              rw [e]
              exact ⟨f, rfl, hf⟩
      · rw [if_pos (by rw [h.fmo, hmo])]
        exact ih (p + 1) m w s (by omega)
          ⟨hlt, by omega, hp1, h.cnt, h.up, h.len, h.fsp, h.fmo, h.clen, fun hd => by have := hd.2; rw [hmo] at this; cases this⟩
          (hstay m p s hlt hlo hp1 hI (fun hh => by
            exfalso
            unfold sparse at hh
            unfold mono at hmo
            rw [decide_eq_true_eq] at hh hmo
            exact hmo.1 hh))

end MRS.Mran
