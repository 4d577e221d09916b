import Verif.Proofs.Mranisz.SelLoop

/-! # Compressed select: `build` -/

set_option autoImplicit false

namespace MRS.Mran
open Outcome Spec Poppy

variable {t : Vec Byte} {L TH : Nat}

theorem nbk_one (hL : 1 ≤ L) (h : 1 ≤ tot t) : 1 ≤ nbk t L := by
  have := nbk_mul (t := t) hL
  by_cases hz : nbk t L = 0
  · rw [hz] at this; omega
  · omega

/-- What the second part leaves: entries are first positions after blocks. -/
structure S2End (t : Vec Byte) (L TH SL BL : Nat) (g : Nat → Option Nat) (s : Sel2) : Prop where
  slen : s.sel.len = SL
  ev : ∀ k, k ≤ nbk t L → s.sel.f (2 * k) = some (en t L k)
  od : ∀ k, k ≤ nbk t L → s.sel.f (2 * k + 1) = some (if k < nbk t L then off t L TH k else 0)
  rest : ∀ y, 2 * nbk t L + 2 ≤ y → s.sel.f y = g y
  blen : s.bits.len = BL
  data : ∀ k, k < nbk t L → Data t L TH k s.bits

theorem sel2_ok {SL aB : Nat} {s : Sel1} (hL : 1 ≤ L) (hlen : t.len < 2 ^ 60) (h1 : 1 ≤ tot t)
    (hSL : 2 * nbk t L + 2 ≤ SL) (hs : s.sel.len = SL)
    (ev : ∀ m, m ≤ nbk t L → s.sel.f (2 * m) = some (en t L m - 1) ∧ s.sel.f (2 * m + 1) = some 0) :
    (off t L TH (nbk t L) ≤ s.bitsLen + roomBytes aB →
      ∃ s', sel2 L TH t (tot t) (2 * nbk t L) (2 * nbk t L + 2) aB s = ok s' ∧
        S2End t L TH SL (s.bitsLen + roomBytes aB) s.sel.f s') ∧
    (s.bitsLen + roomBytes aB < off t L TH (nbk t L) →
      sel2 L TH t (tot t) (2 * nbk t L) (2 * nbk t L + 2) aB s = ub .oob) := by
  have hn := nbk_one hL h1
  have hK := len_eq (t := t) (L := L) (m := 0) hL hlen hn
  rw [if_pos rfl] at hK
  have he := en_lt (t := t) (L := L) (m := 0) hL hn
  have hle := en_le (t := t) (L := L) (m := 1) hL hn
  unfold sel2
  rw [uget_ok (a := en t L 1 - 1) (by omega) (ev 1 hn).1, ok_bind,
    uget_ok (a := en t L 0 - 1) (by omega) (ev 0 (by omega)).1, ok_bind]
  simp only []
  rw [hK]
  have hinv : S2Inv t L TH SL (s.bitsLen + roomBytes aB) s.sel.f 0 0
      ⟨s.sel, fresh (s.bitsLen + roomBytes aB), 0, 0, 0#8, 7, en t L 1 - 1, decide (bl t L 0 > TH),
        decide (¬ bl t L 0 > TH ∧ bl t L 0 = L)⟩ := by
    refine ⟨hn, Nat.le_refl _, by rw [en_zero] at he; exact he, rfl, rfl, rfl, rfl, hs, fun k hk => (ev k hk).1, ?_,
      fun _ _ => rfl, rfl, Nat.zero_le _, fun k hk => by omega, ?_, ?_, ?_⟩
    · intro k hk
      rw [(ev k hk).2]
      by_cases hk0 : k ≤ 0
      · rw [if_pos hk0, show k = 0 by omega]; rfl
      · rw [if_neg hk0]
    · intro _
      exact ⟨by rw [T_zero, Nat.zero_sub]; rfl, by intro j hj; rw [T_zero] at hj; omega⟩
    · intro _ _; rfl
    · intro _ _
      rw [en_zero]
      exact ⟨rfl, rfl, rfl, by intro y hy; omega⟩
  rcases sel2Loop_ok hL hlen hSL (8 * t.len) 0 0 _ (by omega) hinv with ⟨s2, e, hf⟩ | ⟨e, hb⟩
  · refine ⟨fun _ => ?_, fun hc => ?_⟩
    · rw [e, ok_bind]
      obtain ⟨v, ev', hv⟩ := forN_inv
        (body := fun k (v : Vec (Option Nat)) => do
          let x ← uget v (2 + 2 * k)
          v.set (2 + 2 * k) (some (add64 x 1)))
        (fun j v => v.len = SL ∧ (∀ k, k ≤ nbk t L → v.f (2 * k) = some (if k ≤ j then en t L k else en t L k - 1)) ∧
          (∀ k, k ≤ nbk t L → v.f (2 * k + 1) = some (if k < nbk t L then off t L TH k else 0)) ∧
          ∀ y, 2 * nbk t L + 2 ≤ y → v.f y = s.sel.f y) ((2 * nbk t L + 2) / 2 - 1) s2.sel
        ⟨hf.slen, by
          intro k hk
          rw [hf.ev k hk]
          by_cases hk0 : k ≤ 0
          · rw [if_pos hk0, show k = 0 by omega]; rfl
          · rw [if_neg hk0], hf.od, hf.rest⟩
        (by
          intro j v hj ⟨v1, v2, v3, v4⟩
          have hx := v2 (j + 1) (by omega)
          rw [if_neg (by omega)] at hx
          have hpos := en_lt (t := t) (L := L) (m := j) hL (by omega)
          have hle := en_le (t := t) (L := L) (m := j + 1) hL (by omega)
          have ha : add64 (en t L (j + 1) - 1) 1 = en t L (j + 1) := by
            unfold add64
            rw [Nat.mod_eq_of_lt (by simp only [W64]; omega)]
            omega
          rw [uget_ok (i := 2 + 2 * j) (a := en t L (j + 1) - 1) (by omega)
            (by rw [show 2 + 2 * j = 2 * (j + 1) by omega]; exact hx), ok_bind, Vec.set_ok _ (by omega)]
          refine ⟨_, rfl, v1, ?_, ?_, ?_⟩
          · intro k hk
            show (if 2 * k = 2 + 2 * j then _ else _) = _
            by_cases hkj : k = j + 1
            · rw [if_pos (by omega), if_pos (by omega), hkj, ha]
            · rw [if_neg (by omega), v2 k hk]
              by_cases hk' : k ≤ j
              · rw [if_pos hk', if_pos (by omega)]
              · rw [if_neg hk', if_neg (by omega)]
          · intro k hk
            show (if 2 * k + 1 = 2 + 2 * j then _ else _) = _
            rw [if_neg (by omega), v3 k hk]
          · intro y hy
            show (if y = 2 + 2 * j then _ else _) = _
            rw [if_neg (by omega), v4 y hy])
      rw [ev', ok_bind]
      refine ⟨_, rfl, hv.1, ?_, hv.2.2.1, hv.2.2.2, hf.blen, hf.data⟩
      intro k hk
      show v.f (2 * k) = _
      rw [hv.2.1 k hk, if_pos (by omega)]
    · have := hf.room
      omega
  · refine ⟨fun hc => by omega, fun _ => ?_⟩
    rw [e]; rfl

/-! ## Room -/

theorem psum_le {f g : Nat → Nat} : ∀ {n : Nat}, (∀ m, m < n → f m ≤ g m) → psum f n ≤ psum g n := by
  intro n
  induction n with
  | zero => intro _; exact Nat.le_refl _
  | succ n ih =>
    intro h
    rw [psum_succ, psum_succ]
    have := ih (fun m hm => h m (by omega))
    have := h n (by omega)
    omega

theorem roomBytes_pos (a : Nat) : 1 ≤ roomBytes a ∧ roomBytes a ≤ 128 := by unfold roomBytes; omega

theorem bl_ge (hL : 1 ≤ L) {m : Nat} (h : m < tot t / L) : L ≤ bl t L m := by
  have hn := nbk_ge t L
  have h1 := T_en (t := t) (L := L) (m := m) hL (by omega)
  have h2 := T_en (t := t) (L := L) (m := m + 1) hL (by omega)
  rw [ob_full (by omega)] at h1 h2
  have h3 := en_succ (t := t) (L := L) (m := m) hL (by omega)
  have h4 := T_diff t (en t L m) (bl t L m)
  rw [h3, h1, h2, Nat.add_mul, Nat.one_mul] at h4
  omega

theorem ceil8 (x : Nat) : x / 8 + (if x % 8 > 0 then 1 else 0) = (x + 7) / 8 := by split <;> omega

theorem wd_le (hL : 1 ≤ L) {m : Nat} (h : m < tot t / L) : wd t L TH m ≤ sz1 t L TH m := by
  have hb := bl_ge hL h
  unfold wd sz1 sparse mono sq sb
  rw [ceil8, ceil8]
  simp only [decide_eq_true_eq, if_pos h]
  by_cases h1 : bl t L m > TH
  · rw [if_pos h1, if_pos h1]; exact Nat.le_refl _
  · rw [if_neg h1, if_neg h1]
    by_cases h2 : bl t L m = L
    · rw [if_pos ⟨h1, h2⟩]; exact Nat.zero_le _
    · rw [if_neg (fun hh => h2 hh.2), if_pos (by omega)]
      by_cases h3 : m = 0
      · rw [if_pos h3]; omega
      · rw [if_neg h3]; exact Nat.le_refl _

/-- The case in which the two passes disagree: a single incomplete block of `TH + 1` bits. -/
def Odd (t : Vec Byte) (L TH : Nat) : Prop := tot t / L = 0 ∧ bl t L 0 = TH + 1

theorem room_enough (hL : 1 ≤ L) (ho : ¬ Odd t L TH) :
    off t L TH (nbk t L) ≤ psum (sz1 t L TH) (tot t / L) + szLast t L TH + 1 := by
  have hfull : off t L TH (tot t / L) ≤ psum (sz1 t L TH) (tot t / L) :=
    psum_le (fun m hm => wd_le hL hm)
  unfold szLast
  by_cases hr : tot t % L > 0
  · have hn : nbk t L = tot t / L + 1 := by unfold nbk; rw [if_pos hr]
    rw [if_pos hr, hn, off_succ]
    simp only []
    rw [ceil8]
    have hw : wd t L TH (tot t / L) ≤ (if bl t L (tot t / L) > TH then 8 * (tot t % L) else (bl t L (tot t / L) + 7) / 8) := by
      unfold wd sparse mono sq sb
      simp only [decide_eq_true_eq, if_neg (Nat.lt_irrefl _)]
      by_cases h1 : bl t L (tot t / L) > TH
      · rw [if_pos h1, if_pos h1]; exact Nat.le_refl _
      · rw [if_neg h1, if_neg h1]
        split
        · omega
        · exact Nat.le_refl _
    by_cases hK : tot t / L = 0
    · rw [if_pos hK]
      have ho' : bl t L 0 ≠ TH + 1 := fun hh => ho ⟨hK, hh⟩
      have hp := bl_pos (t := t) (L := L) (m := 0) hL (by omega)
      rw [hK] at hw hfull ⊢
      by_cases h2 : bl t L 0 > TH
      · rw [if_pos h2] at hw
        rw [if_pos (by omega)]
        omega
      · rw [if_neg h2] at hw
        rw [if_neg (by omega)]
        omega
    · rw [if_neg hK]
      omega
  · have hn : nbk t L = tot t / L := by unfold nbk; rw [if_neg hr, Nat.add_zero]
    rw [if_neg hr, hn]
    omega

theorem room_odd (h1 : 1 ≤ tot t) (ho : Odd t L TH) :
    off t L TH (nbk t L) = 8 * tot t ∧
      psum (sz1 t L TH) (tot t / L) + szLast t L TH = (TH + 7) / 8 := by
  have hdm := Nat.div_add_mod (tot t) L
  rw [ho.1, Nat.mul_zero, Nat.zero_add] at hdm
  have hr : tot t % L > 0 := by omega
  have hn : nbk t L = 1 := by unfold nbk; rw [if_pos hr, ho.1]
  refine ⟨?_, ?_⟩
  · rw [hn, off_succ]
    unfold wd sparse sq
    rw [decide_eq_true (show bl t L 0 > TH by rw [ho.2]; omega), if_pos rfl,
      if_neg (show ¬ 0 < tot t / L by rw [ho.1]; omega), hdm]
    show 0 + _ = _
    omega
  · unfold szLast
    rw [if_pos hr]
    simp only []
    rw [ceil8, if_pos ho.1, ho.2, if_neg (by omega), ho.1]
    show 0 + _ = _
    rw [Nat.zero_add, Nat.add_sub_cancel]

/-! ## `build_std` -/

/-- The object that `build_std` makes. -/
structure BuiltSel (t : Vec Byte) (L TH : Nat) (x : Select) : Prop where
  selLen : x.selLen = 2 * nbk t L + 2
  slen : x.selLen ≤ x.sel.len
  ev : ∀ k, k ≤ nbk t L → x.sel.f (2 * k) = some (en t L k)
  od : ∀ k, k ≤ nbk t L → x.sel.f (2 * k + 1) = some (if k < nbk t L then off t L TH k else 0)
  bl : x.bitsLen = psum (sz1 t L TH) (tot t / L) + szLast t L TH
  bits : off t L TH (nbk t L) ≤ x.bits.len
  blen : x.bitsLen ≤ x.bits.len
  data : ∀ k, k < nbk t L → Data t L TH k x.bits
  text : x.textLen = t.len

theorem buildSel_cases (hL : 1 ≤ L) (hlen : t.len < 2 ^ 60) (h1 : 1 ≤ tot t) (aS aB : Nat) :
    (¬ (Odd t L TH ∧ (TH + 7) / 8 + roomBytes aB < 8 * tot t) →
      ∃ x, buildSel L TH aS aB t = ok x ∧ BuiltSel t L TH x) ∧
    (Odd t L TH ∧ (TH + 7) / 8 + roomBytes aB < 8 * tot t → buildSel L TH aS aB t = ub .oob) := by
  have hn := nbk_one hL h1
  have hnl : 2 * nbk t L + 2 < W64 := by
    have := tot_le t
    have : nbk t L ≤ tot t := by
      unfold nbk
      have := Nat.div_add_mod (tot t) L
      have := Nat.div_le_self (tot t) L
      by_cases hr : tot t % L > 0
      · rw [if_pos hr]
        have : tot t / L * 1 ≤ L * (tot t / L) := by rw [Nat.mul_comm]; exact Nat.mul_le_mul_right _ hL
        omega
      · rw [if_neg hr]; omega
    simp only [W64]; omega
  unfold buildSel
  rw [countOnes_ok, ok_bind]
  simp only []
  rw [entries_eq]
  obtain ⟨s, e, hs⟩ := sel1_ok (t := t) (TH := TH) (SL := 2 * nbk t L + 2 + room aS) hL hlen (by omega)
  rw [e, ok_bind, sub64_eq (by omega) hnl, Nat.add_sub_cancel]
  have h2 := sel2_ok (t := t) (TH := TH) (aB := aB) hL hlen h1 (show 2 * nbk t L + 2 ≤ 2 * nbk t L + 2 + room aS by omega)
    hs.len hs.ev
  have hroom := roomBytes_pos aB
  rw [hs.bits] at h2
  refine ⟨fun hno => ?_, fun ho => ?_⟩
  · have : off t L TH (nbk t L) ≤ psum (sz1 t L TH) (tot t / L) + szLast t L TH + roomBytes aB := by
      by_cases ho : Odd t L TH
      · have h3 := room_odd h1 ho
        have : ¬ (TH + 7) / 8 + roomBytes aB < 8 * tot t := fun hh => hno ⟨ho, hh⟩
        omega
      · have := room_enough hL ho
        omega
    obtain ⟨s2, e2, hf⟩ := h2.1 this
    rw [e2, ok_bind]
    refine ⟨_, rfl, rfl, ?_, hf.ev, hf.od, hs.bits, ?_, ?_, hf.data, rfl⟩
    · show 2 * nbk t L + 2 ≤ s2.sel.len
      rw [hf.slen]; omega
    · show _ ≤ s2.bits.len
      rw [hf.blen]; exact this
    · show s.bitsLen ≤ s2.bits.len
      rw [hf.blen, hs.bits]; omega
  · have h3 := room_odd h1 ho.1
    rw [h2.2 (by omega)]
    rfl

/-- Without a one there is no entry to read. -/
theorem buildSel_none (hL : 1 ≤ L) (hlen : t.len < 2 ^ 60) (h0 : tot t = 0) (aS aB : Nat) :
    buildSel L TH aS aB t = ub .uninit := by
  have hn : nbk t L = 0 := nbk_pos h0
  unfold buildSel
  rw [countOnes_ok, ok_bind]
  simp only []
  rw [entries_eq, hn]
  obtain ⟨s, e, hs⟩ := sel1_ok (t := t) (L := L) (TH := TH) (SL := 2 * nbk t L + 2 + room aS) hL hlen (by omega)
  rw [hn] at e
  rw [e, ok_bind]
  unfold sel2 uget
  have hnone := hs.none 2 (by omega)
  have hl := hs.len
  rw [Vec.get_ok (by unfold room at hl; omega), ok_bind, hnone]
  rfl

end MRS.Mran
