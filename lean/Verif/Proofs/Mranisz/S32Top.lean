import Verif.Proofs.Mranisz.S32Loop

/-! # 32-bit compressed select: `build` -/

set_option autoImplicit false

namespace MRS.Mran.S32
open Outcome Spec Poppy

variable {t : Vec Byte} {L TH : Nat}

/-- What the second part leaves: entries are first positions after blocks. -/
structure S2End (t : Vec Byte) (L TH SL BL : Nat) (g : Nat → Option Nat) (s : Sel2) : Prop where
  slen : s.sel.len = SL
  ev : ∀ k, k ≤ nbk t L → s.sel.f (2 * k) = some (en t L k)
  od : ∀ k, k ≤ nbk t L → s.sel.f (2 * k + 1) = some (if k < nbk t L then off t L TH k else 0)
  rest : ∀ y, 2 * nbk t L + 2 ≤ y → s.sel.f y = g y
  blen : s.bits.len = BL
  data : ∀ k, k < nbk t L → Data t L TH k s.bits

theorem sel2_ok {SL aB : Nat} {s : Sel1} (hL : 1 ≤ L) (hlen : t.len < 2 ^ 29) (h1 : 1 ≤ tot t)
    (hSL : 2 * nbk t L + 2 ≤ SL) (hs : s.sel.len = SL)
    (ev : ∀ m, m ≤ nbk t L → s.sel.f (2 * m) = some (en t L m - 1) ∧ s.sel.f (2 * m + 1) = some 0) :
    (off t L TH (nbk t L) ≤ bytesAt aB s.bitsLen →
      ∃ s', sel2 L TH t (tot t) (2 * nbk t L) (2 * nbk t L + 2) aB s = ok s' ∧
        S2End t L TH SL (bytesAt aB s.bitsLen) s.sel.f s') ∧
    (bytesAt aB s.bitsLen < off t L TH (nbk t L) →
      sel2 L TH t (tot t) (2 * nbk t L) (2 * nbk t L + 2) aB s = ub .oob) := by
  have hn := nbk_one hL h1
  have hK := len_eq (t := t) (L := L) (m := 0) hL hlen hn
  rw [if_pos rfl] at hK
  have he := en_lt (t := t) (L := L) (m := 0) hL hn
  have hle := en_le (t := t) (L := L) (m := 1) hL hn
  unfold sel2
  rw [uget_ok (a := en t L 1 - 1) (by omega) (ev 1 hn).1, ok_bind,
    uget_ok (a := en t L 0 - 1) (by omega) (ev 0 (by omega)).1, ok_bind]
  simp only []
  rw [hK]
  have hinv : S2Inv t L TH SL (bytesAt aB s.bitsLen) s.sel.f 0 0
      ⟨s.sel, fresh (bytesAt aB s.bitsLen), 0, 0, 0#8, 7, en t L 1 - 1, decide (bl t L 0 > TH),
        decide (¬ bl t L 0 > TH ∧ bl t L 0 = L)⟩ := by
    refine ⟨hn, Nat.le_refl _, by rw [en_zero] at he; exact he, rfl, rfl, rfl, rfl, hs, fun k hk => (ev k hk).1, ?_,
      fun _ _ => rfl, rfl, Nat.zero_le _, fun k hk => by omega, ?_, ?_, ?_⟩
    · intro k hk
      rw [(ev k hk).2]
      by_cases hk0 : k ≤ 0
      · rw [if_pos hk0, show k = 0 by omega]; rfl
      · rw [if_neg hk0]
    · intro _
      exact ⟨by rw [T_zero, Nat.zero_sub]; rfl, by intro j hj; rw [T_zero] at hj; omega⟩
    · intro _ _; rfl
    · intro _ _
      rw [en_zero]
      exact ⟨rfl, rfl, rfl, by intro y hy; omega⟩
  rcases sel2Loop_ok hL hlen hSL (8 * t.len) 0 0 _ (by omega) hinv with ⟨s2, e, hf⟩ | ⟨e, hb⟩
  · refine ⟨fun _ => ?_, fun hc => ?_⟩
    · rw [e, ok_bind]
      obtain ⟨v, ev', hv⟩ := forN_inv
        (body := fun k (v : Vec (Option Nat)) => do
          let x ← uget v (2 + 2 * k)
          v.set (2 + 2 * k) (some (add32 x 1)))
        (fun j v => v.len = SL ∧ (∀ k, k ≤ nbk t L → v.f (2 * k) = some (if k ≤ j then en t L k else en t L k - 1)) ∧
          (∀ k, k ≤ nbk t L → v.f (2 * k + 1) = some (if k < nbk t L then off t L TH k else 0)) ∧
          ∀ y, 2 * nbk t L + 2 ≤ y → v.f y = s.sel.f y) ((2 * nbk t L + 2) / 2 - 1) s2.sel
        ⟨hf.slen, by
          intro k hk
          rw [hf.ev k hk]
          by_cases hk0 : k ≤ 0
          · rw [if_pos hk0, show k = 0 by omega]; rfl
          · rw [if_neg hk0], hf.od, hf.rest⟩
        (by
          intro j v hj ⟨v1, v2, v3, v4⟩
          have hx := v2 (j + 1) (by omega)
          rw [if_neg (by omega)] at hx
          have hpos := en_lt (t := t) (L := L) (m := j) hL (by omega)
          have hle := en_le (t := t) (L := L) (m := j + 1) hL (by omega)
          have ha : add32 (en t L (j + 1) - 1) 1 = en t L (j + 1) := by
            unfold add32
            rw [Nat.mod_eq_of_lt (by simp only [W32]; omega)]
            omega
          rw [uget_ok (i := 2 + 2 * j) (a := en t L (j + 1) - 1) (by omega)
            (by rw [show 2 + 2 * j = 2 * (j + 1) by omega]; exact hx), ok_bind, Vec.set_ok _ (by omega)]
          refine ⟨_, rfl, v1, ?_, ?_, ?_⟩
          · intro k hk
            show (if 2 * k = 2 + 2 * j then _ else _) = _
            by_cases hkj : k = j + 1
            · rw [if_pos (by omega), if_pos (by omega), hkj, ha]
            · rw [if_neg (by omega), v2 k hk]
              by_cases hk' : k ≤ j
              · rw [if_pos hk', if_pos (by omega)]
              · rw [if_neg hk', if_neg (by omega)]
          · intro k hk
            show (if 2 * k + 1 = 2 + 2 * j then _ else _) = _
            rw [if_neg (by omega), v3 k hk]
          · intro y hy
            show (if y = 2 + 2 * j then _ else _) = _
            rw [if_neg (by omega), v4 y hy])
      rw [ev', ok_bind]
      refine ⟨_, rfl, hv.1, ?_, hv.2.2.1, hv.2.2.2, hf.blen, hf.data⟩
      intro k hk
      show v.f (2 * k) = _
      rw [hv.2.1 k hk, if_pos (by omega)]
    · have := hf.room
      omega
  · refine ⟨fun hc => by omega, fun _ => ?_⟩
    rw [e]; rfl

/-! ## Room -/

theorem wd_le (hL : 1 ≤ L) {m : Nat} (h : m < tot t / L) : wd t L TH m ≤ sz1 t L TH m := by
  have hb := bl_ge hL h
  unfold wd sz1 sparse mono sq sb
  rw [ceil8, ceil8]
  simp only [decide_eq_true_eq, if_pos h]
  by_cases h1 : bl t L m > TH
  · rw [if_pos h1, if_pos h1]; exact Nat.le_refl _
  · rw [if_neg h1, if_neg h1]
    by_cases h2 : bl t L m = L
    · rw [if_pos ⟨h1, h2⟩]; exact Nat.zero_le _
    · rw [if_neg (fun hh => h2 hh.2), if_pos (by omega)]
      by_cases h3 : m = 0
      · rw [if_pos h3]; omega
      · rw [if_neg h3]; exact Nat.le_refl _

theorem room_enough (hL : 1 ≤ L) (ho : ¬ Odd t L TH) :
    off t L TH (nbk t L) ≤ psum (sz1 t L TH) (tot t / L) + szLast t L TH + 1 := by
  have hfull : off t L TH (tot t / L) ≤ psum (sz1 t L TH) (tot t / L) :=
    psum_le (fun m hm => wd_le hL hm)
  unfold szLast
  by_cases hr : tot t % L > 0
  · have hn : nbk t L = tot t / L + 1 := by unfold nbk; rw [if_pos hr]
    rw [if_pos hr, hn, off_succ]
    simp only []
    rw [ceil8]
    have hw : wd t L TH (tot t / L) ≤ (if bl t L (tot t / L) > TH then 4 * (tot t % L) else (bl t L (tot t / L) + 7) / 8) := by
      unfold wd sparse mono sq sb
      simp only [decide_eq_true_eq, if_neg (Nat.lt_irrefl _)]
      by_cases h1 : bl t L (tot t / L) > TH
      · rw [if_pos h1, if_pos h1]; exact Nat.le_refl _
      · rw [if_neg h1, if_neg h1]
        split
        · omega
        · exact Nat.le_refl _
    by_cases hK : tot t / L = 0
    · rw [if_pos hK]
      have ho' : bl t L 0 ≠ TH + 1 := fun hh => ho ⟨hK, hh⟩
      have hp := bl_pos (t := t) (L := L) (m := 0) hL (by omega)
      rw [hK] at hw hfull ⊢
      by_cases h2 : bl t L 0 > TH
      · rw [if_pos h2] at hw
        rw [if_pos (by omega)]
        omega
      · rw [if_neg h2] at hw
        rw [if_neg (by omega)]
        omega
    · rw [if_neg hK]
      omega
  · have hn : nbk t L = tot t / L := by unfold nbk; rw [if_neg hr, Nat.add_zero]
    rw [if_neg hr, hn]
    omega

theorem room_odd (h1 : 1 ≤ tot t) (ho : Odd t L TH) :
    off t L TH (nbk t L) = 4 * tot t ∧
      psum (sz1 t L TH) (tot t / L) + szLast t L TH = (TH + 7) / 8 := by
  have hdm := Nat.div_add_mod (tot t) L
  rw [ho.1, Nat.mul_zero, Nat.zero_add] at hdm
  have hr : tot t % L > 0 := by omega
  have hn : nbk t L = 1 := by unfold nbk; rw [if_pos hr, ho.1]
  refine ⟨?_, ?_⟩
  · rw [hn, off_succ]
    unfold wd sparse sq
    rw [decide_eq_true (show bl t L 0 > TH by rw [ho.2]; omega), if_pos rfl,
      if_neg (show ¬ 0 < tot t / L by rw [ho.1]; omega), hdm]
    show 0 + _ = _
    omega
  · unfold szLast
    rw [if_pos hr]
    simp only []
    rw [ceil8, if_pos ho.1, ho.2, if_neg (by omega), ho.1]
    show 0 + _ = _
    rw [Nat.zero_add, Nat.add_sub_cancel]

/-! ## `build_std` -/

/-- The object that `build_std` makes. -/
structure BuiltSel (t : Vec Byte) (L TH : Nat) (x : Select) : Prop where
  selLen : x.selLen = 2 * nbk t L + 2
  slen : x.selLen ≤ x.sel.len
  ev : ∀ k, k ≤ nbk t L → x.sel.f (2 * k) = some (en t L k)
  od : ∀ k, k ≤ nbk t L → x.sel.f (2 * k + 1) = some (if k < nbk t L then off t L TH k else 0)
  bl : x.bitsLen = psum (sz1 t L TH) (tot t / L) + szLast t L TH
  bits : off t L TH (nbk t L) ≤ x.bits.len
  blen : x.bitsLen ≤ x.bits.len
  data : ∀ k, k < nbk t L → Data t L TH k x.bits
  big : x.bits.len < 2 ^ 32
  text : x.textLen = t.len

/-- The bytes that the first pass counts. -/
def B (t : Vec Byte) (L TH : Nat) : Nat := psum (sz1 t L TH) (tot t / L) + szLast t L TH

theorem items_eq {n : Nat} (a : Nat) (h : n + 32 < W32) : n < items a n ∧ items a n ≤ n + 32 := by
  unfold items add32
  rw [Nat.mod_eq_of_lt h]
  omega

theorem bytesAt_eq {n : Nat} (a : Nat) (h : n + 128 < W32) : bytesAt a n = n + roomBytes a := by
  unfold bytesAt add32 roomBytes
  rw [Nat.mod_eq_of_lt h]
  omega

theorem bytesAt_lt (a n : Nat) : bytesAt a n < 2 ^ 32 := by
  unfold bytesAt add32
  simp only [W32]
  omega

/-- Only the first block and the last one can take less than was counted. -/
theorem count_le (hL : 1 ≤ L) : B t L TH ≤ off t L TH (nbk t L) + t.len + 1 := by
  have hfull : ∀ K, K ≤ tot t / L → psum (sz1 t L TH) K ≤ off t L TH K + (if K = 0 then 0 else 1) := by
    intro K
    induction K with
    | zero => intro _; exact Nat.zero_le _
    | succ K ih =>
      intro hK
      have h1 := ih (by omega)
      have hb := bl_ge hL (show K < tot t / L from hK)
      have h3 : sz1 t L TH K ≤ wd t L TH K + (if K = 0 then 1 else 0) := by
        unfold wd sz1 sparse mono sq sb
        rw [ceil8, ceil8]
        simp only [decide_eq_true_eq, if_pos (show K < tot t / L from hK)]
        by_cases h1 : bl t L K > TH
        · rw [if_pos h1, if_pos h1]; omega
        · rw [if_neg h1, if_neg h1]
          by_cases h2 : bl t L K > L
          · rw [if_pos h2, if_neg (show ¬ (¬ bl t L K > TH ∧ bl t L K = L) by omega)]
            by_cases h3 : K = 0
            · rw [if_pos h3, if_pos h3]; omega
            · rw [if_neg h3, if_neg h3]; omega
          · rw [if_neg h2]; omega
      rw [psum_succ, off_succ, if_neg (by omega)]
      by_cases h4 : K = 0
      · rw [if_pos h4] at h1 h3; omega
      · rw [if_neg h4] at h1 h3; omega
  have h1 := hfull _ (Nat.le_refl _)
  have h2 : (if tot t / L = 0 then 0 else 1) ≤ 1 := by split <;> omega
  unfold B szLast
  by_cases hr : tot t % L > 0
  · have hn : nbk t L = tot t / L + 1 := by unfold nbk; rw [if_pos hr]
    rw [if_pos hr, hn, off_succ]
    simp only []
    rw [ceil8]
    have h4 := en_succ (t := t) (L := L) (m := tot t / L) hL (by omega)
    have h5 := en_le (t := t) (L := L) (m := tot t / L + 1) hL (by omega)
    generalize hlen : (if tot t / L = 0 then bl t L 0 - 1 else bl t L (tot t / L)) = len
    have hle : len ≤ bl t L (tot t / L) := by
      rw [← hlen]
      split
      · rename_i h0; rw [h0]; omega
      · exact Nat.le_refl _
    by_cases h6 : len > TH
    · have hw : wd t L TH (tot t / L) = 4 * (tot t % L) := by
        unfold wd sparse sq
        rw [decide_eq_true (show bl t L (tot t / L) > TH by omega), if_pos rfl, if_neg (Nat.lt_irrefl _)]
      rw [if_pos h6, hw]
      omega
    · rw [if_neg h6]
      omega
  · have hn : nbk t L = tot t / L := by unfold nbk; rw [if_neg hr, Nat.add_zero]
    rw [if_neg hr, hn]
    omega

/-- When the bytes that the first pass counts do not fit, the second pass finds no room. -/
theorem wrap_room (hL : 1 ≤ L) (hlen : t.len < 2 ^ 29) (aB : Nat) (hB : W32 ≤ B t L TH + 128) :
    bytesAt aB (B t L TH % W32) < off t L TH (nbk t L) := by
  have := count_le (t := t) (TH := TH) hL
  unfold bytesAt add32
  simp only [W32] at *
  omega

theorem nbk_le (hL : 1 ≤ L) : nbk t L ≤ tot t := by
  unfold nbk
  have := Nat.div_add_mod (tot t) L
  have := Nat.div_le_self (tot t) L
  by_cases hr : tot t % L > 0
  · rw [if_pos hr]
    have : tot t / L * 1 ≤ L * (tot t / L) := by rw [Nat.mul_comm]; exact Nat.mul_le_mul_right _ hL
    omega
  · rw [if_neg hr]; omega

/-- When `build` writes beyond its array. -/
def Short (t : Vec Byte) (L TH aB : Nat) : Prop :=
  (Odd t L TH ∧ (TH + 7) / 8 + roomBytes aB < 4 * tot t) ∨ 2 ^ 32 ≤ B t L TH + 128

theorem room_iff (hL : 1 ≤ L) (hlen : t.len < 2 ^ 29) (h1 : 1 ≤ tot t) (aB : Nat) :
    bytesAt aB (B t L TH % W32) < off t L TH (nbk t L) ↔ Short t L TH aB := by
  have hroom := roomBytes_pos aB
  unfold Short
  by_cases hB : W32 ≤ B t L TH + 128
  · exact ⟨fun _ => Or.inr hB, fun _ => wrap_room hL hlen aB hB⟩
  · rw [Nat.mod_eq_of_lt (by omega), bytesAt_eq aB (by omega)]
    simp only [W32] at hB
    by_cases ho : Odd t L TH
    · have h3 := room_odd h1 ho
      have hBe : B t L TH = (TH + 7) / 8 := h3.2
      rw [hBe] at hB ⊢
      rw [h3.1]
      constructor
      · exact fun h => Or.inl ⟨ho, h⟩
      · rintro (h | h)
        · exact h.2
        · omega
    · have h4 : off t L TH (nbk t L) ≤ B t L TH + 1 := room_enough hL ho
      constructor
      · intro h; omega
      · rintro (h | h)
        · exact absurd h.1 ho
        · omega

theorem buildSel_cases (hL : 1 ≤ L) (hlen : t.len < 2 ^ 29) (h1 : 1 ≤ tot t) (hE : 2 * nbk t L + 2 + 32 < 2 ^ 32)
    (aS aB : Nat) :
    (¬ Short t L TH aB → ∃ x, buildSel L TH aS aB t = ok x ∧ BuiltSel t L TH x) ∧
    (Short t L TH aB → buildSel L TH aS aB t = ub .oob) := by
  have hn := nbk_one hL h1
  unfold buildSel
  rw [countOnes_ok hlen, ok_bind]
  simp only []
  rw [entries_eq (by simp only [W32]; omega)]
  have hi := items_eq aS (show 2 * nbk t L + 2 + 32 < W32 by simp only [W32]; omega)
  obtain ⟨s, e, hs⟩ := sel1_ok (t := t) (TH := TH) (SL := items aS (2 * nbk t L + 2)) hL hlen (by omega)
  rw [e, ok_bind, sub32_eq (by omega) (by simp only [W32]; omega), Nat.add_sub_cancel]
  have h2 := sel2_ok (t := t) (TH := TH) (aB := aB) hL hlen h1 (show 2 * nbk t L + 2 ≤ items aS (2 * nbk t L + 2) by omega)
    hs.len hs.ev
  have hb : s.bitsLen = B t L TH % W32 := hs.bits
  rw [hb] at h2
  have hr := room_iff (t := t) (TH := TH) hL hlen h1 aB
  refine ⟨fun hno => ?_, fun ho => ?_⟩
  · have hle : off t L TH (nbk t L) ≤ bytesAt aB (B t L TH % W32) :=
      Nat.le_of_not_lt (fun h => hno (hr.1 h))
    have hB : B t L TH + 128 < W32 := Nat.lt_of_not_le (fun h => hno (Or.inr h))
    have hBe := Nat.mod_eq_of_lt (show B t L TH < W32 by omega)
    obtain ⟨s2, e2, hf⟩ := h2.1 hle
    rw [e2, ok_bind]
    refine ⟨_, rfl, rfl, ?_, hf.ev, hf.od, ?_, ?_, ?_, hf.data, ?_, rfl⟩
    · show 2 * nbk t L + 2 ≤ s2.sel.len
      rw [hf.slen]; omega
    · show s.bitsLen = B t L TH
      rw [hb, hBe]
    · show _ ≤ s2.bits.len
      rw [hf.blen]; exact hle
    · show s.bitsLen ≤ s2.bits.len
      rw [hf.blen, hb, hBe, bytesAt_eq aB hB]; omega
    · show s2.bits.len < 2 ^ 32
      rw [hf.blen]; exact bytesAt_lt _ _
  · rw [h2.2 (hr.2 ho)]
    rfl

/-- Without a one there is no entry to read. -/
theorem buildSel_none (hL : 1 ≤ L) (hlen : t.len < 2 ^ 29) (h0 : tot t = 0) (aS aB : Nat) :
    buildSel L TH aS aB t = ub .uninit := by
  have hn : nbk t L = 0 := nbk_pos h0
  unfold buildSel
  rw [countOnes_ok hlen, ok_bind]
  simp only []
  rw [entries_eq (by rw [hn]; decide), hn]
  have hi := items_eq (n := 2 * 0 + 2) aS (by decide)
  obtain ⟨s, e, hs⟩ := sel1_ok (t := t) (L := L) (TH := TH) (SL := items aS (2 * 0 + 2)) hL hlen (by rw [hn]; exact Nat.le_of_lt hi.1)
  rw [e, ok_bind]
  unfold sel2 uget
  have hnone := hs.none 2 (by omega)
  have hl := hs.len
  rw [Vec.get_ok (by rw [hl]; exact hi.1), ok_bind, hnone]
  rfl

/-! ## Too many entries -/

theorem entries_mod (t : Vec Byte) (L : Nat) : entries L (tot t) = (2 * nbk t L + 2) % W32 := by
  have : 2 * (tot t / L) + 2 + (if tot t % L > 0 then 2 else 0) = 2 * nbk t L + 2 := by
    unfold nbk; split <;> omega
  unfold entries
  rw [this]

theorem buildSel_many (hL : 1 ≤ L) (hlen : t.len < 2 ^ 29) (hE : 2 ^ 32 ≤ 2 * nbk t L + 2 + 32) (aS aB : Nat) :
    buildSel L TH aS aB t = ub .oob := by
  unfold buildSel
  rw [countOnes_ok hlen, ok_bind]
  simp only []
  rw [entries_mod, sel1_short hL hlen]
  · rfl
  · unfold items add32
    simp only [W32]
    omega

end MRS.Mran.S32
