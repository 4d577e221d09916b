import Verif.Proofs.Mranisz.SelBch

/-! # Compressed select: the model's words and the specification's; sizes -/

set_option autoImplicit false

namespace MRS.Mran
open Outcome Spec Poppy

variable {X : List Byte} {L TH : Nat}

theorem upTo_iff {k e : Nat} (hk : k ≤ tot (textOf X)) :
    Text.UpTo (Text.bits X) k e ↔ e = if k = 0 then 0 else sel (textOf X) k + 1 := by
  unfold Text.UpTo
  rw [ones_T]
  constructor
  · rintro ⟨h1, h2⟩
    by_cases he : e = 0
    · subst he
      rw [T_zero] at h1
      rw [if_pos h1.symm]
    · have h2 := h2.resolve_left he
      have hl : e - 1 < 8 * X.length := by
        refine Nat.lt_of_not_le (fun h => ?_)
        rw [List.getElem?_eq_none (by rw [bits_length]; exact h)] at h2
        cases h2
      rw [bits_get X _ hl] at h2
      injection h2 with h2
      have h3 := T_succ (textOf X) (e - 1)
      rw [h2, show e - 1 + 1 = e by omega, h1] at h3
      have h4 : (true : Bool).toNat = 1 := rfl
      rw [if_neg (by omega), sel_eq hl h2 (by omega)]
      omega
  · intro he
    by_cases hk0 : k = 0
    · rw [if_pos hk0] at he
      rw [he, hk0]
      exact ⟨T_zero _, Or.inl rfl⟩
    · rw [if_neg hk0] at he
      obtain ⟨a, b, c⟩ := sel_spec (t := textOf X) (k := k) (by omega) hk
      refine ⟨by rw [he]; exact T_sel (by omega) hk, Or.inr ?_⟩
      rw [he, Nat.add_sub_cancel, bits_get X _ a, b]

theorem upTo_en {m e : Nat} (hL : 1 ≤ L) (h1 : 1 ≤ tot (textOf X)) :
    Text.UpTo (Text.bits X) (ob (textOf X) L m) e ↔ e = en (textOf X) L m := by
  rw [upTo_iff (ob_le m)]
  unfold en
  by_cases hm : m = 0
  · rw [if_pos hm, hm, ob_zero, if_pos rfl]
  · have := ob_pos (t := textOf X) hL (nbk_one hL h1) hm
    rw [if_neg hm, if_neg (by omega)]

theorem lastWide_iff (hL : 1 ≤ L) (h1 : 1 ≤ tot (textOf X)) :
    Text.LastWide (Text.bits X) L ↔ Bad (textOf X) L := by
  unfold Text.LastWide Bad
  rw [← tot_count]
  by_cases hr : tot (textOf X) % L > 0
  · have hn : nbk (textOf X) L = tot (textOf X) / L + 1 := by unfold nbk; rw [if_pos hr]
    have ha := fun e => upTo_en (X := X) (L := L) (m := tot (textOf X) / L) (e := e) hL h1
    have hb := fun e => upTo_en (X := X) (L := L) (m := tot (textOf X) / L + 1) (e := e) hL h1
    rw [ob_full (Nat.le_refl _)] at ha
    rw [← hn, ob_all hL] at hb
    have hs := en_succ (t := textOf X) (L := L) (m := tot (textOf X) / L) hL (by omega)
    rw [← hn] at hs
    constructor
    · rintro ⟨-, a, h2, h3⟩
      rw [ha] at h2
      rw [hb] at h3
      exact ⟨hr, by omega⟩
    · rintro ⟨-, h2⟩
      refine ⟨hr, _, (ha _).2 rfl, (hb _).2 ?_⟩
      omega
  · constructor
    · exact fun h => absurd h.1 hr
    · exact fun h => absurd h.1 hr

theorem lastAt_iff (hL : 1 ≤ L) (h1 : 1 ≤ tot (textOf X)) :
    Text.LastAt (Text.bits X) L TH ↔ Odd (textOf X) L TH := by
  unfold Text.LastAt Odd
  rw [← tot_count]
  have hb := fun e => upTo_en (X := X) (L := L) (m := 1) (e := e) hL h1
  have hbl : bl (textOf X) L 0 = en (textOf X) L 1 := by unfold bl; rw [en_zero]; rfl
  by_cases hlt : tot (textOf X) < L
  · have hob : ob (textOf X) L 1 = tot (textOf X) := by unfold ob; omega
    rw [hob] at hb
    rw [hb, hbl]
    constructor
    · rintro ⟨-, h2⟩; exact ⟨Nat.div_eq_of_lt hlt, h2.symm⟩
    · rintro ⟨-, h2⟩; exact ⟨hlt, h2.symm⟩
  · constructor
    · exact fun h => absurd h.1 hlt
    · intro h
      have := (Nat.div_pos (Nat.le_of_not_lt hlt) hL)
      omega

theorem nbk_ceil (hL : 1 ≤ L) (t : Vec Byte) : nbk t L = (tot t + (L - 1)) / L := by
  have h1 := Nat.div_add_mod (tot t) L
  have h2 := Nat.mod_lt (tot t) hL
  rw [Nat.mul_comm] at h1
  symm
  rw [Nat.div_eq_iff hL]
  unfold nbk
  by_cases hr : tot t % L > 0
  · rw [if_pos hr, Nat.add_mul, Nat.one_mul]; omega
  · rw [if_neg hr, Nat.add_zero]; omega

/-! ## Sizes -/

theorem bitsLen_le {t : Vec Byte} {c : Nat} (hL : 1 ≤ L) (hc : 1 ≤ c) (h : 64 * (L - 1) ≤ c * TH) :
    psum (sz1 t L TH) (tot t / L) + szLast t L TH ≤ c * t.len + nbk t L := by
  have hmul : ∀ {a b : Nat}, a ≤ b → c * a ≤ c * b := fun h => Nat.mul_le_mul_left c h
  have hself : ∀ a, a ≤ c * a := fun a => Nat.le_mul_of_pos_left a hc
  have hfull : ∀ K, K ≤ tot t / L → 8 * psum (sz1 t L TH) K ≤ c * en t L K + 8 * K := by
    intro K
    induction K with
    | zero => intro _; exact Nat.zero_le _
    | succ K ih =>
      intro hK
      have h1 := ih (by omega)
      have h2 := en_succ (t := t) (L := L) (m := K) hL (by have := nbk_ge t L; omega)
      have h3 : 8 * sz1 t L TH K ≤ c * bl t L K + 8 := by
        unfold sz1
        rw [ceil8, ceil8]
        have := hself (bl t L K)
        by_cases h4 : bl t L K > TH
        · rw [if_pos h4]
          have := hmul (Nat.le_of_lt h4)
          omega
        · rw [if_neg h4]
          split
          · split <;> omega
          · omega
      rw [psum_succ, ← h2, Nat.mul_add c]
      omega
  have h1 := hfull _ (Nat.le_refl _)
  have h2 := en_le (t := t) (L := L) (m := nbk t L) hL (Nat.le_refl _)
  have h3 : 8 * szLast t L TH + c * en t L (tot t / L) + 8 * (tot t / L) ≤ c * en t L (nbk t L) + 8 * nbk t L := by
    unfold szLast
    by_cases hr : tot t % L > 0
    · have hn : nbk t L = tot t / L + 1 := by unfold nbk; rw [if_pos hr]
      have h4 := en_succ (t := t) (L := L) (m := tot t / L) hL (by omega)
      have h5 := Nat.mod_lt (tot t) hL
      rw [if_pos hr, hn, ← h4, Nat.mul_add c]
      simp only []
      rw [ceil8]
      generalize hlen : (if tot t / L = 0 then bl t L 0 - 1 else bl t L (tot t / L)) = len
      have hle : len ≤ bl t L (tot t / L) := by
        rw [← hlen]
        split
        · rename_i h0; rw [h0]; omega
        · exact Nat.le_refl _
      have := hself len
      have := hmul hle
      by_cases h6 : len > TH
      · rw [if_pos h6]
        have := hmul (Nat.le_of_lt h6)
        omega
      · rw [if_neg h6]
        omega
    · have hn : nbk t L = tot t / L := by unfold nbk; rw [if_neg hr, Nat.add_zero]
      rw [if_neg hr, hn]
      omega
  have h4 := hmul h2
  rw [Nat.mul_left_comm] at h4
  omega

/-! ## Words as text -/

/-- Ones of whole bytes are in the same bytes in either order of bits. -/
theorem same_byte {ws : List Word} {k p p' : Nat} (h : IsSelect (Text.bits (Text.bytesOf ws)) k p)
    (h' : IsSelect (bitsOf ws) k p') : p / 8 = p' / 8 := by
  obtain ⟨a1, a2⟩ := h
  obtain ⟨b1, b2⟩ := h'
  have hl : p < 8 * (8 * ws.length) := by
    refine Nat.lt_of_not_le (fun hh => ?_)
    rw [List.getElem?_eq_none (by rw [bits_length, bytesOf_length]; exact hh)] at a1
    cases a1
  have hl' : p' < 64 * ws.length := by
    refine Nat.lt_of_not_le (fun hh => ?_)
    rw [List.getElem?_eq_none (by rw [bitsOf_length]; exact hh)] at b1
    cases b1
  have hmono : ∀ (B : List Bool) {a b : Nat}, a ≤ b → ones B a ≤ ones B b := by
    intro B a b hab
    unfold ones
    exact List.Sublist.count_le _ (List.take_sublist_take_left hab)
  have a3 := ones_next a1
  have b3 := ones_next b1
  have h1 : (true : Bool).toNat = 1 := rfl
  have e1 := ones_bytes ws (p / 8) (by omega)
  have e2 := ones_bytes ws (p / 8 + 1) (by omega)
  have f1 := ones_bytes ws (p' / 8) (by omega)
  have f2 := ones_bytes ws (p' / 8 + 1) (by omega)
  have g1 := hmono (Text.bits (Text.bytesOf ws)) (show 8 * (p / 8) ≤ p by omega)
  have g2 := hmono (Text.bits (Text.bytesOf ws)) (show p + 1 ≤ 8 * (p / 8 + 1) by omega)
  have g3 := hmono (bitsOf ws) (show 8 * (p' / 8) ≤ p' by omega)
  have g4 := hmono (bitsOf ws) (show p' + 1 ≤ 8 * (p' / 8 + 1) by omega)
  rcases Nat.lt_trichotomy (p / 8) (p' / 8) with hlt | heq | hgt
  · have := hmono (bitsOf ws) (show 8 * (p / 8 + 1) ≤ 8 * (p' / 8) by omega)
    omega
  · exact heq
  · have := hmono (bitsOf ws) (show 8 * (p' / 8 + 1) ≤ 8 * (p / 8) by omega)
    omega

end MRS.Mran
