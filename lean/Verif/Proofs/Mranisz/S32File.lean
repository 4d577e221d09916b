import Verif.Model.Mranisz.FileSel32
import Verif.Proofs.Mranisz.FileSel
import Verif.Proofs.Mranisz.File32
import Verif.Proofs.Mranisz.S32Bch

/-! # The 32-bit select objects that `load` makes -/

set_option autoImplicit false

namespace MRS.Mran.S32
open Outcome Spec

variable {t : Vec Byte} {L TH : Nat}

/-! ## What is not saved -/

/-- Some byte of the last block lies beyond `bitsLen`. -/
def Lost (t : Vec Byte) (L TH : Nat) : Prop :=
  ∃ p, Odd t L p ∧ ((p = TH ∧ (TH + 7) / 8 < 4 * tot t) ∨ (p < TH ∧ p + 1 ≠ L ∧ p % 8 = 0))

theorem off_many (hL : 1 ≤ L) (hK : tot t / L ≠ 0) : off t L TH (nbk t L) ≤ B t L TH := by
  have hfull : off t L TH (tot t / L) ≤ psum (sz1 t L TH) (tot t / L) :=
    psum_le (fun m hm => wd_le hL hm)
  unfold B szLast
  by_cases hr : tot t % L > 0
  · have hn : nbk t L = tot t / L + 1 := by unfold nbk; rw [if_pos hr]
    rw [if_pos hr, hn, off_succ]
    simp only []
    rw [ceil8, if_neg hK]
    have hw : wd t L TH (tot t / L) ≤ (if bl t L (tot t / L) > TH then 4 * (tot t % L) else (bl t L (tot t / L) + 7) / 8) := by
      unfold wd sparse mono sq sb
      simp only [decide_eq_true_eq, if_neg (Nat.lt_irrefl _)]
      by_cases h1 : bl t L (tot t / L) > TH
      · rw [if_pos h1, if_pos h1]; exact Nat.le_refl _
      · rw [if_neg h1, if_neg h1]
        split
        · omega
        · exact Nat.le_refl _
    omega
  · have hn : nbk t L = tot t / L := by unfold nbk; rw [if_neg hr, Nat.add_zero]
    rw [if_neg hr, hn]
    omega

/-- One incomplete block. -/
theorem single (h1 : 1 ≤ tot t) (h0 : tot t / L = 0) :
    nbk t L = 1 ∧
    off t L TH 1 = (if bl t L 0 > TH then 4 * tot t else if bl t L 0 = L then 0 else (bl t L 0 + 7) / 8) ∧
    B t L TH = (if bl t L 0 - 1 > TH then 4 * tot t else (bl t L 0 - 1 + 7) / 8) := by
  have hdm := Nat.div_add_mod (tot t) L
  rw [h0, Nat.mul_zero, Nat.zero_add] at hdm
  have hr : tot t % L > 0 := by omega
  refine ⟨by unfold nbk; rw [if_pos hr, h0], ?_, ?_⟩
  · rw [off_succ]
    unfold wd sparse mono sq sb
    simp only [decide_eq_true_eq, if_neg (show ¬ 0 < tot t / L by omega), hdm]
    show 0 + _ = _
    rw [Nat.zero_add]
    by_cases h2 : bl t L 0 > TH
    · rw [if_pos h2, if_pos h2]
    · rw [if_neg h2, if_neg h2]
      by_cases h3 : bl t L 0 = L
      · rw [if_pos ⟨h2, h3⟩, if_pos h3]
      · rw [if_neg (fun h => h3 h.2), if_neg h3]
  · unfold B szLast
    rw [if_pos hr]
    simp only []
    rw [ceil8, if_pos h0, h0, hdm]
    show 0 + _ = _
    rw [Nat.zero_add]

theorem lost_iff (hL : 1 ≤ L) (h1 : 1 ≤ tot t) : Lost t L TH ↔ B t L TH < off t L TH (nbk t L) := by
  by_cases h0 : tot t / L = 0
  · obtain ⟨hn, ho, hb⟩ := single (TH := TH) h1 h0
    have hp := bl_pos (t := t) (L := L) (m := 0) hL (by omega)
    rw [hn, ho, hb]
    constructor
    · rintro ⟨p, ⟨-, h2⟩, h3⟩
      rcases h3 with ⟨h3, h4⟩ | ⟨h3, h4, h5⟩
      · rw [if_neg (by omega), if_pos (by omega), h2]
        omega
      · rw [if_neg (by omega), if_neg (by omega), if_neg (by omega)]
        omega
    · intro h
      refine ⟨bl t L 0 - 1, ⟨h0, by omega⟩, ?_⟩
      by_cases h2 : bl t L 0 - 1 > TH
      · rw [if_pos h2, if_pos (by omega)] at h
        omega
      · rw [if_neg h2] at h
        by_cases h3 : bl t L 0 > TH
        · rw [if_pos h3] at h
          left
          have : bl t L 0 - 1 = TH := by omega
          rw [this] at h
          exact ⟨this, h⟩
        · rw [if_neg h3] at h
          by_cases h4 : bl t L 0 = L
          · rw [if_pos h4] at h
            omega
          · rw [if_neg h4] at h
            right
            exact ⟨by omega, by omega, by omega⟩
  · constructor
    · rintro ⟨p, ⟨h2, -⟩, -⟩
      exact absurd h2 h0
    · intro h
      have := off_many (TH := TH) hL h0
      omega

/-! ## The values fit -/

theorem bytes_le {c : Nat} (hL : 1 ≤ L) (hc : 1 ≤ c) (h : 32 * (L - 1) ≤ c * TH) :
    B t L TH ≤ c * t.len + nbk t L := by
  unfold B
  have hmul : ∀ {a b : Nat}, a ≤ b → c * a ≤ c * b := fun h => Nat.mul_le_mul_left c h
  have hself : ∀ a, a ≤ c * a := fun a => Nat.le_mul_of_pos_left a hc
  have hfull : ∀ K, K ≤ tot t / L → 8 * psum (sz1 t L TH) K ≤ c * en t L K + 8 * K := by
    intro K
    induction K with
    | zero => intro _; exact Nat.zero_le _
    | succ K ih =>
      intro hK
      have h1 := ih (by omega)
      have h2 := en_succ (t := t) (L := L) (m := K) hL (by have := nbk_ge t L; omega)
      have h3 : 8 * sz1 t L TH K ≤ c * bl t L K + 8 := by
        unfold sz1
        rw [ceil8, ceil8]
        have := hself (bl t L K)
        by_cases h4 : bl t L K > TH
        · rw [if_pos h4]
          have := hmul (Nat.le_of_lt h4)
          omega
        · rw [if_neg h4]
          split
          · split <;> omega
          · omega
      rw [psum_succ, ← h2, Nat.mul_add c]
      omega
  have h1 := hfull _ (Nat.le_refl _)
  have h2 := en_le (t := t) (L := L) (m := nbk t L) hL (Nat.le_refl _)
  have h3 : 8 * szLast t L TH + c * en t L (tot t / L) + 8 * (tot t / L) ≤ c * en t L (nbk t L) + 8 * nbk t L := by
    unfold szLast
    by_cases hr : tot t % L > 0
    · have hn : nbk t L = tot t / L + 1 := by unfold nbk; rw [if_pos hr]
      have h4 := en_succ (t := t) (L := L) (m := tot t / L) hL (by omega)
      have h5 := Nat.mod_lt (tot t) hL
      rw [if_pos hr, hn, ← h4, Nat.mul_add c]
      simp only []
      rw [ceil8]
      generalize hlen : (if tot t / L = 0 then bl t L 0 - 1 else bl t L (tot t / L)) = len
      have hle : len ≤ bl t L (tot t / L) := by
        rw [← hlen]
        split
        · rename_i h0; rw [h0]; omega
        · exact Nat.le_refl _
      have := hself len
      have := hmul hle
      by_cases h6 : len > TH
      · rw [if_pos h6]
        have := hmul (Nat.le_of_lt h6)
        omega
      · rw [if_neg h6]
        omega
    · have hn : nbk t L = tot t / L := by unfold nbk; rw [if_neg hr, Nat.add_zero]
      rw [if_neg hr, hn]
      omega
  have h4 := hmul h2
  rw [Nat.mul_left_comm] at h4
  omega

theorem selStd_fits {x : Select} (hL : 1 ≤ L) (hlen : t.len < 2 ^ 29) (hE : 2 * nbk t L + 2 + 32 < 2 ^ 32)
    (hx : BuiltSel t L TH x) : Fits32 x.sel x.selLen := by
  rw [hx.selLen]
  refine ⟨by simp only [W32]; omega, fun i hi v hv => ?_⟩
  by_cases hi2 : i % 2 = 0
  · have := en_le (t := t) (L := L) (m := i / 2) hL (by omega)
    rw [show i = 2 * (i / 2) by omega, hx.ev _ (by omega)] at hv
    injection hv with hv
    rw [← hv]
    simp only [W32]
    omega
  · rw [show i = 2 * (i / 2) + 1 by omega, hx.od _ (by omega)] at hv
    injection hv with hv
    rw [← hv]
    have h1 := hx.bits
    have h2 := hx.big
    split
    · have := off_mono (t := t) (L := L) TH (show i / 2 ≤ nbk t L by omega)
      simp only [W32]
      omega
    · decide

theorem selBch_fits {x : Select} (hL : 1 ≤ L) (hlen : t.len < 2 ^ 29) (hE : 2 * nbk t L + 2 + 32 ≤ 2 ^ 32)
    (hx : BuiltBch t L TH x) : Fits32 x.sel x.selLen := by
  rw [hx.selLen]
  refine ⟨by simp only [W32]; omega, fun i hi v hval => ?_⟩
  obtain ⟨b, hb, hf⟩ := hx.sup (i / 25) (by omega)
  have hfi := hf (i % 25) (Nat.mod_lt _ (by decide))
  rw [show 25 * (i / 25) + i % 25 = i by omega, hval] at hfi
  injection hfi with hfi
  rw [hfi]
  have hj : i % 25 < 25 := Nat.mod_lt _ (by decide)
  generalize i % 25 = j at hj
  rcases (show j < 16 ∨ j = 16 ∨ 17 ≤ j by omega) with h | h | h
  · rw [hb.sel _ h]
    unfold hv
    split
    · have := en_le (t := t) (L := L) (m := 16 * (i / 25) + j) hL (by assumption)
      simp only [W32]
      omega
    · decide
  · rw [h, hb.off]
    unfold ho
    have h1 := hx.bits
    have h2 := hx.big
    split
    · have := off_mono (t := t) (L := L) TH (show 16 * (i / 25) ≤ nbk t L by omega)
      simp only [W32]
      omega
    · decide
  · rw [show j = 17 + (j - 17) by omega, hb.dif _ (by omega)]
    exact acc_lt32 _ _

/-! ## Files -/

/-- The bytes of an array of bytes with its length. -/
def block41 (v : Vec (Option Byte)) (n : Nat) : File := cell4 (some n) ++ cells1 v.f 0 n

theorem block41_length (v : Vec (Option Byte)) (n : Nat) : (block41 v n).length = 4 + n := by
  unfold block41
  rw [List.length_append, cell4_length, cells1_length]

/-- The bytes of a `SelectBasic32`. -/
def file (x : Select) : File := cell4 (some x.textLen) ++ (block4 x.sel x.selLen ++ block41 x.bits x.bitsLen)

theorem file_length (x : Select) : (file x).length = 12 + 4 * x.selLen + x.bitsLen := by
  unfold file
  rw [List.length_append, List.length_append, cell4_length, block4_length, block41_length]
  omega

theorem save_ok {x : Select} (h1 : x.selLen ≤ x.sel.len) (h2 : x.bitsLen ≤ x.bits.len) (f : File) :
    save x f = ok (f ++ file x) := by
  unfold save file block41
  simp only []
  rw [saveInts_ok h1, ok_bind]
  by_cases hn : x.bitsLen > 0
  · rw [if_pos hn, fwrite1_ok h2]
    simp only [List.append_assoc]
  · have : x.bitsLen = 0 := by omega
    rw [if_neg hn, this]
    simp only [List.append_assoc]
    show _ = ok (f ++ (_ ++ (_ ++ (_ ++ []))))
    rw [List.append_nil]

/-- What `load` makes of it. -/
def back (x : Select) (aS aB : Nat) : Select :=
  ⟨clip x.sel x.selLen (room32 aS), x.selLen, clip x.bits x.bitsLen (roomBytes aB), x.bitsLen, x.textLen⟩

theorem items_room {n : Nat} (a : Nat) (h : n + 32 < W32) : items a n = n + room32 a := by
  unfold items add32 room32
  simp only [W32] at *
  omega

theorem load_ok {x : Select} (ht : x.textLen < W32) (hr : Fits32 x.sel x.selLen) (hs : x.selLen + 32 < W32)
    (hb : x.bitsLen + 128 < W32) (aS aB : Nat) (f : File) :
    load aS aB (file x ++ f) = ok (back x aS aB, f) := by
  unfold load file block4 block41
  simp only [List.append_assoc]
  rw [freadHead4_ok ht, ok_bind]
  simp only []
  rw [freadHead4_ok hr.1, ok_bind]
  simp only []
  have e1 : (if x.selLen > 0 then fread4 (fresh (items aS x.selLen)) x.selLen
      (cells4 x.sel.f 0 x.selLen ++ (cell4 (some x.bitsLen) ++ (cells1 x.bits.f 0 x.bitsLen ++ f)))
      else ok (fresh 0, cells4 x.sel.f 0 x.selLen ++ (cell4 (some x.bitsLen) ++ (cells1 x.bits.f 0 x.bitsLen ++ f)))) =
      ok (clip x.sel x.selLen (room32 aS), cell4 (some x.bitsLen) ++ (cells1 x.bits.f 0 x.bitsLen ++ f)) := by
    rw [items_room aS hs]
    unfold clip
    by_cases hn : x.selLen > 0
    · rw [if_pos hn, if_neg (by omega), fread4_ok (v := fresh (x.selLen + room32 aS)) (show x.selLen ≤ x.selLen + room32 aS by omega) hr.2]
      rfl
    · have h0 : x.selLen = 0 := by omega
      rw [if_neg hn, if_pos h0, h0]
      rfl
  rw [e1, ok_bind]
  simp only []
  rw [freadHead4_ok (by omega), ok_bind]
  simp only []
  rw [bytesAt_eq aB hb]
  unfold back
  by_cases hn : x.bitsLen > 0
  · rw [if_pos hn, fread1_ok (v := fresh (x.bitsLen + roomBytes aB)) (show x.bitsLen ≤ x.bitsLen + roomBytes aB by omega), ok_bind]
    simp only []
    rw [show clip x.bits x.bitsLen (roomBytes aB) = _ from if_neg (by omega)]
    rfl
  · have h0 : x.bitsLen = 0 := by omega
    rw [if_neg hn, show clip x.bits x.bitsLen (roomBytes aB) = _ from if_pos h0, h0]
    rfl

theorem load_cut {x : Select} (ht : x.textLen < W32) (hr : Fits32 x.sel x.selLen) (hs : x.selLen + 32 < W32)
    (hb : x.bitsLen < W32) (aS aB k : Nat) (hk : k < 12 + 4 * x.selLen + x.bitsLen) :
    load aS aB ((file x).take k) = abort := by
  unfold load file block4 block41
  have h1 := cell4_length (some x.textLen)
  have h2 := cell4_length (some x.selLen)
  have h3 := cells4_length x.sel.f x.selLen 0
  have h4 := cell4_length (some x.bitsLen)
  have h5 := cells1_length x.bits.f x.bitsLen 0
  rw [List.append_assoc]
  rcases take_two (cell4 (some x.textLen)) (cell4 (some x.selLen) ++ (cells4 x.sel.f 0 x.selLen ++
      (cell4 (some x.bitsLen) ++ cells1 x.bits.f 0 x.bitsLen))) k with ⟨h, e⟩ | ⟨h, e⟩
  · rw [e, freadHead4_cut (by rw [List.length_take]; omega)]
    rfl
  rw [e, freadHead4_ok ht, ok_bind]
  simp only []
  rw [h1] at h ⊢
  rcases take_two (cell4 (some x.selLen)) (cells4 x.sel.f 0 x.selLen ++
      (cell4 (some x.bitsLen) ++ cells1 x.bits.f 0 x.bitsLen)) (k - 4) with ⟨h', e'⟩ | ⟨h', e'⟩
  · rw [e', freadHead4_cut (by rw [List.length_take]; omega)]
    rfl
  rw [e', freadHead4_ok hr.1, ok_bind]
  simp only []
  rw [h2] at h' ⊢
  rcases take_two (cells4 x.sel.f 0 x.selLen) (cell4 (some x.bitsLen) ++ cells1 x.bits.f 0 x.bitsLen)
      (k - 4 - 4) with ⟨h'', e''⟩ | ⟨h'', e''⟩
  · rw [e'', if_pos (by omega)]
    unfold fread4
    rw [if_pos (by rw [List.length_take]; omega)]
    rfl
  rw [e'']
  have hrest : ∀ g : File, (if x.selLen > 0 then fread4 (fresh (items aS x.selLen)) x.selLen (cells4 x.sel.f 0 x.selLen ++ g)
      else ok (fresh 0, cells4 x.sel.f 0 x.selLen ++ g)) = ok (clip x.sel x.selLen (room32 aS), g) := by
    intro g
    rw [items_room aS hs]
    unfold clip
    by_cases hn : x.selLen > 0
    · rw [if_pos hn, if_neg (by omega), fread4_ok (v := fresh (x.selLen + room32 aS)) (show x.selLen ≤ x.selLen + room32 aS by omega) hr.2]
      rfl
    · have h0 : x.selLen = 0 := by omega
      rw [if_neg hn, if_pos h0, h0]
      rfl
  rw [hrest, ok_bind]
  simp only []
  rw [h3]
  rcases take_two (cell4 (some x.bitsLen)) (cells1 x.bits.f 0 x.bitsLen)
    (k - 4 - 4 - 4 * x.selLen) with ⟨h6, e6⟩ | ⟨h6, e6⟩
  · rw [e6, freadHead4_cut (by rw [List.length_take]; omega)]
    rfl
  rw [e6, freadHead4_ok hb, ok_bind]
  simp only []
  rw [if_pos (by omega)]
  unfold fread1
  rw [if_pos (by rw [List.length_take]; omega)]
  rfl

/-! ## Reading back -/

/-- Nothing is lost: the block data is complete. -/
theorem back_data {x : Select} {e : Nat} (hb : x.bitsLen = B t L TH) (hd : ∀ k, k < nbk t L → Data t L TH k x.bits)
    (h : off t L TH (nbk t L) ≤ B t L TH) :
    off t L TH (nbk t L) ≤ (clip x.bits x.bitsLen e).len ∧
      ∀ k, k < nbk t L → Data t L TH k (clip x.bits x.bitsLen e) := by
  refine ⟨by have := clip_len x.bits x.bitsLen e; omega, fun k hk => (hd k hk).frame (fun y hy => ?_)⟩
  have := off_mono (t := t) (L := L) TH (show k + 1 ≤ nbk t L from hk)
  exact (clip_f (by omega)).2

theorem load4_ub {strict : Bool} {bits : Vec (Option Byte)} {o k : Nat} (hk : k < 4) (h : bits.f (o + k) = none) :
    ∃ e, load4 strict bits o = ub e := by
  unfold load4
  split
  · exact ⟨_, rfl⟩
  · have key : ∀ n a (w : Word), a ≤ k → k < a + n → ∃ e, forFrom a n (fun k (w : Word) => do
        let b ← uget bits (o + k)
        ok (w + b.setWidth 64 <<< (8 * k))) w = ub e := by
      intro n
      induction n with
      | zero => intro a w h1 h2; omega
      | succ n ih =>
        intro a w h1 h2
        unfold forFrom
        simp only []
        by_cases hak : a = k
        · subst hak
          obtain ⟨e, he⟩ := uget_none h
          rw [he]
          exact ⟨e, rfl⟩
        · cases hu : uget bits (o + a) with
          | ok b =>
            rw [ok_bind, ok_bind]
            exact ih (a + 1) _ (by omega) (by omega)
          | ub e => exact ⟨e, rfl⟩
          | abort =>
            unfold uget Vec.get at hu
            split at hu
            · rw [ok_bind] at hu
              cases hv : bits.f (o + a) with
              | none => rw [hv] at hu; cases hu
              | some b => rw [hv] at hu; cases hu
            · cases hu
    exact key 4 0 0#64 (Nat.zero_le _) (by omega)

/-- Something is lost: the last one is out of reach. -/
theorem lost_query {q : Bool → Nat → Outcome Nat} {bits : Vec (Option Byte)} {e : Nat} (hL : 1 ≤ L) (hLT : L ≤ TH)
    (hbig : off t L TH (nbk t L) < 2 ^ 32) (h1 : 1 ≤ tot t)
    (hdata : Data t L TH 0 bits) (hl : Lost t L TH)
    (hq : Heads t L TH (clip bits (B t L TH) e) q) (strict : Bool) : ∃ f, q strict (tot t) = ub f := by
  have hlo := (lost_iff (TH := TH) hL h1).1 hl
  obtain ⟨p, ⟨h0, hbl⟩, hp⟩ := hl
  obtain ⟨hn, ho, hb⟩ := single (TH := TH) h1 h0
  have hdm := Nat.div_add_mod (tot t) L
  rw [h0, Nat.mul_zero, Nat.zero_add] at hdm
  have hmod : tot t % L ≠ 0 := by omega
  have hml := Nat.mod_lt (tot t) hL
  have hpart := hq.part strict (tot t) (Nat.le_refl _) hmod
  rw [h0, hdm, if_neg (by omega)] at hpart
  rw [hpart]
  have hoff : off t L TH 0 = 0 := rfl
  rw [hoff]
  rw [hn, ho] at hlo
  unfold fetch
  by_cases hsp : bl t L 0 > TH
  · rw [hn, ho, if_pos hsp] at hbig
    rw [if_pos hsp] at hlo ⊢
    rw [Nat.mod_eq_of_lt (show 4 * (tot t - 1) < W32 by simp only [W32]; omega)]
    obtain ⟨f, hf⟩ := load4_ub (strict := strict) (bits := clip bits (B t L TH) e) (o := 0 + 4 * (tot t - 1)) (k := 3)
      (by omega) (clip_none (by omega))
    rw [hf]
    exact ⟨f, rfl⟩
  · rw [if_neg hsp]
    have hp' : p < TH ∧ p + 1 ≠ L ∧ p % 8 = 0 := hp.resolve_left (by omega)
    have htg := target (t := t) (L := L) (m := 0) (i := tot t) hL (by omega) h1 (by omega) (by omega)
    rw [Nat.zero_mul, Nat.zero_add] at htg
    have hsel : sel t (tot t) = p := by
      have := (en_last (t := t) (L := L) (m := 0) hL (by omega)).1
      have hes := en_succ (t := t) (L := L) (m := 0) hL (by omega)
      have hall := ob_all (t := t) hL
      rw [hn] at hall
      rw [show 0 + 1 = 1 from rfl, hall] at this
      rw [en_zero] at hes
      simp only [Nat.zero_add] at hes
      omega
    rw [hsel] at htg
    rw [if_neg (by omega), hbl, Nat.add_sub_cancel] at hb
    have hs : sparse t L TH 0 = false := decide_eq_false (by omega)
    have hmo : mono t L TH 0 = false := decide_eq_false (by omega)
    have hd := hdata.2 hs hmo
    have hsb : sb t L 0 = p + 1 := by
      unfold sb
      rw [if_neg (by omega), hbl]
    have hcells : 0 + p / 8 ≤ (clip bits (B t L TH) e).len ∧ ∀ y, y < p / 8 → (clip bits (B t L TH) e).f (0 + y) =
        some (bacc t (en t L 0 + 8 * y) (min 8 (sb t L 0 - 8 * y))) := by
      refine ⟨by have := clip_len bits (B t L TH) e; omega, fun y hy => ?_⟩
      rw [(clip_f (by omega)).2, ← hd y (by omega), hoff]
    unfold scanBlock32 scanBlock
    have hT0 : T t (en t L 0) = 0 := T_zero t
    have hwl := wordLoop_ok (strict := strict) (o := 0) (Or.inr rfl) hcells htg ((bl t L 0 - 1) / 64) 0 rfl (by omega)
      (by omega) htg.lo
    obtain ⟨c, ec, hc⟩ := hwl
    rw [Nat.mul_zero, Nat.add_zero, Nat.add_zero, hT0, Nat.zero_mul, Nat.zero_add, Nat.sub_zero] at ec
    rw [ec, ok_bind]
    simp only []
    have hq0 : (p - en t L 0) / 8 = p / 8 := by rw [en_zero, Nat.sub_zero]
    obtain ⟨f, hf⟩ := byteLoop_ub (bits := clip bits (B t L TH) e) (o := 0) htg (by rw [hq0]; exact hcells)
      (by rw [hq0]; exact clip_none (by omega)) ((clip bits (B t L TH) e).len + 1) c hc
    rw [Nat.zero_mul, Nat.zero_add] at hf
    rw [hf]
    exact ⟨f, rfl⟩

/-! ## Round trips -/

theorem back_len {x : Select} {aS aB : Nat} (hb : x.bitsLen = B t L TH) (hB : B t L TH + 128 < 2 ^ 32) :
    (back x aS aB).bits.len < 2 ^ 32 := by
  show (clip x.bits x.bitsLen (roomBytes aB)).len < _
  have : roomBytes aB ≤ 128 := by unfold roomBytes; omega
  unfold clip
  split
  · decide
  · show x.bitsLen + roomBytes aB < _
    omega

theorem answers_unique {q q' : Bool → Nat → Outcome Nat} (h : Answers t L TH q) (h' : Answers t L TH q')
    (strict : Bool) {i : Nat} (h1 : 1 ≤ i) (hi : i ≤ tot t) : q strict i = q' strict i := by
  by_cases hb : Bad t L ∧ tot t / L * L < i
  · rw [h.bad strict i hi hb.1 hb.2, h'.bad strict i hi hb.1 hb.2]
  · rw [h.good strict i h1 hi hb, h'.good strict i h1 hi hb]

theorem selStd_back {x : Select} (hL : 1 ≤ L) (hLT : L ≤ TH) (hlen : t.len < 2 ^ 29) (h1 : 1 ≤ tot t)
    (hE : 2 * nbk t L + 2 < W32) (hB : B t L TH + 128 < 2 ^ 32) (hx : BuiltSel t L TH x) (aS aB : Nat) :
    (¬ Lost t L TH → ∀ strict i, 1 ≤ i → i ≤ tot t → selectStd strict L TH (back x aS aB) i = selectStd strict L TH x i) ∧
    (Lost t L TH → ∀ strict, ∃ f, selectStd strict L TH (back x aS aB) (tot t) = ub f) := by
  have hheads : Heads t L TH (back x aS aB).bits (fun strict i => selectStd strict L TH (back x aS aB) i) := by
    refine selectStd_heads hL hlen hE ?_ (fun k hk => ?_) (fun k hk => ?_)
    · have := clip_len x.sel x.selLen (room32 aS)
      rw [← hx.selLen]
      exact this
    · exact (clip_f (by rw [hx.selLen]; omega)).2.trans (hx.ev k hk)
    · exact (clip_f (by rw [hx.selLen]; omega)).2.trans (hx.od k hk)
  have hbl : x.bitsLen = B t L TH := hx.bl
  refine ⟨fun hl strict i hi1 hi => ?_, fun hl strict => ?_⟩
  · have hle : off t L TH (nbk t L) ≤ B t L TH := Nat.le_of_not_lt (fun h => hl ((lost_iff hL h1).2 h))
    have hd := back_data (x := x) (e := roomBytes aB) hbl hx.data hle
    exact answers_unique (answers_of hL hlen hd.1 (back_len (aS := aS) hbl hB) hd.2 hheads) (selectStd_ok hL hlen hE hx) strict hi1 hi
  · rw [show (back x aS aB).bits = clip x.bits (B t L TH) (roomBytes aB) by rw [← hbl]; rfl] at hheads
    exact lost_query hL hLT (Nat.lt_of_le_of_lt hx.bits hx.big) h1 (hx.data 0 (nbk_one hL h1)) hl hheads strict

theorem selBch_back {x : Select} (hL : 1 ≤ L) (hLT : L ≤ TH) (hL2 : 4 * (L - 1) ≤ 4369) (hTH : TH - 1 ≤ 8 * 4369)
    (hE : 2 * nbk t L + 2 + 32 ≤ 2 ^ 32) (hlen : t.len < 2 ^ 29) (h1 : 1 ≤ tot t)
    (hB : B t L TH + 128 < 2 ^ 32) (hx : BuiltBch t L TH x) (aS aB : Nat) :
    (¬ Lost t L TH → ∀ strict i, 1 ≤ i → i ≤ tot t → selectBch strict L TH (back x aS aB) i = selectBch strict L TH x i) ∧
    (Lost t L TH → ∀ strict, ∃ f, selectBch strict L TH (back x aS aB) (tot t) = ub f) := by
  have hheads : Heads t L TH (back x aS aB).bits (fun strict i => selectBch strict L TH (back x aS aB) i) := by
    refine selectBch_heads hL hL2 hTH hE hlen (Nat.lt_of_le_of_lt hx.bits hx.big) ?_ (fun k hk => ?_)
    · have := clip_len x.sel x.selLen (room32 aS)
      rw [← hx.selLen]
      exact this
    · obtain ⟨b, hb, hf⟩ := hx.sup k hk
      exact ⟨b, hb, fun j hj => (clip_f (by rw [hx.selLen]; omega)).2.trans (hf j hj)⟩
  have hbl : x.bitsLen = B t L TH := hx.bl
  refine ⟨fun hl strict i hi1 hi => ?_, fun hl strict => ?_⟩
  · have hle : off t L TH (nbk t L) ≤ B t L TH := Nat.le_of_not_lt (fun h => hl ((lost_iff hL h1).2 h))
    have hd := back_data (x := x) (e := roomBytes aB) hbl hx.data hle
    exact answers_unique (answers_of hL hlen hd.1 (back_len (aS := aS) hbl hB) hd.2 hheads) (selectBch_ok hL hL2 hTH hE hlen hx) strict hi1 hi
  · rw [show (back x aS aB).bits = clip x.bits (B t L TH) (roomBytes aB) by rw [← hbl]; rfl] at hheads
    exact lost_query hL hLT (Nat.lt_of_le_of_lt hx.bits hx.big) h1 (hx.data 0 (nbk_one hL h1)) hl hheads strict

/-- `load` after `save`, and of a file that was cut. -/
theorem sel_load {x : Select} (ht : x.textLen < W32) (hr : Fits32 x.sel x.selLen) (hs : x.selLen + 32 < W32)
    (hb : x.bitsLen + 128 < W32) (aS aB : Nat) :
    (∀ f, load aS aB (file x ++ f) = ok (back x aS aB, f)) ∧
      ∀ k, k < (file x).length → load aS aB ((file x).take k) = abort :=
  ⟨fun f => load_ok ht hr hs hb aS aB f,
    fun k hk => load_cut ht hr hs (by omega) aS aB k (by rw [← file_length]; exact hk)⟩


/-! ## Every group wide -/

theorem wide_bytes {X : List (BitVec 8)} (hL : 1 ≤ L)
    (hw : ∀ k, k < tot (textOf X) / L → Text.GroupWide (Text.bits X) L TH k) :
    4 * (L - 1) * (tot (textOf X) / L) ≤ B (textOf X) L TH := by
  have key : ∀ K, K ≤ tot (textOf X) / L → psum (sz1 (textOf X) L TH) K = 4 * (L - 1) * K := by
    intro K
    induction K with
    | zero => intro _; rfl
    | succ K ih =>
      intro hK
      have hb : bl (textOf X) L K > TH := by
        obtain ⟨a, b, h1, h2, h3⟩ := hw K hK
        have hpos : 1 ≤ tot (textOf X) := by
          refine Nat.pos_of_ne_zero (fun h => ?_)
          rw [h, Nat.zero_div] at hK
          omega
        have e1 := upTo_en (X := X) (L := L) (m := K) (e := a) hL hpos
        have e2 := upTo_en (X := X) (L := L) (m := K + 1) (e := b) hL hpos
        rw [ob_full (by omega)] at e1 e2
        have h4 := e1.1 h1
        have h5 := e2.1 h2
        have h6 := en_succ (t := textOf X) (L := L) (m := K) hL (by have := nbk_ge (textOf X) L; omega)
        omega
      rw [psum_succ, ih (by omega), Nat.mul_succ]
      unfold sz1
      rw [if_pos hb]
  unfold B
  rw [key _ (Nat.le_refl _)]
  exact Nat.le_add_right _ _

/-! ## Answers fit -/

theorem load4_lt {strict : Bool} {bits : Vec (Option Byte)} {o : Nat} {w : Word} (h : load4 strict bits o = ok w) :
    w.toNat < 2 ^ 32 := by
  unfold load4 at h
  split at h
  · cases h
  · have key : ∀ n a (w w' : Word), a + n ≤ 4 → w.toNat < 2 ^ (8 * a) → forFrom a n (fun k (w : Word) => do
        let b ← uget bits (o + k)
        ok (w + b.setWidth 64 <<< (8 * k))) w = ok w' → w'.toNat < 2 ^ (8 * (a + n)) := by
      intro n
      induction n with
      | zero => intro a w w' _ h1 h2; injection h2 with h2; rw [← h2]; exact h1
      | succ n ih =>
        intro a w w' ha h1 h2
        unfold forFrom at h2
        simp only [] at h2
        cases hu : uget bits (o + a) with
        | ok b =>
          rw [hu, ok_bind, ok_bind] at h2
          have := ih (a + 1) _ w' (by omega) ?_ h2
          · rw [show a + (n + 1) = a + 1 + n by omega]
            exact this
          · rw [BitVec.toNat_add, BitVec.toNat_shiftLeft, BitVec.toNat_setWidth, Nat.shiftLeft_eq]
            have hb := b.isLt
            have e : 2 ^ (8 * (a + 1)) = 2 ^ (8 * a) * 256 := by
              rw [show 8 * (a + 1) = 8 * a + 8 by omega, Nat.pow_add]
            have hle : 2 ^ (8 * a) ≤ 2 ^ 24 := Nat.pow_le_pow_right (by decide) (by omega)
            rw [Nat.mod_eq_of_lt (show b.toNat < 2 ^ 64 by omega), e]
            have hm : b.toNat * 2 ^ (8 * a) ≤ 255 * 2 ^ (8 * a) := Nat.mul_le_mul_right _ (by omega)
            generalize 2 ^ (8 * a) = q at *
            omega
        | ub e => rw [hu] at h2; cases h2
        | abort => rw [hu] at h2; cases h2
    exact key 4 0 0#64 w (by omega) (by decide) h

theorem fetch_lt {strict : Bool} {bits : Vec (Option Byte)} {o diff i select p : Nat}
    (h : fetch strict TH bits o diff i select = ok p) : p < 2 ^ 32 := by
  unfold fetch scanBlock32 at h
  split at h
  · cases hw : load4 strict bits (o + 4 * (i - 1) % W32) with
    | ok w =>
      rw [hw, ok_bind] at h
      injection h with h
      rw [← h]
      exact load4_lt hw
    | ub e => rw [hw] at h; cases h
    | abort => rw [hw] at h; cases h
  · cases hw : scanBlock strict bits o diff i select with
    | ok w =>
      rw [hw, ok_bind] at h
      injection h with h
      rw [← h]
      exact Nat.mod_lt _ (by decide)
    | ub e => rw [hw] at h; cases h
    | abort => rw [hw] at h; cases h

theorem bind_ok {α β : Type} {x : Outcome α} {f : α → Outcome β} {b : β} (h : (x >>= f) = ok b) :
    ∃ a, x = ok a ∧ f a = ok b := by
  cases x with
  | ok a => exact ⟨a, rfl, h⟩
  | ub e => cases h
  | abort => cases h

theorem selectStd_lt {strict : Bool} {x : Select} {i p : Nat} (h : selectStd strict L TH x i = ok p) : p < 2 ^ 32 := by
  unfold selectStd at h
  simp only [] at h
  obtain ⟨a, -, h⟩ := bind_ok h
  split at h
  · injection h with h
    rw [← h]
    exact Nat.mod_lt _ (by decide)
  · obtain ⟨b, -, h⟩ := bind_ok h
    split at h
    · injection h with h
      rw [← h]
      exact Nat.mod_lt _ (by decide)
    · obtain ⟨o, -, h⟩ := bind_ok h
      exact fetch_lt h

theorem selectBch_lt {strict : Bool} {x : Select} {i p : Nat} (h : selectBch strict L TH x i = ok p) : p < 2 ^ 32 := by
  unfold selectBch at h
  simp only [] at h
  obtain ⟨a, -, h⟩ := bind_ok h
  split at h
  · injection h with h
    rw [← h]
    exact Nat.mod_lt _ (by decide)
  · obtain ⟨b, -, h⟩ := bind_ok h
    split at h
    · injection h with h
      rw [← h]
      exact Nat.mod_lt _ (by decide)
    · obtain ⟨o, -, h⟩ := bind_ok h
      obtain ⟨o', -, h⟩ := bind_ok h
      exact fetch_lt h

end MRS.Mran.S32
