import Verif.Proofs.Mranisz.S32mQuery
import Verif.Proofs.Mranisz.SelMpeLink
import Verif.Proofs.Mranisz.S32File

/-! # Compressed select with pairs left out, 32 bits: no ones, parameters, files -/

set_option autoImplicit false

namespace MRS.Mran.S32
open Outcome Spec Poppy

variable {ty : MpeType} {t : Vec Byte} {L TH : Nat}

/-- Without a one `blockToCompress` has no entries, and the first is written or read. -/
theorem buildSelMpe_none (ty : MpeType) (hL : 1 ≤ L) (hlen : t.len < 2 ^ 29) (h0 : tot t = 0) (aS aB : Nat) (g : JunkS) :
    buildSelMpe ty L TH aS aB g t = ub .oob := by
  have hn : nbk t L = 0 := nbk_pos h0
  unfold buildSelMpe
  rw [countOnes_ok hlen, ok_bind]
  simp only []
  rw [entries_eq (by rw [hn]; decide), selTmpLen_eq (by rw [hn]; decide), hn]
  obtain ⟨s, e, hs⟩ := sel1_ok (t := t) (L := L) (TH := TH) (SL := 32) hL hlen (by omega)
  have hcn := hs.cnt
  rw [hn] at hcn
  obtain ⟨w, ew, w1, w2, w3⟩ := pad_ok (SL := 32) (c := s.cnt) hs.len (by omega)
  have hw : ∀ y, y < 32 → w.f y = some 0 := by
    intro y hy
    by_cases hyc : y < s.cnt
    · rw [w2 y hyc]
      have h := hs.ev 0 (Nat.zero_le _)
      by_cases hy0 : y = 0
      · rw [hy0]; exact h.1
      · rw [show y = 1 by omega]; exact h.2
    · exact w3 y (by omega) hy
  rw [show 32 * (0 / 16 + 1) = 32 from rfl, e, ok_bind, ew, ok_bind, hcn, show sub32 (2 * 0 + 2) 2 = 0 by decide]
  have hst : walkStart L TH w = ok ⟨⟨fresh (TH / 8 + 1), 0, 0#8, 7⟩, 0, 0, 1, decide (1 > TH), decide (¬ 1 > TH ∧ 1 = L)⟩ := by
    unfold walkStart
    rw [uget_ok (a := 0) (by omega) (hw 2 (by omega)), ok_bind, uget_ok (a := 0) (by omega) (hw 0 (by omega)), ok_bind]
    rw [show add32 (sub32 0 0) 1 = 1 by decide]
  unfold planS
  rw [hst, ok_bind]
  by_cases hl : t.len = 0
  · rw [hl]
    unfold walkS
    rw [ok_bind, ok_bind]
    unfold encodeS
    rw [hst, ok_bind]
    show ((uget (memory g.flags 0) 0 >>= _) >>= _ : Outcome Select) = _
    have : uget (memory g.flags 0) 0 = ub .oob := rfl
    rw [this]
    rfl
  · rw [show 8 * t.len = (8 * t.len - 1) + 1 by omega]
    unfold walkS
    rw [bitAt_ok (by omega), ok_bind, Nat.zero_mod, if_pos rfl]
    simp only []
    rw [if_neg (by omega)]
    have hfl : Walk.flush ⟨⟨fresh (TH / 8 + 1), 0, 0#8, 7⟩, 0 + 2, 0, 1, decide (1 > TH), decide (¬ 1 > TH ∧ 1 = L)⟩ =
        ok ⟨⟨fresh (TH / 8 + 1), 0, 0#8, 7⟩, 0 + 2, 0, 1, decide (1 > TH), decide (¬ 1 > TH ∧ 1 = L)⟩ := by
      unfold Walk.flush
      simp
    rw [hfl, ok_bind]
    show ((((planNext ty _ ⟨memory g.flags 0, 0, 0, 0⟩) >>= _) >>= _) >>= _ : Outcome Select) = _
    unfold planNext
    rw [set_none _ (by show ¬ 0 < 0; omega)]
    rfl

/-- What the constructor would have to ask for. -/
def FitsPar (ty : MpeType) (L TH : Nat) : Prop := 4 * (L - 1) ≤ lim ty ∧ 2 * ((TH - 1) / 128 + 1) + 2 * L + 35 ≤ lim ty

instance (ty : MpeType) (L TH : Nat) : Decidable (FitsPar ty L TH) := by unfold FitsPar; infer_instance

theorem fitsS (hL : 1 ≤ L) (hp : FitsPar ty L TH) : FitsS ty t L TH := by
  intro k hk
  have hfull := full_of_lt hk
  obtain ⟨p1, p2⟩ := hp
  by_cases hs : sparse t L TH k = true
  · rw [wdS_sparse hs]
    unfold sq
    rw [if_pos hfull]
    exact p1
  · have hs' : sparse t L TH k = false := by simpa using hs
    by_cases hm : mono t L TH k = true
    · rw [wdS_mono hs' hm]; exact Nat.zero_le _
    · have hd : Dense t L TH k := ⟨hs', by simpa using hm⟩
      have h1 := wdS_eq (ty := ty) (t := t) (L := L) (TH := TH) k
      have h2 := dense_small (ty := ty) hL hk hd
      have h3 := tbs_th hd
      have hw : wd t L TH k = nby t L k := by
        unfold wd
        rw [if_neg hs, if_neg hm]
        rfl
      omega

theorem data_first {bits : Vec (Option Byte)} {m : Nat} (hd : DataS ty t L TH m bits) (hw : 0 < wdS ty t L TH m) :
    bits.f (offS ty t L TH m) ≠ none := by
  by_cases hs : sparse t L TH m = true
  · rw [wdS_sparse hs] at hw
    have := hd.sp hs 0 (by omega) 0 (by omega)
    rw [Nat.mul_zero, Nat.add_zero, Nat.add_zero] at this
    rw [this]; simp
  · have hs' : sparse t L TH m = false := by simpa using hs
    by_cases hmo : mono t L TH m = true
    · rw [wdS_mono hs' hmo] at hw; omega
    · have hde : Dense t L TH m := ⟨hs', by simpa using hmo⟩
      by_cases hk : ks ty t L TH m = 0
      · have hwd : wdS ty t L TH m = nby t L m := by
          unfold wdS wd; rw [if_pos hk, if_neg hs, if_neg hmo]; rfl
        have := hd.de hde hk 0 (by omega)
        rw [Nat.add_zero] at this
        rw [this]; simp
      · have := (hd.co hk).t1 0 (by unfold tbs; omega)
        rw [Nat.add_zero] at this
        rw [this]; simp

/-- A block starts with a byte that was written, if it or a later one has any. -/
theorem start_written {bits : Vec (Option Byte)} (hd : ∀ k, k < nbk t L → DataS ty t L TH k bits) : ∀ n m, m + n = nbk t L →
    offS ty t L TH m < offS ty t L TH (nbk t L) → bits.f (offS ty t L TH m) ≠ none := by
  intro n
  induction n with
  | zero => intro m hm h; rw [← hm, Nat.add_zero] at h; omega
  | succ n ih =>
    intro m hm h
    by_cases hw : 0 < wdS ty t L TH m
    · exact data_first (hd m (by omega)) hw
    · have he : offS ty t L TH (m + 1) = offS ty t L TH m := by rw [offS_succ]; omega
      have := ih (m + 1) (by omega) (by rw [he]; exact h)
      rw [he] at this
      exact this

theorem last_pos (hL : 2 ≤ L) (h1 : 1 ≤ tot t) (ht : ¬ Tight t L) :
    offS ty t L TH (nbk t L - 1) < offS ty t L TH (nbk t L) := by
  have hn := nbk_one (t := t) (L := L) (by omega) h1
  have hbp := bl_pos (t := t) (L := L) (m := nbk t L - 1) (by omega) (by omega)
  have hw : 0 < wdS ty t L TH (nbk t L - 1) := by
    unfold wdS
    rw [if_pos (ks_last (by omega))]
    unfold wd
    split
    · unfold sq
      by_cases hf : nbk t L - 1 < tot t / L
      · rw [if_pos hf]; omega
      · rw [if_neg hf]
        by_cases hr : tot t % L > 0
        · omega
        · have hnb : nbk t L = tot t / L := by unfold nbk; rw [if_neg hr, Nat.add_zero]
          omega
    · rename_i hs
      split
      · rename_i hm
        unfold mono at hm
        exact absurd (of_decide_eq_true hm).2 ht
      · unfold sb
        by_cases hf : nbk t L - 1 < tot t / L
        · rw [if_pos hf]
          have := bl_ge (t := t) (L := L) (m := nbk t L - 1) (by omega) hf
          omega
        · rw [if_neg hf]; omega
  have := offS_succ (ty := ty) (t := t) (L := L) (TH := TH) (nbk t L - 1)
  rw [show nbk t L - 1 + 1 = nbk t L by omega] at this
  omega

/-- The byte past a block is one that was written, if the last block has any. -/
theorem outS_written {x : Select} {f : Nat → Byte} {gb : Option (Nat → Byte)} (hL : 2 ≤ L) (h1 : 1 ≤ tot t)
    (hx : BuiltMpeS ty t L TH f gb x) (ht : ¬ Tight t L) {i : Nat} : outS ty t L TH x.bits false i = ok (sel t i) := by
  unfold outS
  by_cases h2 : i % L = 0 ∨ bl t L (i / L) = L
  · rw [if_pos h2]
  · rw [if_neg h2]
    by_cases hk : ks ty t L TH (i / L) = 0
    · rw [if_neg (fun h => h hk), if_neg (fun h => by cases h.1)]
    · rw [if_pos hk]
      unfold answer
      by_cases he : Extra t L (i / L) (sel t i)
      · rw [if_pos he]
        have hm := (ks_dense hk).1
        have h3 := last_pos (ty := ty) (TH := TH) hL h1 ht
        have h4 := offS_mono (ty := ty) (t := t) (L := L) (TH := TH) (show i / L + 1 ≤ nbk t L - 1 by omega)
        have hbits := hx.bits
        have hw := start_written hx.data (nbk t L - (i / L + 1)) (i / L + 1) (by omega) (by omega)
        cases hv : x.bits.f (offS ty t L TH (i / L + 1)) with
        | none => exact absurd hv hw
        | some b => rw [uget_ok (by omega) hv]; rfl
      · rw [if_neg he]

/-- In any case a query answers right or reads a byte that was not written, or loads a word that is not aligned. -/
theorem outS_cases {x : Select} {f : Nat → Byte} {gb : Option (Nat → Byte)} (hL : 1 ≤ L) (h1 : 1 ≤ tot t) (hx : BuiltMpeS ty t L TH f gb x)
    (strict : Bool) {i : Nat} : outS ty t L TH x.bits strict i = ok (sel t i) ∨
      (strict = true ∧ outS ty t L TH x.bits strict i = ub .misaligned) ∨
      (gb = none ∧ ∃ e, outS ty t L TH x.bits strict i = ub e) := by
  cases gb with
  | some h =>
    have hk := outS_known hL h1 hx (i := i)
    unfold outS at hk ⊢
    by_cases h2 : i % L = 0 ∨ bl t L (i / L) = L
    · rw [if_pos h2]; exact Or.inl rfl
    · rw [if_neg h2] at hk ⊢
      by_cases hk0 : ks ty t L TH (i / L) = 0
      · rw [if_neg (fun h => h hk0)]
        split
        · rename_i hh; exact Or.inr (Or.inl ⟨hh.1, rfl⟩)
        · exact Or.inl rfl
      · rw [if_pos hk0] at hk ⊢
        exact Or.inl hk
  | none =>
    unfold outS
    by_cases h2 : i % L = 0 ∨ bl t L (i / L) = L
    · rw [if_pos h2]; exact Or.inl rfl
    · rw [if_neg h2]
      by_cases hk0 : ks ty t L TH (i / L) = 0
      · rw [if_neg (fun h => h hk0)]
        split
        · rename_i hh; exact Or.inr (Or.inl ⟨hh.1, rfl⟩)
        · exact Or.inl rfl
      · rw [if_pos hk0]
        unfold answer
        split
        · rcases uget_cases x.bits (offS ty t L TH (i / L + 1)) with ⟨b, hb⟩ | ⟨e, he⟩
          · rw [hb]; exact Or.inl rfl
          · rw [he]; exact Or.inr (Or.inr ⟨rfl, e, rfl⟩)
        · exact Or.inl rfl

/-- Two objects, one without values behind `bitsLen`. -/
theorem outS_same {x y : Select} {f h : Nat → Byte} (hL : 1 ≤ L) (h1 : 1 ≤ tot t) (hx : BuiltMpeS ty t L TH f (some h) x)
    (hy : BuiltMpeS ty t L TH f none y) (strict : Bool) (i : Nat) :
    (outS ty t L TH y.bits strict i = outS ty t L TH x.bits strict i ∨ ∃ e, outS ty t L TH y.bits strict i = ub e) ∧
    (2 ≤ L → ¬ Tight t L → outS ty t L TH y.bits strict i = outS ty t L TH x.bits strict i) := by
  have hkx := outS_known hL h1 hx (i := i)
  have hwy := fun hL2 ht => outS_written (i := i) hL2 h1 hy ht
  unfold outS at hkx hwy ⊢
  by_cases h2 : i % L = 0 ∨ bl t L (i / L) = L
  · rw [if_pos h2, if_pos h2]; exact ⟨Or.inl rfl, fun _ _ => rfl⟩
  · rw [if_neg h2] at hkx ⊢
    rw [if_neg h2]
    by_cases hk0 : ks ty t L TH (i / L) = 0
    · have hc : ¬ ks ty t L TH (i / L) ≠ 0 := fun h => h hk0
      simp only [if_neg hc]
      exact ⟨Or.inl trivial, fun _ _ => trivial⟩
    · rw [if_pos hk0] at hkx ⊢
      rw [if_pos hk0, hkx]
      refine ⟨?_, fun hL2 ht => ?_⟩
      · unfold answer
        split
        · rcases uget_cases y.bits (offS ty t L TH (i / L + 1)) with ⟨b, hb⟩ | ⟨e, he⟩
          · rw [hb]; exact Or.inl rfl
          · rw [he]; exact Or.inr ⟨e, rfl⟩
        · exact Or.inl rfl
      · have := hwy hL2 ht
        rw [if_neg h2, if_pos hk0] at this
        exact this

theorem selMpe_fits {x : Select} {f : Nat → Byte} {gb : Option (Nat → Byte)} (hL : 1 ≤ L) (hlen : t.len < 2 ^ 29)
    (hE : 2 * nbk t L + 2 + 32 ≤ 2 ^ 32) (hx : BuiltMpeS ty t L TH f gb x) : Fits32 x.sel x.selLen := by
  rw [hx.selLen]
  refine ⟨by simp only [W32]; omega, fun i hi v hval => ?_⟩
  obtain ⟨b, hb, hf⟩ := hx.sup (i / 25) (by omega)
  have hfi := hf (i % 25) (Nat.mod_lt _ (by decide))
  rw [show 25 * (i / 25) + i % 25 = i by omega, hval] at hfi
  injection hfi with hfi
  rw [hfi]
  have hj : i % 25 < 25 := Nat.mod_lt _ (by decide)
  generalize i % 25 = j at hj
  rcases (show j < 16 ∨ j = 16 ∨ j = 17 ∨ 18 ≤ j by omega) with h | h | h | h
  · rw [hb.sel _ h]
    unfold hv
    split
    · have := en_le (t := t) (L := L) (m := 16 * (i / 25) + j) hL (by assumption)
      simp only [W32]
      omega
    · decide
  · rw [h, hb.off]
    exact oS_lt (Nat.lt_of_le_of_lt hx.bits hx.big) _
  · rw [h, hb.o1]
    exact Nat.mod_lt _ (by decide)
  · rw [show j = 17 + (j - 17) by omega, hb.offs _ (by omega) (by omega)]
    exact acc_lt32 _ _

theorem back_supS {x : Select} {f : Nat → Byte} {gb : Option (Nat → Byte)} (hx : BuiltMpeS ty t L TH f gb x) (aS aB : Nat) :
    SupS ty t L TH f (back x aS aB).sel := by
  refine ⟨?_, fun k hk => ?_⟩
  · have := clip_len x.sel x.selLen (room32 aS)
    rw [← hx.selLen]
    exact this
  · obtain ⟨b, hb, hf⟩ := hx.sup k hk
    exact ⟨b, hb, fun j hj => (clip_f (by rw [hx.selLen]; omega)).2.trans (hf j hj)⟩

/-- What `load` makes is what `build` made, without values behind `bitsLen`. -/
theorem selMpe_back {x : Select} {f : Nat → Byte} {gb : Option (Nat → Byte)} (hL : 1 ≤ L) (h1 : 1 ≤ tot t)
    (hx : BuiltMpeS ty t L TH f gb x) (hB : BS ty t L TH + 128 < 2 ^ 32) (hl : ¬ Lost t L TH) (aS aB : Nat) : BuiltMpeS ty t L TH f none (back x aS aB) := by
  have hle : off t L TH (nbk t L) ≤ B t L TH := Nat.le_of_not_lt (fun h => hl ((lost_iff hL h1).2 h))
  have heq := offS_eq (ty := ty) (t := t) (L := L) (TH := TH) (nbk t L)
  have hbl := hx.bl
  have hoff : offS ty t L TH (nbk t L) ≤ x.bitsLen := by have := BS_eq (TH := TH) ty hL h1; omega
  have hcl := clip_len x.bits x.bitsLen (roomBytes aB)
  have hs := back_supS hx aS aB
  refine ⟨hx.selLen, ?_, hs.sup, hx.bl, ?_, hcl, fun h => absurd rfl h, fun k hk => (hx.data k hk).frame (fun y hy => ?_),
    fun h hh => (by cases hh), hx.text, ?_⟩
  · exact clip_len x.sel x.selLen (room32 aS)
  · exact Nat.le_trans hoff hcl
  · have := offS_mono (ty := ty) (t := t) (L := L) (TH := TH) (show k + 1 ≤ nbk t L from hk)
    exact (clip_f (by omega)).2
  · show (clip x.bits x.bitsLen (roomBytes aB)).len < _
    have : roomBytes aB ≤ 128 := by unfold roomBytes; omega
    unfold clip
    split
    · decide
    · show x.bitsLen + roomBytes aB < _
      omega

/-- The last one is lost. -/
theorem selMpe_lost {x : Select} {f : Nat → Byte} {gb : Option (Nat → Byte)} (hL : 1 ≤ L) (hLT : L ≤ TH)
    (hlen : t.len < 2 ^ 29) (h1 : 1 ≤ tot t) (hE : 2 * nbk t L + 2 + 32 ≤ 2 ^ 32) (hx : BuiltMpeS ty t L TH f gb x) (hl : Lost t L TH) (aS aB : Nat)
    (strict : Bool) : ∃ e, selectMpe ty strict L TH (back x aS aB) (tot t) = ub e := by
  obtain ⟨p, ⟨h0, hbl⟩, hp⟩ := id hl
  obtain ⟨hn, ho, hb⟩ := single (TH := TH) h1 h0
  have hdm := Nat.div_add_mod (tot t) L
  rw [h0, Nat.mul_zero, Nat.zero_add] at hdm
  have hbits : x.bitsLen = B t L TH := by
    have h2 := hx.bl
    obtain ⟨d0, t0⟩ := psum_one_last (ty := ty) (TH := TH) hn
    have h3 := BS_eq (TH := TH) ty hL h1
    rw [d0, t0] at h3
    omega
  have hk0 : ks ty t L TH 0 = 0 := ks_last (by omega)
  have hdata : Data t L TH 0 x.bits := by
    have hd := hx.data 0 (by omega)
    exact ⟨fun hs j hj b hb => hd.sp hs j hj b hb, fun hs hm y hy => hd.de ⟨hs, hm⟩ hk0 y hy⟩
  have hbig : offS ty t L TH (nbk t L) < 2 ^ 32 := Nat.lt_of_le_of_lt hx.bits hx.big
  have hsup := back_supS hx aS aB
  have hfits : FitsS ty t L TH := fun k hk => by omega
  have hheads : Heads t L TH (clip x.bits (B t L TH) (roomBytes aB)) (fun strict i => selectMpe ty strict L TH (back x aS aB) i) := by
    refine ⟨fun strict i hi1 hit hi => ?_, fun strict i hit hi => ?_⟩
    · show selectMpe _ _ _ _ _ _ = _
      rw [selectMpe_head hL hlen hE hsup strict i hit, if_pos hi]
    · show selectMpe _ _ _ _ _ _ = _
      have him : i / L = 0 := by have := Nat.div_le_div_right (c := L) hit; rw [h0] at this; exact Nat.le_zero.1 this
      rw [selectMpe_head hL hlen hE hsup strict i hit, if_neg hi, him]
      have hsl := hsup.len
      obtain ⟨b, hbk, hr⟩ := hsup.sup 0 (by omega)
      obtain ⟨p1, p2⟩ := placeS (m := 0) hbk hr (by omega) hbig hfits (by omega)
      have hfl : FlagRight ty t L TH f 0 := flagRight (Or.inr ⟨by omega, Or.inl (by omega)⟩)
      unfold FlagRight at hfl
      rw [hk0] at hfl
      have hb' : (back x aS aB).bits = clip x.bits (B t L TH) (roomBytes aB) := by rw [← hbits]; rfl
      rw [p1, p2, ok_bind, ok_bind, hfl, hb']
      simp only []
      rw [if_neg (show ¬ 2 < 0 % 16 by decide), if_neg (show ¬ 0 ≠ 0 by decide), show offS ty t L TH 0 = 0 from rfl, show add32 0 0 = 0 by decide]
      rfl
  refine lost_query hL hLT ?_ h1 hdata hl hheads strict
  have heq := offS_eq (ty := ty) (t := t) (L := L) (TH := TH) (nbk t L)
  obtain ⟨d0, t0⟩ := psum_one_last (ty := ty) (TH := TH) hn
  omega

theorem takeBlock_lt {bits : Vec (Option Byte)} {kind o diff i select p : Nat}
    (h : takeBlock bits kind o diff i select = ok p) : p < 2 ^ 32 := by
  unfold takeBlock at h
  simp only [] at h
  obtain ⟨a, -, h⟩ := bind_ok h
  injection h with h
  rw [← h]
  exact Nat.mod_lt _ (by decide)

theorem selectMpe_lt {strict : Bool} {x : Select} {i p : Nat} (h : selectMpe ty strict L TH x i = ok p) : p < 2 ^ 32 := by
  unfold selectMpe at h
  simp only [] at h
  obtain ⟨a, -, h⟩ := bind_ok h
  split at h
  · injection h with h
    rw [← h]
    exact Nat.mod_lt _ (by decide)
  · obtain ⟨b, -, h⟩ := bind_ok h
    split at h
    · injection h with h
      rw [← h]
      exact Nat.mod_lt _ (by decide)
    · split at h
      · obtain ⟨o, -, h⟩ := bind_ok h
        obtain ⟨w, hw, h⟩ := bind_ok h
        injection h with h
        rw [← h]
        exact load4_lt hw
      · obtain ⟨o, -, h⟩ := bind_ok h
        split at h
        · exact takeBlock_lt h
        · unfold scanBlock32 at h
          obtain ⟨w, -, h⟩ := bind_ok h
          injection h with h
          rw [← h]
          exact Nat.mod_lt _ (by decide)

/-- Nothing is left out when every group is wide. -/
theorem wide_BS {X : List (BitVec 8)} (ty : MpeType) (hL : 1 ≤ L) (h1 : 1 ≤ tot (textOf X))
    (hw : ∀ k, k < tot (textOf X) / L → Text.GroupWide (Text.bits X) L TH k) :
    4 * (L - 1) * (tot (textOf X) / L) ≤ BS ty (textOf X) L TH := by
  have hk : ∀ k, ks ty (textOf X) L TH k = 0 := by
    intro k
    by_cases h : ks ty (textOf X) L TH k = 0
    · exact h
    · have hd := ks_dense h
      have hf := full_of_lt hd.1
      exact absurd (groupWide hL h1 hf (hw k hf)) hd.2.not_sparse
  have h2 := wide_bytes (TH := TH) hL hw
  have h3 := BS_eq (TH := TH) ty hL h1
  have h4 : ∀ n, psum (tabs ty (textOf X) L TH) n = 0 ∧ psum (drops ty (textOf X) L TH) n = 0 := by
    intro n
    induction n with
    | zero => exact ⟨rfl, rfl⟩
    | succ n ih => rw [psum_succ, psum_succ, ih.1, ih.2, tabs_zero (hk n), drops_zero (hk n)]; exact ⟨rfl, rfl⟩
  have h5 := h4 (nbk (textOf X) L)
  omega

end MRS.Mran.S32
