import Verif.Proofs.Mranisz.SelMpeQuery
import Verif.Proofs.Mranisz.FileSel

/-! # Compressed select with pairs left out: no ones, sizes, parameters, files -/

set_option autoImplicit false

namespace MRS.Mran
open Outcome Spec Poppy

variable {ty : MpeType} {t : Vec Byte} {L TH : Nat}

/-! ## No ones -/

theorem set_none {α : Type} (v : Vec α) {i : Nat} (h : ¬ i < v.len) (a : α) : v.set i a = ub .oob := by
  unfold Vec.set; rw [if_neg h]

/-- Without a one `blockToCompress` has no entries, and the first is written or read. -/
theorem buildSelMpe_none (ty : MpeType) (hL : 1 ≤ L) (hlen : t.len < 2 ^ 60) (h0 : tot t = 0) (aS aB : Nat) (g : JunkS) :
    buildSelMpe ty L TH aS aB g t = ub .oob := by
  have hn : nbk t L = 0 := nbk_pos h0
  unfold buildSelMpe
  rw [countOnes_ok, ok_bind]
  simp only []
  rw [entries_eq, selTmpLen_eq, hn]
  obtain ⟨s, e, hs⟩ := sel1_ok (t := t) (L := L) (TH := TH) (SL := 32) hL hlen (by omega)
  have hcn := hs.cnt
  rw [hn] at hcn
  obtain ⟨w, ew, w1, w2, w3⟩ := pad_ok (SL := 32) (c := s.cnt) hs.len (by omega)
  have hw : ∀ y, y < 32 → w.f y = some 0 := by
    intro y hy
    by_cases hyc : y < s.cnt
    · rw [w2 y hyc]
      have h := hs.ev 0 (Nat.zero_le _)
      by_cases hy0 : y = 0
      · rw [hy0]; exact h.1
      · rw [show y = 1 by omega]; exact h.2
    · exact w3 y (by omega) hy
  rw [show 32 * (0 / 16 + 1) = 32 from rfl, e, ok_bind, ew, ok_bind, hcn, show sub64 (2 * 0 + 2) 2 = 0 by decide]
  have hst : walkStart L TH w = ok ⟨⟨fresh (TH / 8 + 1), 0, 0#8, 7⟩, 0, 0, 1, decide (1 > TH), decide (¬ 1 > TH ∧ 1 = L)⟩ := by
    unfold walkStart
    rw [uget_ok (a := 0) (by omega) (hw 2 (by omega)), ok_bind, uget_ok (a := 0) (by omega) (hw 0 (by omega)), ok_bind]
    rw [show add64 (sub64 0 0) 1 = 1 by decide]
  unfold planS
  rw [hst, ok_bind]
  by_cases hl : t.len = 0
  · rw [hl]
    unfold walkS
    rw [ok_bind, ok_bind]
    unfold encodeS
    rw [hst, ok_bind]
    show ((uget (memory g.flags 0) 0 >>= _) >>= _ : Outcome Select) = _
    have : uget (memory g.flags 0) 0 = ub .oob := rfl
    rw [this]
    rfl
  · rw [show 8 * t.len = (8 * t.len - 1) + 1 by omega]
    unfold walkS
    rw [bitAt_ok (by omega), ok_bind, if_pos rfl]
    simp only []
    rw [if_neg (by omega)]
    have hfl : Walk.flush ⟨⟨fresh (TH / 8 + 1), 0, 0#8, 7⟩, 0 + 2, 0, 1, decide (1 > TH), decide (¬ 1 > TH ∧ 1 = L)⟩ =
        ok ⟨⟨fresh (TH / 8 + 1), 0, 0#8, 7⟩, 0 + 2, 0, 1, decide (1 > TH), decide (¬ 1 > TH ∧ 1 = L)⟩ := by
      unfold Walk.flush
      simp
    rw [hfl, ok_bind]
    show ((((planNext ty _ ⟨memory g.flags 0, 0, 0, 0⟩) >>= _) >>= _) >>= _ : Outcome Select) = _
    unfold planNext
    rw [set_none _ (by show ¬ 0 < 0; omega)]
    rfl

/-! ## How much a block may grow -/

/-- Bytes by which a block may be larger than its bits. -/
def grow (ty : MpeType) (TH : Nat) : Nat := if ty = .mpe3 then 2 * ((TH - 1) / 128 + 1) - 40 else 0

theorem tbs_th {m : Nat} (hd : Dense t L TH m) : tbs t L m ≤ (TH - 1) / 128 + 1 := by
  have := of_decide_eq_false hd.1
  unfold tbs
  omega

/-- The tables and twice the pairs left out, by kind. -/
theorem tabs_drops (m : Nat) : ks ty t L TH m = 0 ∨ (m + 1 < nbk t L ∧ Dense t L TH m ∧
    ks ty t L TH m = kindS ty (zc (bb t L m) (nby t L m / 2)) (fc (bb t L m) (nby t L m / 2))
      (zc (bb t L m) (nby t L m / 2) + fc (bb t L m) (nby t L m / 2)) (tbs t L m) ∧
    ((ks ty t L TH m = 3 ∧ tabs ty t L TH m = 2 * tbs t L m ∧
      drops ty t L TH m = zc (bb t L m) (nby t L m / 2) + fc (bb t L m) (nby t L m / 2)) ∨
    (ks ty t L TH m = 1 ∧ tabs ty t L TH m = tbs t L m ∧ drops ty t L TH m = zc (bb t L m) (nby t L m / 2)) ∨
    (ks ty t L TH m = 2 ∧ tabs ty t L TH m = tbs t L m ∧ drops ty t L TH m = fc (bb t L m) (nby t L m / 2)))) := by
  by_cases h : ks ty t L TH m = 0
  · exact Or.inl h
  · right
    obtain ⟨h1, h2⟩ := ks_dense h
    have hl := ks_lt (ty := ty) (t := t) (L := L) (TH := TH) m
    refine ⟨h1, h2, by unfold ks; rw [if_pos ⟨h1, h2⟩], ?_⟩
    obtain ⟨c3, c1, c2⟩ := kp_counts (bb t L m) (nby t L m / 2)
    unfold tabs drops hdS
    rcases (show ks ty t L TH m = 3 ∨ ks ty t L TH m = 1 ∨ ks ty t L TH m = 2 by omega) with h | h | h
    · left
      rw [h]
      exact ⟨rfl, rfl, by omega⟩
    · right; left
      rw [h]
      exact ⟨rfl, rfl, by omega⟩
    · right; right
      rw [h]
      exact ⟨rfl, rfl, by omega⟩

theorem tabs_grow (m : Nat) : tabs ty t L TH m ≤ 2 * drops ty t L TH m + grow ty TH := by
  rcases tabs_drops (ty := ty) (t := t) (L := L) (TH := TH) m with h | ⟨-, hd, hk, h⟩
  · rw [tabs_zero h]; exact Nat.zero_le _
  · have hb := tbs_th hd
    unfold grow
    generalize zc (bb t L m) (nby t L m / 2) = z at *
    generalize fc (bb t L m) (nby t L m / 2) = f at *
    cases ty
    · rw [if_neg (by decide)]
      unfold kindS at hk
      simp only [] at hk
      split at hk <;> omega
    · rw [if_neg (by decide)]
      unfold kindS at hk
      simp only [] at hk
      (repeat' split at hk) <;> omega
    · rw [if_pos rfl]
      unfold kindS at hk
      simp only [] at hk
      (repeat' split at hk) <;> omega

/-- `SELECT_MPE2` has the best of the four kinds. -/
theorem mpe2_best (ty : MpeType) (m : Nat) :
    tabs .mpe2 t L TH m + 2 * drops ty t L TH m ≤ tabs ty t L TH m + 2 * drops .mpe2 t L TH m := by
  have best : ∀ z f b k : Nat, k = kindS .mpe2 z f (z + f) b →
      (k = 3 → 2 * z > b ∧ 2 * f > b) ∧ (k = 1 → 2 * z > b ∧ 2 * f ≤ b) ∧ (k = 2 → 2 * z ≤ b ∧ 2 * f > b) ∧
      (k = 0 → 2 * z ≤ b ∧ 2 * f ≤ b) := by
    intro z f b k hk
    unfold kindS at hk
    simp only [] at hk
    (repeat' split at hk) <;> omega
  rcases tabs_drops (ty := ty) (t := t) (L := L) (TH := TH) m with h | ⟨hm, hd, -, h⟩
  · rw [tabs_zero h, drops_zero h]
    have := tabs_grow (ty := .mpe2) (t := t) (L := L) (TH := TH) m
    unfold grow at this
    rw [if_neg (by decide)] at this
    omega
  · rcases tabs_drops (ty := .mpe2) (t := t) (L := L) (TH := TH) m with h2 | ⟨-, -, hk, h2⟩
    · have hk : ks .mpe2 t L TH m = kindS .mpe2 (zc (bb t L m) (nby t L m / 2)) (fc (bb t L m) (nby t L m / 2))
          (zc (bb t L m) (nby t L m / 2) + fc (bb t L m) (nby t L m / 2)) (tbs t L m) := by
        unfold ks; rw [if_pos ⟨hm, hd⟩]
      have hb := (best _ _ _ _ hk).2.2.2 h2
      rw [tabs_zero h2, drops_zero h2]
      omega
    · have hb := best _ _ _ _ hk
      omega

/-! ## Parameters -/

theorem bcnt_pos : ∀ c : BitVec 8, c ≠ 0#8 → 1 ≤ bcnt c 8 := by decide +kernel

/-- A pair that is not zero has a one. -/
theorem pairs_ones (m : Nat) : ∀ n, n + T t (en t L m) ≤ zc (bb t L m) n + T t (en t L m + min (16 * n) (sb t L m)) := by
  intro n
  induction n with
  | zero => rw [Nat.mul_zero, Nat.zero_min, Nat.add_zero, Nat.zero_add]; exact Nat.le_add_left _ _
  | succ n ih =>
    have h0 := bacc_cnt (t := t) (en t L m + 8 * (2 * n)) (x := min 8 (sb t L m - 8 * (2 * n))) (by omega) (j := 8) (by omega)
    have h1 := bacc_cnt (t := t) (en t L m + 8 * (2 * n + 1)) (x := min 8 (sb t L m - 8 * (2 * n + 1))) (by omega) (j := 8) (by omega)
    have hs : zc (bb t L m) (n + 1) = zc (bb t L m) n + if zp (bb t L m) n then 1 else 0 := rfl
    have m0 := T_mono t (show en t L m + min (16 * n) (sb t L m) ≤ en t L m + 8 * (2 * n) by omega)
    by_cases hshort : sb t L m < 16 * n + 8
    · -- the second byte lies beyond the stored bits
      have hz1 : bb t L m (2 * n + 1) = 0#8 := by
        unfold bb
        rw [show min 8 (sb t L m - 8 * (2 * n + 1)) = 0 by omega]
        rfl
      have m1 := T_mono t (show en t L m + min (16 * n) (sb t L m) ≤ en t L m + min (16 * (n + 1)) (sb t L m) by omega)
      by_cases hz0 : bb t L m (2 * n) = 0#8
      · have : zp (bb t L m) n = true := by unfold zp; rw [hz0, hz1]; rfl
        rw [hs, if_pos this]
        omega
      · have hp := bcnt_pos _ hz0
        have hge : 16 * n ≤ sb t L m := by
          refine Nat.le_of_not_lt (fun h => hz0 ?_)
          unfold bb
          rw [show min 8 (sb t L m - 8 * (2 * n)) = 0 by omega]
          rfl
        change T t _ + bcnt (bb t L m (2 * n)) 8 = _ at h0
        rw [show en t L m + 8 * (2 * n) + min 8 (min 8 (sb t L m - 8 * (2 * n))) = en t L m + min (16 * (n + 1)) (sb t L m) by omega] at h0
        rw [hs]
        split <;> omega
    · change T t _ + bcnt (bb t L m (2 * n)) 8 = _ at h0
      change T t _ + bcnt (bb t L m (2 * n + 1)) 8 = _ at h1
      rw [show en t L m + 8 * (2 * n) + min 8 (min 8 (sb t L m - 8 * (2 * n))) = en t L m + 8 * (2 * n + 1) by omega] at h0
      rw [show en t L m + 8 * (2 * n + 1) + min 8 (min 8 (sb t L m - 8 * (2 * n + 1))) =
        en t L m + min (16 * (n + 1)) (sb t L m) by omega] at h1
      rw [hs]
      by_cases hz : zp (bb t L m) n = true
      · rw [if_pos hz]; omega
      · rw [if_neg hz]
        have : bb t L m (2 * n) ≠ 0#8 ∨ bb t L m (2 * n + 1) ≠ 0#8 := by
          by_cases ha : bb t L m (2 * n) = 0#8
          · right
            intro hb
            apply hz
            unfold zp
            rw [ha, hb]
            rfl
          · exact Or.inl ha
        rcases this with h | h
        · have := bcnt_pos _ h; omega
        · have := bcnt_pos _ h; omega

/-- A block of `L` ones has few pairs that are not zero, so it is short or they are left out. -/
theorem dense_small {m : Nat} (hL : 1 ≤ L) (hm : m + 1 < nbk t L) (hd : Dense t L TH m) :
    nby t L m + tabs ty t L TH m ≤ 2 * drops ty t L TH m + 2 * tbs t L m + 2 * L + 35 := by
  have hfull := full_of_lt hm
  have hz : nby t L m / 2 ≤ zc (bb t L m) (nby t L m / 2) + L := by
    have h1 := pairs_ones (t := t) (L := L) m (nby t L m / 2)
    have h2 := en_succ (t := t) (L := L) (m := m) hL (by omega)
    have h3 := T_en (t := t) (L := L) (m := m) hL (by omega)
    have h4 := T_en (t := t) (L := L) (m := m + 1) hL (by omega)
    rw [ob_full (by omega)] at h3 h4
    have hsb : sb t L m ≤ bl t L m := by unfold sb; split <;> omega
    have h5 := T_mono t (show en t L m + min (16 * (nby t L m / 2)) (sb t L m) ≤ en t L (m + 1) by omega)
    rw [Nat.add_mul, Nat.one_mul] at h4
    omega
  have hk : ks ty t L TH m = kindS ty (zc (bb t L m) (nby t L m / 2)) (fc (bb t L m) (nby t L m / 2))
      (zc (bb t L m) (nby t L m / 2) + fc (bb t L m) (nby t L m / 2)) (tbs t L m) := by
    unfold ks; rw [if_pos ⟨hm, hd⟩]
  have hb : 1 ≤ tbs t L m := by unfold tbs; omega
  have hc : (ks ty t L TH m = 0 ∧ tabs ty t L TH m = 0) ∨
      (ks ty t L TH m = 3 ∧ tabs ty t L TH m = 2 * tbs t L m ∧
        drops ty t L TH m = zc (bb t L m) (nby t L m / 2) + fc (bb t L m) (nby t L m / 2)) ∨
      (ks ty t L TH m = 1 ∧ tabs ty t L TH m = tbs t L m ∧ drops ty t L TH m = zc (bb t L m) (nby t L m / 2)) ∨
      (ks ty t L TH m = 2 ∧ tabs ty t L TH m = tbs t L m ∧ drops ty t L TH m = fc (bb t L m) (nby t L m / 2)) := by
    rcases tabs_drops (ty := ty) (t := t) (L := L) (TH := TH) m with h | ⟨-, -, -, h⟩
    · exact Or.inl ⟨h, tabs_zero h⟩
    · exact Or.inr h
  generalize zc (bb t L m) (nby t L m / 2) = z at *
  generalize fc (bb t L m) (nby t L m / 2) = f at *
  generalize ks ty t L TH m = k at *
  cases ty
  · unfold kindS at hk
    simp only [] at hk
    split at hk <;> omega
  · unfold kindS at hk
    simp only [] at hk
    (repeat' split at hk) <;> omega
  · unfold kindS at hk
    simp only [] at hk
    (repeat' split at hk) <;> omega

/-- What the constructor would have to ask for. -/
def FitsPar (ty : MpeType) (L TH : Nat) : Prop := 8 * (L - 1) ≤ lim ty ∧ 2 * ((TH - 1) / 128 + 1) + 2 * L + 35 ≤ lim ty

instance (ty : MpeType) (L TH : Nat) : Decidable (FitsPar ty L TH) := by unfold FitsPar; infer_instance

theorem fitsS (hL : 1 ≤ L) (hp : FitsPar ty L TH) : FitsS ty t L TH := by
  intro k hk
  have hfull := full_of_lt hk
  obtain ⟨p1, p2⟩ := hp
  by_cases hs : sparse t L TH k = true
  · rw [wdS_sparse hs]
    unfold sq
    rw [if_pos hfull]
    exact p1
  · have hs' : sparse t L TH k = false := by simpa using hs
    by_cases hm : mono t L TH k = true
    · rw [wdS_mono hs' hm]; exact Nat.zero_le _
    · have hd : Dense t L TH k := ⟨hs', by simpa using hm⟩
      have h1 := wdS_eq (ty := ty) (t := t) (L := L) (TH := TH) k
      have h2 := dense_small (ty := ty) hL hk hd
      have h3 := tbs_th hd
      have hw : wd t L TH k = nby t L k := by
        unfold wd
        rw [if_neg hs, if_neg hm]
        rfl
      omega

/-! ## Sizes -/

theorem psum_add_le {a b : Nat → Nat} {k : Nat} : ∀ n, (∀ m, m < n → a m ≤ b m + k) → psum a n ≤ psum b n + k * n := by
  intro n
  induction n with
  | zero => intro _; exact Nat.zero_le _
  | succ n ih =>
    intro h
    have h1 := ih (fun m hm => h m (by omega))
    have h2 := h n (by omega)
    rw [psum_succ, psum_succ, Nat.mul_add]
    omega

theorem psum_two (a : Nat → Nat) (n : Nat) : psum (fun m => 2 * a m) n = 2 * psum a n := by
  induction n with
  | zero => rfl
  | succ n ih => rw [psum_succ, psum_succ, ih]; omega

/-- Blocks that may grow: all but the last. -/
theorem psum_grow (ty : MpeType) (hL : 1 ≤ L) (h1 : 1 ≤ tot t) :
    psum (tabs ty t L TH) (nbk t L) ≤ 2 * psum (drops ty t L TH) (nbk t L) + grow ty TH * (nbk t L - 1) := by
  have hn := nbk_one hL h1
  have h2 := psum_add_le (a := tabs ty t L TH) (b := fun m => 2 * drops ty t L TH m) (nbk t L - 1)
    (fun m _ => tabs_grow m)
  rw [psum_two] at h2
  rw [show nbk t L = nbk t L - 1 + 1 by omega, psum_succ, psum_succ,
    tabs_zero (ks_last (by omega)), drops_zero (ks_last (by omega))]
  exact h2

theorem psum_best (ty : MpeType) : ∀ n, psum (tabs .mpe2 t L TH) n + 2 * psum (drops ty t L TH) n ≤
    psum (tabs ty t L TH) n + 2 * psum (drops .mpe2 t L TH) n := by
  intro n
  induction n with
  | zero => exact Nat.le_refl _
  | succ n ih =>
    have := mpe2_best (t := t) (L := L) (TH := TH) ty n
    simp only [psum_succ]
    omega

/-! ## Bytes that nothing wrote -/

theorem data_first {bits : Vec (Option Byte)} {m : Nat} (hd : DataS ty t L TH m bits) (hw : 0 < wdS ty t L TH m) :
    bits.f (offS ty t L TH m) ≠ none := by
  by_cases hs : sparse t L TH m = true
  · rw [wdS_sparse hs] at hw
    have := hd.sp hs 0 (by omega) 0 (by omega)
    rw [Nat.mul_zero, Nat.add_zero, Nat.add_zero] at this
    rw [this]; simp
  · have hs' : sparse t L TH m = false := by simpa using hs
    by_cases hmo : mono t L TH m = true
    · rw [wdS_mono hs' hmo] at hw; omega
    · have hde : Dense t L TH m := ⟨hs', by simpa using hmo⟩
      by_cases hk : ks ty t L TH m = 0
      · have hwd : wdS ty t L TH m = nby t L m := by
          unfold wdS wd; rw [if_pos hk, if_neg hs, if_neg hmo]; rfl
        have := hd.de hde hk 0 (by omega)
        rw [Nat.add_zero] at this
        rw [this]; simp
      · have := (hd.co hk).t1 0 (by unfold tbs; omega)
        rw [Nat.add_zero] at this
        rw [this]; simp

/-- A block starts with a byte that was written, if it or a later one has any. -/
theorem start_written {bits : Vec (Option Byte)} (hd : ∀ k, k < nbk t L → DataS ty t L TH k bits) : ∀ n m, m + n = nbk t L →
    offS ty t L TH m < offS ty t L TH (nbk t L) → bits.f (offS ty t L TH m) ≠ none := by
  intro n
  induction n with
  | zero => intro m hm h; rw [← hm, Nat.add_zero] at h; omega
  | succ n ih =>
    intro m hm h
    by_cases hw : 0 < wdS ty t L TH m
    · exact data_first (hd m (by omega)) hw
    · have he : offS ty t L TH (m + 1) = offS ty t L TH m := by rw [offS_succ]; omega
      have := ih (m + 1) (by omega) (by rw [he]; exact h)
      rw [he] at this
      exact this

/-- The last group takes `L` bits. -/
def Tight (t : Vec Byte) (L : Nat) : Prop := bl t L (nbk t L - 1) = L

theorem last_pos (hL : 2 ≤ L) (h1 : 1 ≤ tot t) (ht : ¬ Tight t L) :
    offS ty t L TH (nbk t L - 1) < offS ty t L TH (nbk t L) := by
  have hn := nbk_one (t := t) (L := L) (by omega) h1
  have hbp := bl_pos (t := t) (L := L) (m := nbk t L - 1) (by omega) (by omega)
  have hw : 0 < wdS ty t L TH (nbk t L - 1) := by
    unfold wdS
    rw [if_pos (ks_last (by omega))]
    unfold wd
    split
    · unfold sq
      by_cases hf : nbk t L - 1 < tot t / L
      · rw [if_pos hf]; omega
      · rw [if_neg hf]
        by_cases hr : tot t % L > 0
        · omega
        · have hnb : nbk t L = tot t / L := by unfold nbk; rw [if_neg hr, Nat.add_zero]
          omega
    · rename_i hs
      split
      · rename_i hm
        unfold mono at hm
        exact absurd (of_decide_eq_true hm).2 ht
      · unfold sb
        by_cases hf : nbk t L - 1 < tot t / L
        · rw [if_pos hf]
          have := bl_ge (t := t) (L := L) (m := nbk t L - 1) (by omega) hf
          omega
        · rw [if_neg hf]; omega
  have := offS_succ (ty := ty) (t := t) (L := L) (TH := TH) (nbk t L - 1)
  rw [show nbk t L - 1 + 1 = nbk t L by omega] at this
  omega

/-- The byte past a block is one that was written, if the last block has any. -/
theorem outS_written {x : Select} {f : Nat → Byte} {gb : Option (Nat → Byte)} (hL : 2 ≤ L) (h1 : 1 ≤ tot t)
    (hx : BuiltMpeS ty t L TH f gb x) (ht : ¬ Tight t L) {i : Nat} : outS ty t L TH x.bits false i = ok (sel t i) := by
  unfold outS
  by_cases h2 : i % L = 0 ∨ bl t L (i / L) = L
  · rw [if_pos h2]
  · rw [if_neg h2]
    by_cases hk : ks ty t L TH (i / L) = 0
    · rw [if_neg (fun h => h hk), if_neg (fun h => by cases h.1)]
    · rw [if_pos hk]
      unfold answer
      by_cases he : Extra t L (i / L) (sel t i)
      · rw [if_pos he]
        have hm := (ks_dense hk).1
        have h3 := last_pos (ty := ty) (TH := TH) hL h1 ht
        have h4 := offS_mono (ty := ty) (t := t) (L := L) (TH := TH) (show i / L + 1 ≤ nbk t L - 1 by omega)
        have hbits := hx.bits
        have hw := start_written hx.data (nbk t L - (i / L + 1)) (i / L + 1) (by omega) (by omega)
        cases hv : x.bits.f (offS ty t L TH (i / L + 1)) with
        | none => exact absurd hv hw
        | some b => rw [uget_ok (by omega) hv]; rfl
      · rw [if_neg he]

theorem uget_cases {α : Type} (v : Vec (Option α)) (i : Nat) : (∃ a, uget v i = ok a) ∨ ∃ e, uget v i = ub e := by
  unfold uget Vec.get
  by_cases h : i < v.len
  · rw [if_pos h, ok_bind]
    cases v.f i with
    | none => exact Or.inr ⟨_, rfl⟩
    | some a => exact Or.inl ⟨_, rfl⟩
  · rw [if_neg h]; exact Or.inr ⟨_, rfl⟩

/-- In any case a query answers right or reads a byte that was not written, or loads a word that is not aligned. -/
theorem outS_cases {x : Select} {f : Nat → Byte} {gb : Option (Nat → Byte)} (hL : 1 ≤ L) (hx : BuiltMpeS ty t L TH f gb x)
    (strict : Bool) {i : Nat} : outS ty t L TH x.bits strict i = ok (sel t i) ∨
      (strict = true ∧ outS ty t L TH x.bits strict i = ub .misaligned) ∨
      (gb = none ∧ ∃ e, outS ty t L TH x.bits strict i = ub e) := by
  cases gb with
  | some h =>
    have hk := outS_known hL hx (i := i)
    unfold outS at hk ⊢
    by_cases h2 : i % L = 0 ∨ bl t L (i / L) = L
    · rw [if_pos h2]; exact Or.inl rfl
    · rw [if_neg h2] at hk ⊢
      by_cases hk0 : ks ty t L TH (i / L) = 0
      · rw [if_neg (fun h => h hk0)]
        split
        · rename_i hh; exact Or.inr (Or.inl ⟨hh.1, rfl⟩)
        · exact Or.inl rfl
      · rw [if_pos hk0] at hk ⊢
        exact Or.inl hk
  | none =>
    unfold outS
    by_cases h2 : i % L = 0 ∨ bl t L (i / L) = L
    · rw [if_pos h2]; exact Or.inl rfl
    · rw [if_neg h2]
      by_cases hk0 : ks ty t L TH (i / L) = 0
      · rw [if_neg (fun h => h hk0)]
        split
        · rename_i hh; exact Or.inr (Or.inl ⟨hh.1, rfl⟩)
        · exact Or.inl rfl
      · rw [if_pos hk0]
        unfold answer
        split
        · rcases uget_cases x.bits (offS ty t L TH (i / L + 1)) with ⟨b, hb⟩ | ⟨e, he⟩
          · rw [hb]; exact Or.inl rfl
          · rw [he]; exact Or.inr (Or.inr ⟨rfl, e, rfl⟩)
        · exact Or.inl rfl

/-- Two objects, one without values behind `bitsLen`. -/
theorem outS_same {x y : Select} {f h : Nat → Byte} (hL : 1 ≤ L) (h1 : 1 ≤ tot t) (hx : BuiltMpeS ty t L TH f (some h) x)
    (hy : BuiltMpeS ty t L TH f none y) (strict : Bool) (i : Nat) :
    (outS ty t L TH y.bits strict i = outS ty t L TH x.bits strict i ∨ ∃ e, outS ty t L TH y.bits strict i = ub e) ∧
    (2 ≤ L → ¬ Tight t L → outS ty t L TH y.bits strict i = outS ty t L TH x.bits strict i) := by
  have hkx := outS_known hL hx (i := i)
  have hwy := fun hL2 ht => outS_written (i := i) hL2 h1 hy ht
  unfold outS at hkx hwy ⊢
  by_cases h2 : i % L = 0 ∨ bl t L (i / L) = L
  · rw [if_pos h2, if_pos h2]; exact ⟨Or.inl rfl, fun _ _ => rfl⟩
  · rw [if_neg h2] at hkx ⊢
    rw [if_neg h2]
    by_cases hk0 : ks ty t L TH (i / L) = 0
    · have hc : ¬ ks ty t L TH (i / L) ≠ 0 := fun h => h hk0
      simp only [if_neg hc]
      exact ⟨Or.inl trivial, fun _ _ => trivial⟩
    · rw [if_pos hk0] at hkx ⊢
      rw [if_pos hk0, hkx]
      refine ⟨?_, fun hL2 ht => ?_⟩
      · unfold answer
        split
        · rcases uget_cases y.bits (offS ty t L TH (i / L + 1)) with ⟨b, hb⟩ | ⟨e, he⟩
          · rw [hb]; exact Or.inl rfl
          · rw [he]; exact Or.inr ⟨e, rfl⟩
        · exact Or.inl rfl
      · have := hwy hL2 ht
        rw [if_neg h2, if_pos hk0] at this
        exact this

/-! ## The words of the specification -/

theorem tight_iff {X : List Byte} (hL : 1 ≤ L) (h1 : 1 ≤ tot (textOf X)) :
    Text.LastTight (Text.bits X) L ↔ Tight (textOf X) L := by
  unfold Text.LastTight Tight
  rw [← tot_count, ← nbk_ceil hL]
  have hn := nbk_one (t := textOf X) hL h1
  have ha := fun e => upTo_en (X := X) (L := L) (m := nbk (textOf X) L - 1) (e := e) hL h1
  have hb := fun e => upTo_en (X := X) (L := L) (m := nbk (textOf X) L) (e := e) hL h1
  have hob : ob (textOf X) L (nbk (textOf X) L - 1) = nbk (textOf X) L * L - L := by
    have h2 := nbk_lt (t := textOf X) hL (show nbk (textOf X) L - 1 < nbk (textOf X) L by omega)
    unfold ob
    rw [Nat.min_eq_left (Nat.le_of_lt h2), Nat.sub_mul, Nat.one_mul]
  have hs := en_succ (t := textOf X) (L := L) (m := nbk (textOf X) L - 1) hL (by omega)
  rw [show nbk (textOf X) L - 1 + 1 = nbk (textOf X) L by omega] at hs
  rw [hob] at ha
  rw [ob_all hL] at hb
  constructor
  · rintro ⟨a, h2, h3⟩
    rw [ha] at h2
    rw [hb] at h3
    omega
  · intro h
    refine ⟨_, (ha _).2 rfl, (hb _).2 ?_⟩
    omega

theorem groupWide {X : List Byte} (hL : 1 ≤ L) (h1 : 1 ≤ tot (textOf X)) {k : Nat} (hk : k < tot (textOf X) / L)
    (h : Text.GroupWide (Text.bits X) L TH k) : sparse (textOf X) L TH k = true := by
  obtain ⟨a, b, h2, h3, h4⟩ := h
  have ha := upTo_en (X := X) (L := L) (m := k) (e := a) hL h1
  have hb := upTo_en (X := X) (L := L) (m := k + 1) (e := b) hL h1
  rw [ob_full (by omega)] at ha hb
  rw [ha] at h2
  rw [hb] at h3
  have hs := en_succ (t := textOf X) (L := L) (m := k) hL (by have := nbk_ge (textOf X) L; omega)
  exact decide_eq_true (by omega)

/-! ## Offsets that do not fit -/

theorem mkM_zero (ty : MpeType) : mkM ty 0#8 = 0 := by unfold mkM; split <;> rfl

theorem mfM_zero (ty : MpeType) : mfM ty 0#8 = 0 := by unfold mfM; split <;> rfl

/-- With `129 ≤ L` four sparse blocks in front take more than the twelve bits that `SELECT_MPE2`, `SELECT_MPE3`
read. -/
theorem narrow {x : Select} {f : Nat → Byte} {gb : Option (Nat → Byte)} (hty : ty ≠ .mpe1) (hL : 129 ≤ L) (hL2 : L ≤ 137)
    (hLT : L ≤ TH) (hlen : t.len < 2 ^ 57) (hx : BuiltMpeS ty t L TH f gb x) (hsp : ∀ k, k < 5 → sparse t L TH k = true)
    (hn : 5 < nbk t L) (strict : Bool) {r : Nat} (hr : 1 ≤ r) (hr2 : 4 * (L - 129) + r < L) :
    selectMpe ty strict L TH x (4 * L + r) = ok (sel t (4 * (L - 129) + r)) := by
  have hdiv : (4 * L + r) / L = 4 := by
    rw [Nat.mul_comm, Nat.mul_add_div (by omega), Nat.div_eq_of_lt (by omega)]
  have hmod : (4 * L + r) % L = r := by
    rw [Nat.mul_comm, Nat.mul_add_mod, Nat.mod_eq_of_lt (by omega)]
  have hfull : 5 ≤ tot t / L := by have := full_of_lt (t := t) (L := L) (m := 4) (by omega); omega
  have h5 : 5 * L ≤ tot t := (Nat.le_div_iff_mul_le (by omega)).1 hfull
  have hbl4 := hsp 4 (by omega)
  have hTH : bl t L 4 > TH := of_decide_eq_true hbl4
  have hwd : ∀ k, k < 5 → wdS ty t L TH k = 8 * (L - 1) := by
    intro k hk
    rw [wdS_sparse (hsp k hk)]
    unfold sq
    rw [if_pos (by omega)]
  have ho : ∀ k, k ≤ 5 → offS ty t L TH k = 8 * (L - 1) * k := by
    intro k
    induction k with
    | zero => intro _; rfl
    | succ k ih => intro hk; rw [offS_succ, ih (by omega), hwd k (by omega), Nat.mul_add]; omega
  have hfv : ∀ k, k < 5 → fvS ty t L TH f k = 0#8 := by
    intro k hk
    unfold fvS
    rw [if_pos (by omega), ks_not (fun hd => hd.not_sparse (hsp k hk))]
  have hov : ∀ j, j < 4 → ovS ty t L TH f 0 j = 8 * (L - 1) * (j + 1) := by
    intro j hj
    unfold ovS
    have hm : 8 * (L - 1) * (j + 1) ≤ 1088 * 4 := Nat.mul_le_mul (by omega) (by omega)
    rw [markOf_eq, hfv _ (by omega), mkM_zero, oS_eq (by omega), oS_eq (by omega), ho _ (by omega), ho _ (by omega),
      Nat.zero_add, Nat.mul_zero, Nat.mul_zero, sub64_eq (Nat.zero_le _) (by simp only [W64]; omega)]
    unfold add64
    simp only [W64]
    omega
  have hmono : bl t L 4 ≠ L := by omega
  obtain ⟨b, hb, hbf⟩ := hx.supS.sup 0 (by omega)
  have hsl := hx.supS.len
  rw [selectMpe_head (by omega) hlen hx.supS strict _ (by omega), hdiv, hmod, if_neg (by omega), if_neg hmono, if_pos hTH]
  have g16 := hbf 16 (by omega)
  have g17 := hbf 17 (by omega)
  rw [Nat.mul_zero, Nat.zero_add] at g16 g17
  rw [hb.off] at g16
  rw [Nat.mul_zero, oS_eq (by omega), ho 0 (by omega), Nat.mul_zero] at g16
  have hw : b.f 17 / 2 ^ 48 % 65536 = 32 * (L - 1) := by
    rw [hb.o1, Nat.mul_zero, hfv 0 (by omega), markFirst_eq, mfM_zero]
    have hac := acc_slot (fun s => ovS ty t L TH f 0 s) (n := 4) (s := 3) (by omega) (by omega) (fun k hk => by
      show ovS ty t L TH f 0 k < 65536
      have hm : 8 * (L - 1) * (k + 1) ≤ 1088 * 4 := Nat.mul_le_mul (by omega) (by omega)
      rw [hov k (by omega)]; omega)
    have hA := acc_lt (fun s => ovS ty t L TH f 0 s) 4
    simp only [hov 3 (by omega)] at hac
    unfold add64
    rw [Nat.mul_zero, Nat.add_zero, Nat.mod_eq_of_lt hA]
    rw [show 2 ^ 48 = 2 ^ (16 * 3) by rfl, hac]
    omega
  have hoff : offSparse ty x.sel (21 * (4 / 16)) (4 % 16) = ok (32 * (L - 129)) := by
    unfold offSparse
    rw [show 21 * (4 / 16) = 0 by rfl, show 4 % 16 = 4 by rfl, uget_ok (by omega) g16, ok_bind, if_neg (by omega),
      if_pos (by omega), uget_ok (by omega) g17, ok_bind, if_neg hty]
    rw [show (0x0FFF : Nat) = 2 ^ 12 - 1 by rfl, Nat.and_two_pow_sub_one_eq_mod, Nat.shiftRight_eq_div_pow]
    generalize b.f 17 = w at hw
    have hm : 0 + w / 2 ^ (16 * (4 - 1)) % 2 ^ 12 = 32 * (L - 129) := by
      simp only [Nat.reduceSub, Nat.reduceMul, Nat.reducePow] at hw ⊢
      generalize w / 281474976710656 = u at hw
      omega
    rw [hm]
  rw [hoff, ok_bind]
  have hbits := hx.bits
  have ho1 := offS_mono (ty := ty) (t := t) (L := L) (TH := TH) (show 1 ≤ nbk t L by omega)
  rw [ho 1 (by omega)] at ho1
  have hsq : sq t L 0 = L - 1 := by unfold sq; rw [if_pos (by omega)]
  have hs := sel_spec (t := t) (k := 4 * (L - 129) + r) (by omega) (by omega)
  rw [load8_ok (b := fun k => BitVec.ofNat 8 (sel t (4 * (L - 129) + r) >>> (8 * k)))]
  · rw [ok_bind, leWord_pos (by omega)]
  · right; omega
  · omega
  · intro k hk
    have := (hx.data 0 (by omega)).sp (hsp 0 (by omega)) (4 * (L - 129) + r - 1) (by omega) k hk
    rw [ho 0 (by omega)] at this
    rw [show 32 * (L - 129) + 8 * (r - 1) + k = 8 * (L - 1) * 0 + 8 * (4 * (L - 129) + r - 1) + k by omega, this,
      show 0 * L + 1 + (4 * (L - 129) + r - 1) = 4 * (L - 129) + r by omega]

/-! ## Files -/

theorem selMpe_fits {x : Select} {f : Nat → Byte} {gb : Option (Nat → Byte)} (hL : 1 ≤ L) (hlen : t.len < 2 ^ 57)
    (hx : BuiltMpeS ty t L TH f gb x) : Fits x.sel x.selLen := by
  have h2 := nbk_le (t := t) hL
  have h3 := tot_le t
  rw [hx.selLen]
  refine ⟨by simp only [W64]; omega, fun i hi v hval => ?_⟩
  obtain ⟨b, hb, hf⟩ := hx.sup (i / 21) (by omega)
  have hfi := hf (i % 21) (Nat.mod_lt _ (by decide))
  rw [show 21 * (i / 21) + i % 21 = i by omega, hval] at hfi
  injection hfi with hfi
  rw [hfi]
  have hj : i % 21 < 21 := Nat.mod_lt _ (by decide)
  generalize i % 21 = j at hj
  rcases (show j < 16 ∨ j = 16 ∨ j = 17 ∨ 18 ≤ j by omega) with h | h | h | h
  · rw [hb.sel _ h]
    unfold hv
    split
    · have := en_le (t := t) (L := L) (m := 16 * (i / 21) + j) hL (by assumption)
      simp only [W64]
      omega
    · decide
  · rw [h, hb.off]
    exact oS_lt ty TH hL hlen _
  · rw [h, hb.o1]
    exact Nat.mod_lt _ (by decide)
  · rw [show j = 17 + (j - 17) by omega, hb.offs _ (by omega) (by omega)]
    exact acc_lt _ _

theorem selMpe_bits {x : Select} {f : Nat → Byte} {gb : Option (Nat → Byte)} (hL : 1 ≤ L) (hlen : t.len < 2 ^ 57)
    (hx : BuiltMpeS ty t L TH f gb x) : x.bitsLen < W64 := by
  have ha := bits1_le (t := t) (TH := TH) hL
  have hb := tabs_le (ty := ty) (t := t) (TH := TH) hL _ (Nat.le_refl _)
  have hc := en_le (t := t) (L := L) (m := nbk t L) hL (Nat.le_refl _)
  have := hx.bl
  simp only [W64]
  omega

theorem back_supS {x : Select} {f : Nat → Byte} {gb : Option (Nat → Byte)} (hx : BuiltMpeS ty t L TH f gb x) (aS aB : Nat) :
    SupS ty t L TH f (x.back aS aB).sel := by
  refine ⟨?_, fun k hk => ?_⟩
  · have := clip_len x.sel x.selLen (room aS)
    rw [← hx.selLen]
    exact this
  · obtain ⟨b, hb, hf⟩ := hx.sup k hk
    exact ⟨b, hb, fun j hj => (clip_f (by rw [hx.selLen]; omega)).2.trans (hf j hj)⟩

/-- What `load` makes is what `build` made, without values behind `bitsLen`. -/
theorem selMpe_back {x : Select} {f : Nat → Byte} {gb : Option (Nat → Byte)} (hL : 1 ≤ L) (h1 : 1 ≤ tot t)
    (hx : BuiltMpeS ty t L TH f gb x) (hl : ¬ Lost t L TH) (aS aB : Nat) : BuiltMpeS ty t L TH f none (x.back aS aB) := by
  have hle : off t L TH (nbk t L) ≤ bsz t L TH := Nat.le_of_not_lt (fun h => hl ((lost_iff hL h1).2 h))
  have heq := offS_eq (ty := ty) (t := t) (L := L) (TH := TH) (nbk t L)
  have hbl := hx.bl
  have hoff : offS ty t L TH (nbk t L) ≤ x.bitsLen := by unfold bsz at hle; omega
  have hcl := clip_len x.bits x.bitsLen (roomBytes aB)
  have hs := back_supS hx aS aB
  refine ⟨hx.selLen, ?_, hs.sup, hx.bl, ?_, hcl, fun h => absurd rfl h, fun k hk => (hx.data k hk).frame (fun y hy => ?_),
    fun h hh => (by cases hh), hx.text⟩
  · exact clip_len x.sel x.selLen (room aS)
  · exact Nat.le_trans hoff hcl
  · have := offS_mono (ty := ty) (t := t) (L := L) (TH := TH) (show k + 1 ≤ nbk t L from hk)
    exact (clip_f (by omega)).2

/-- The last one is lost. -/
theorem selMpe_lost {x : Select} {f : Nat → Byte} {gb : Option (Nat → Byte)} (hL : 1 ≤ L) (hLT : L ≤ TH)
    (hlen : t.len < 2 ^ 57) (h1 : 1 ≤ tot t) (hx : BuiltMpeS ty t L TH f gb x) (hl : Lost t L TH) (aS aB : Nat)
    (strict : Bool) : ∃ e, selectMpe ty strict L TH (x.back aS aB) (tot t) = ub e := by
  obtain ⟨p, ⟨h0, hbl⟩, hp⟩ := id hl
  obtain ⟨hn, ho, hb⟩ := single (TH := TH) h1 h0
  have hdm := Nat.div_add_mod (tot t) L
  rw [h0, Nat.mul_zero, Nat.zero_add] at hdm
  have hbits : x.bitsLen = bsz t L TH := by
    have h2 := hx.bl
    obtain ⟨d0, t0⟩ := psum_one_last (ty := ty) (TH := TH) hn
    rw [d0, t0] at h2
    unfold bsz
    omega
  have hk0 : ks ty t L TH 0 = 0 := ks_last (by omega)
  have hdata : Data t L TH 0 x.bits := by
    have hd := hx.data 0 (by omega)
    exact ⟨fun hs j hj b hb => hd.sp hs j hj b hb, fun hs hm y hy => hd.de ⟨hs, hm⟩ hk0 y hy⟩
  have hsup := back_supS hx aS aB
  have hfits : FitsS ty t L TH := fun k hk => by omega
  have hheads : Heads t L TH (clip x.bits (bsz t L TH) (roomBytes aB)) (fun strict i => selectMpe ty strict L TH (x.back aS aB) i) := by
    refine ⟨fun strict i hi1 hit hi => ?_, fun strict i hit hi => ?_⟩
    · show selectMpe _ _ _ _ _ _ = _
      rw [selectMpe_head hL hlen hsup strict i hit, if_pos hi]
    · show selectMpe _ _ _ _ _ _ = _
      have him : i / L = 0 := by have := Nat.div_le_div_right (c := L) hit; rw [h0] at this; exact Nat.le_zero.1 this
      rw [selectMpe_head hL hlen hsup strict i hit, if_neg hi, him]
      have hsl := hsup.len
      obtain ⟨b, hbk, hr⟩ := hsup.sup 0 (by omega)
      obtain ⟨p1, p2⟩ := placeS (m := 0) hbk hr (by omega) hL hlen hfits (by omega)
      have hfl : FlagRight ty t L TH f 0 := flagRight (Or.inr ⟨by omega, Or.inl (by omega)⟩)
      unfold FlagRight at hfl
      rw [hk0] at hfl
      have hb' : (x.back aS aB).bits = clip x.bits (bsz t L TH) (roomBytes aB) := by rw [← hbits]; rfl
      rw [p1, p2, ok_bind, ok_bind, hfl, hb']
      simp only []
      rw [if_neg (show ¬ 4 < 0 % 16 by decide), if_neg (show ¬ 0 ≠ 0 by decide), Nat.add_zero]
      rfl
  exact lost_query hL hLT h1 hdata hl hheads strict

end MRS.Mran
