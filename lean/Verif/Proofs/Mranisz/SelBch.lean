import Verif.Proofs.Mranisz.SelStd

/-! # Compressed select: compressed headers -/

set_option autoImplicit false

namespace MRS.Mran
open Outcome Spec Poppy

variable {t : Vec Byte} {L TH : Nat}

/-- Entries of the temporary array, padded with zeros. -/
def hv (t : Vec Byte) (L k : Nat) : Nat := if k ≤ nbk t L then en t L k else 0
def ho (t : Vec Byte) (L TH k : Nat) : Nat := if k < nbk t L then off t L TH k else 0

/-- The temporary array. -/
structure TmpSel (t : Vec Byte) (L TH SL : Nat) (tmp : Vec (Option Nat)) : Prop where
  len : tmp.len = SL
  ev : ∀ k, 2 * k + 1 < SL → tmp.f (2 * k) = some (hv t L k)
  od : ∀ k, 2 * k + 1 < SL → tmp.f (2 * k + 1) = some (ho t L TH k)

/-- Difference of offsets in a superblock that starts at block `i`. -/
def hd (t : Vec Byte) (L TH i j : Nat) : Nat := sub64 (ho t L TH (i + j + 1)) (ho t L TH i)

structure BucketSel (t : Vec Byte) (L TH i : Nat) (b : Vec Nat) : Prop where
  len : b.len = 21
  sel : ∀ j, j < 16 → b.f j = hv t L (i + j)
  off : b.f 16 = ho t L TH i
  dif : ∀ c, c < 4 → b.f (17 + c) = acc (fun s => hd t L TH i (4 * c + s)) (min 4 (15 - 4 * c))

theorem selBucket_ok {SL i : Nat} {tmp : Vec (Option Nat)} (ht : TmpSel t L TH SL tmp) (hi : 2 * (i + 15) + 1 < SL) :
    ∃ b, selBucket tmp i = ok b ∧ BucketSel t L TH i b := by
  unfold selBucket
  simp only []
  have hl := ht.len
  obtain ⟨b, e, h1, h2, h3⟩ := forN_inv
    (body := fun j (b : Vec Nat) => do
      let x ← uget tmp (2 * (i + j))
      b.set j x)
    (fun n b => b.len = 21 ∧ (∀ j, j < n → b.f j = hv t L (i + j)) ∧ ∀ j, n ≤ j → b.f j = 0) 16
    ⟨21, fun _ => 0⟩ ⟨rfl, by intro j hj; omega, fun _ _ => rfl⟩
    (by
      intro j b hj ⟨h1, h2, h3⟩
      rw [uget_ok (by omega) (ht.ev (i + j) (by omega)), ok_bind, Vec.set_ok _ (by omega)]
      refine ⟨_, rfl, h1, ?_, ?_⟩
      · intro j' hj'
        show (if j' = j then _ else _) = _
        by_cases hjj : j' = j
        · rw [if_pos hjj, hjj]
        · rw [if_neg hjj, h2 j' (by omega)]
      · intro j' hj'
        show (if j' = j then _ else _) = _
        rw [if_neg (by omega), h3 j' (by omega)])
  rw [e, ok_bind, uget_ok (by omega) (ht.od i (by omega)), ok_bind, Vec.set_ok _ (by omega), ok_bind]
  obtain ⟨b', e', g1, g2, g3, g4⟩ := forN_inv
    (body := fun j (b : Vec Nat) => do
      let o ← uget tmp (2 * (i + j + 1) + 1)
      let b0 ← b.get 16
      let x ← b.get (17 + j / 4)
      b.set (17 + j / 4) (add64 x (shl64 (sub64 o b0) (16 * (j % 4)))))
    (fun n b' => b'.len = 21 ∧ (∀ j, j < 16 → b'.f j = hv t L (i + j)) ∧ b'.f 16 = ho t L TH i ∧
      ∀ c, c < 4 → b'.f (17 + c) = acc (fun s => hd t L TH i (4 * c + s)) (min 4 (n - 4 * c))) 15
    ⟨b.len, fun k => if k = 16 then ho t L TH i else b.f k⟩
    ⟨h1, by
        intro j hj
        show (if j = 16 then _ else _) = _
        rw [if_neg (by omega), h2 j hj],
      (show (if 16 = 16 then ho t L TH i else b.f 16) = ho t L TH i from if_pos rfl),
      by
        intro c hc
        show (if 17 + c = 16 then _ else _) = _
        rw [if_neg (by omega), h3 _ (by omega), Nat.zero_sub, Nat.min_zero]
        rfl⟩
    (by
      intro j b' hj ⟨g1, g2, g3, g4⟩
      rw [uget_ok (by omega) (ht.od (i + j + 1) (by omega)), ok_bind, Vec.get_ok (by omega), ok_bind,
        Vec.get_ok (by omega), ok_bind, Vec.set_ok _ (by omega)]
      refine ⟨_, rfl, g1, ?_, ?_, ?_⟩
      · intro k hk
        show (if k = 17 + j / 4 then _ else _) = _
        rw [if_neg (by omega), g2 k hk]
      · show (if 16 = 17 + j / 4 then _ else _) = _
        rw [if_neg (by omega), g3]
      · intro c hc
        show (if 17 + c = 17 + j / 4 then _ else _) = _
        by_cases hcj : c = j / 4
        · rw [if_pos (by omega), g3, g4 (j / 4) (by omega), hcj, show min 4 (j - 4 * (j / 4)) = j % 4 by omega,
            show min 4 (j + 1 - 4 * (j / 4)) = j % 4 + 1 by omega]
          show _ = add64 _ (shl64 (hd t L TH i (4 * (j / 4) + j % 4)) _)
          rw [show 4 * (j / 4) + j % 4 = j by omega]
          rfl
        · rw [if_neg (by omega), g4 c hc, show min 4 (j + 1 - 4 * c) = min 4 (j - 4 * c) by omega])
  exact ⟨b', e', g1, g2, g3, g4⟩

/-- The object that `build_bch` makes. -/
structure BuiltBch (t : Vec Byte) (L TH : Nat) (x : Select) : Prop where
  selLen : x.selLen = 21 * (nbk t L / 16 + 1)
  slen : x.selLen ≤ x.sel.len
  sup : ∀ k, k < nbk t L / 16 + 1 → ∃ b, BucketSel t L TH (16 * k) b ∧ ∀ j, j < 21 → x.sel.f (21 * k + j) = some (b.f j)
  bl : x.bitsLen = psum (sz1 t L TH) (tot t / L) + szLast t L TH
  bits : off t L TH (nbk t L) ≤ x.bits.len
  blen : x.bitsLen ≤ x.bits.len
  data : ∀ k, k < nbk t L → Data t L TH k x.bits
  text : x.textLen = t.len

theorem selTmpLen_eq (n : Nat) : selTmpLen (2 * n + 2) = 32 * (n / 16 + 1) := by
  unfold selTmpLen
  split <;> omega

theorem supers_ok {tmp : Vec (Option Nat)} {N V : Nat} (ht : TmpSel t L TH (32 * N) tmp) (hV : 21 * N ≤ V) :
    ∃ v, forN N (selSuper tmp) (fresh V) = ok v ∧ v.len = V ∧
      ∀ k, k < N → ∃ b, BucketSel t L TH (16 * k) b ∧ ∀ j, j < 21 → v.f (21 * k + j) = some (b.f j) := by
  obtain ⟨v, e, h1, h2⟩ := forN_inv (body := selSuper tmp)
    (fun n v => v.len = V ∧ ∀ k, k < n → ∃ b, BucketSel t L TH (16 * k) b ∧
      ∀ j, j < 21 → v.f (21 * k + j) = some (b.f j)) N (fresh V)
    ⟨rfl, by intro k hk; omega⟩
    (by
      intro k v hk ⟨a1, a2⟩
      obtain ⟨b, eb, hb⟩ := selBucket_ok ht (i := 16 * k) (by omega)
      unfold selSuper
      rw [eb, ok_bind]
      obtain ⟨v', ev, c1, c2, c3⟩ := forN_inv (body := fun j (v : Vec (Option Nat)) => do
          let x ← b.get j
          v.set (21 * k + j) (some x))
        (fun j v' => v'.len = V ∧ (∀ j', j' < j → v'.f (21 * k + j') = some (b.f j')) ∧
          ∀ y, y < 21 * k → v'.f y = v.f y) 21 v
        ⟨a1, by intro j hj; omega, fun _ _ => rfl⟩
        (by
          intro j v' hj ⟨d1, d2, d3⟩
          rw [Vec.get_ok (by rw [hb.len]; exact hj), ok_bind, Vec.set_ok _ (by omega)]
          refine ⟨_, rfl, d1, ?_, ?_⟩
          · intro j' hj'
            show (if 21 * k + j' = 21 * k + j then _ else _) = _
            by_cases hjj : j' = j
            · rw [if_pos (by omega), hjj]
            · rw [if_neg (by omega), d2 j' (by omega)]
          · intro y hy
            show (if y = 21 * k + j then _ else _) = _
            rw [if_neg (by omega), d3 y hy])
      refine ⟨v', ev, c1, ?_⟩
      intro k' hk'
      by_cases hkk : k' = k
      · subst hkk
        exact ⟨b, hb, c2⟩
      · obtain ⟨b', hb1, hb2⟩ := a2 k' (by omega)
        refine ⟨b', hb1, fun j hj => ?_⟩
        rw [c3 _ (by omega), hb2 j hj])
  exact ⟨v, e, h1, h2⟩

/-- The zeros after the entries. -/
theorem pad_ok {SL c : Nat} {v : Vec (Option Nat)} (hv : v.len = SL) (hc : c ≤ SL) :
    ∃ w, forFrom c (SL - c) (fun i (v : Vec (Option Nat)) => v.set i (some 0)) v = ok w ∧ w.len = SL ∧
      (∀ y, y < c → w.f y = v.f y) ∧ ∀ y, c ≤ y → y < SL → w.f y = some 0 := by
  obtain ⟨w, e, h1, h2, h3⟩ := forFrom_inv (body := fun i (v : Vec (Option Nat)) => v.set i (some 0))
    (fun i w => w.len = SL ∧ (∀ y, y < c → w.f y = v.f y) ∧ ∀ y, c ≤ y → y < i → w.f y = some 0) (SL - c) c v
    ⟨hv, fun _ _ => rfl, by intro y h1 h2; omega⟩
    (by
      intro i w h1 h2 ⟨a1, a2, a3⟩
      rw [Vec.set_ok _ (by omega)]
      refine ⟨_, rfl, a1, ?_, ?_⟩
      · intro y hy
        show (if y = i then _ else _) = _
        rw [if_neg (by omega), a2 y hy]
      · intro y h3 h4
        show (if y = i then _ else _) = _
        by_cases hy : y = i
        · rw [if_pos hy]
        · rw [if_neg hy, a3 y h3 (by omega)])
  refine ⟨w, e, h1, h2, fun y h4 h5 => h3 y h4 (by omega)⟩

theorem buildSelBch_cases (hL : 1 ≤ L) (hlen : t.len < 2 ^ 60) (h1 : 1 ≤ tot t) (h32 : 2 * nbk t L + 2 < 2 ^ 32)
    (aS aB : Nat) :
    (¬ (Odd t L TH ∧ (TH + 7) / 8 + roomBytes aB < 8 * tot t) →
      ∃ x, buildSelBch L TH aS aB t = ok x ∧ BuiltBch t L TH x) ∧
    (Odd t L TH ∧ (TH + 7) / 8 + roomBytes aB < 8 * tot t → buildSelBch L TH aS aB t = ub .oob) := by
  have hn := nbk_one hL h1
  unfold buildSelBch
  rw [countOnes_ok, ok_bind]
  simp only []
  rw [entries_eq, Nat.mod_eq_of_lt h32, selTmpLen_eq]
  generalize hN : nbk t L / 16 + 1 = N
  obtain ⟨s, e, hs⟩ := sel1_ok (t := t) (L := L) (TH := TH) (SL := 32 * N) hL hlen (by omega)
  have hcn := hs.cnt
  rw [e, ok_bind]
  obtain ⟨w, ew, w1, w2, w3⟩ := pad_ok (SL := 32 * N) (c := s.cnt) hs.len (by omega)
  rw [ew, ok_bind, show (2 * nbk t L + 2 + 2 ^ 32 - 2) % 2 ^ 32 = 2 * nbk t L by omega]
  have h2 := sel2_ok (t := t) (L := L) (TH := TH) (aB := aB) (SL := 32 * N) (s := { s with sel := w })
    hL hlen h1 (by omega) w1
    (fun m hm => ⟨by show w.f _ = _; rw [w2 _ (by omega), (hs.ev m hm).1],
      by show w.f _ = _; rw [w2 _ (by omega), (hs.ev m hm).2]⟩)
  have hroom := roomBytes_pos aB
  have hbl := hs.bits
  refine ⟨fun hno => ?_, fun hodd => ?_⟩
  · have : off t L TH (nbk t L) ≤ psum (sz1 t L TH) (tot t / L) + szLast t L TH + roomBytes aB := by
      by_cases hodd : Odd t L TH
      · have h3 := room_odd h1 hodd
        have : ¬ (TH + 7) / 8 + roomBytes aB < 8 * tot t := fun hh => hno ⟨hodd, hh⟩
        omega
      · have := room_enough hL hodd
        omega
    obtain ⟨s2, e2, hf⟩ := h2.1 (by show _ ≤ s.bitsLen + _; omega)
    rw [e2, ok_bind]
    have htmp : TmpSel t L TH (32 * N) s2.sel := by
      refine ⟨hf.slen, fun k hk => ?_, fun k hk => ?_⟩
      · unfold hv
        by_cases hk' : k ≤ nbk t L
        · rw [if_pos hk', hf.ev k hk']
        · rw [if_neg hk', hf.rest _ (by omega)]
          exact w3 _ (by omega) (by omega)
      · unfold ho
        by_cases hk' : k ≤ nbk t L
        · rw [hf.od k hk']
        · rw [if_neg (by omega), hf.rest _ (by omega)]
          exact w3 _ (by omega) hk
    rw [show 32 * N / 2 / 16 = N by omega]
    obtain ⟨v, ev, v1, v2⟩ := supers_ok (V := N * 21 + room aS) htmp (by omega)
    rw [ev, ok_bind]
    refine ⟨_, rfl, by rw [hN]; exact Nat.mul_comm _ _, ?_, by rw [hN]; exact v2, hs.bits, ?_, ?_, hf.data, rfl⟩
    · show N * 21 ≤ v.len
      omega
    · show _ ≤ s2.bits.len
      rw [hf.blen]; show _ ≤ s.bitsLen + _; omega
    · show s.bitsLen ≤ s2.bits.len
      rw [hf.blen]; show _ ≤ s.bitsLen + _; omega
  · have h3 := room_odd h1 hodd.1
    rw [h2.2 (by show s.bitsLen + _ < _; omega)]
    rfl

/-! ## Queries -/

/-- The compile-time parameters that the constructor accepts (select.hpp lines 1234-1237). -/
theorem wd_small (hL : 1 ≤ L) (hL2 : 8 * (L - 1) ≤ 4369) (hTH : TH - 1 ≤ 8 * 4369) {m : Nat} (hm : m < tot t / L) :
    wd t L TH m ≤ 4369 := by
  have := bl_pos (t := t) (L := L) (m := m) hL (by have := nbk_ge t L; omega)
  unfold wd sparse sq sb
  rw [if_pos hm, if_pos hm]
  by_cases h : bl t L m > TH
  · rw [decide_eq_true h, if_pos rfl]; exact hL2
  · rw [decide_eq_false h, if_neg (by simp)]
    split <;> omega

theorem off_diff (hL : 1 ≤ L) (hL2 : 8 * (L - 1) ≤ 4369) (hTH : TH - 1 ≤ 8 * 4369) (i : Nat) : ∀ j, i + j < nbk t L →
    off t L TH (i + j) ≤ off t L TH i + 4369 * j := by
  intro j
  induction j with
  | zero => intro _; exact Nat.le_refl _
  | succ j ih =>
    intro h
    have hK : i + j < tot t / L := by unfold nbk at h; split at h <;> omega
    have h1 := ih (by omega)
    have h2 := wd_small (TH := TH) hL hL2 hTH hK
    rw [← Nat.add_assoc, off_succ]
    omega

theorem hd_eq {i j : Nat} (h : i + j + 1 < nbk t L) (hbig : off t L TH (nbk t L) < 2 ^ 64) :
    hd t L TH i j = off t L TH (i + j + 1) - off t L TH i := by
  unfold hd ho
  rw [if_pos h, if_pos (by omega)]
  have h1 := off_mono (t := t) (L := L) TH (show i + j + 1 ≤ nbk t L by omega)
  exact sub64_eq (off_mono TH (by omega)) (by simp only [W64]; omega)

/-- Offsets fit in 64 bits. -/
theorem off_small (hL : 1 ≤ L) (hL2 : 8 * (L - 1) ≤ 4369) (hTH : TH - 1 ≤ 8 * 4369) (h32 : 2 * nbk t L + 2 < 2 ^ 32)
    (hlen : t.len < 2 ^ 60) : off t L TH (nbk t L) < 2 ^ 64 := by
  by_cases h0 : nbk t L = 0
  · rw [h0]; exact (show 0 < 2 ^ 64 by decide)
  · have h1 := off_diff (t := t) (TH := TH) hL hL2 hTH 0 (nbk t L - 1) (by omega)
    rw [Nat.zero_add] at h1
    have h2 := off_succ (t := t) (L := L) TH (nbk t L - 1)
    rw [show nbk t L - 1 + 1 = nbk t L by omega] at h2
    have h3 : wd t L TH (nbk t L - 1) ≤ 8 * L + 8 * t.len + 1 := by
      have hb := en_le (t := t) (L := L) (m := nbk t L) hL (Nat.le_refl _)
      have hs := en_succ (t := t) (L := L) (m := nbk t L - 1) hL (by omega)
      rw [show nbk t L - 1 + 1 = nbk t L by omega] at hs
      have hsb : sb t L (nbk t L - 1) ≤ bl t L (nbk t L - 1) := by unfold sb; split <;> omega
      have hsq : sq t L (nbk t L - 1) ≤ L := by
        unfold sq
        have := Nat.mod_lt (tot t) hL
        split <;> omega
      unfold wd
      split
      · omega
      · split <;> omega
    have h4 : off t L TH 0 = 0 := rfl
    omega

theorem selectBch_heads {x : Select} (hL : 1 ≤ L) (hL2 : 8 * (L - 1) ≤ 4369) (hTH : TH - 1 ≤ 8 * 4369)
    (h32 : 2 * nbk t L + 2 < 2 ^ 32) (hlen : t.len < 2 ^ 60) (hsl : 21 * (nbk t L / 16 + 1) ≤ x.sel.len)
    (sup : ∀ k, k < nbk t L / 16 + 1 → ∃ b, BucketSel t L TH (16 * k) b ∧ ∀ j, j < 21 → x.sel.f (21 * k + j) = some (b.f j)) :
    Heads t L TH x.bits (fun strict i => selectBch strict L TH x i) := by
  have hn := nbk_ge t L
  have hbig := off_small (t := t) (TH := TH) hL hL2 hTH h32 hlen
  have hsel : ∀ m, m ≤ nbk t L → 21 * (m / 16) + m % 16 < x.sel.len ∧
      x.sel.f (21 * (m / 16) + m % 16) = some (en t L m) := by
    intro m hm
    obtain ⟨b, hb, hf⟩ := sup (m / 16) (by omega)
    refine ⟨by omega, ?_⟩
    rw [hf _ (by omega), hb.sel _ (by omega), show 16 * (m / 16) + m % 16 = m by omega]
    unfold hv
    rw [if_pos hm]
  refine ⟨?_, ?_⟩
  · intro strict i _ hit hi
    have : i / L ≤ tot t / L := Nat.div_le_div_right hit
    have hs := hsel (i / L) (by omega)
    unfold selectBch
    simp only []
    rw [uget_ok hs.1 hs.2, ok_bind, if_pos hi]
  · intro strict i hit hi
    have hb := (block_of hL hi hit).1
    show selectBch strict L TH x i = _
    unfold selectBch
    simp only []
    generalize hm : i / L = m at *
    have hle := en_le (t := t) (L := L) (m := m + 1) hL hb
    have hlt := en_lt hL hb
    have hs := hsel m (by omega)
    rw [uget_ok hs.1 hs.2, ok_bind, if_neg hi]
    have hs2 : (if m % 16 = 15 then uget x.sel (21 * (m / 16) + 21) else uget x.sel (21 * (m / 16) + (m % 16 + 1))) =
        ok (en t L (m + 1)) := by
      have h' := hsel (m + 1) hb
      by_cases h15 : m % 16 = 15
      · rw [if_pos h15]
        rw [show 21 * ((m + 1) / 16) + (m + 1) % 16 = 21 * (m / 16) + 21 by omega] at h'
        exact uget_ok h'.1 h'.2
      · rw [if_neg h15]
        rw [show 21 * ((m + 1) / 16) + (m + 1) % 16 = 21 * (m / 16) + (m % 16 + 1) by omega] at h'
        exact uget_ok h'.1 h'.2
    rw [hs2, ok_bind, sub64_eq (by omega) (by simp only [W64]; omega)]
    show (if bl t L m = L then _ else _) = _
    by_cases hmo : bl t L m = L
    · rw [if_pos hmo, if_pos hmo]
    · rw [if_neg hmo, if_neg hmo]
      obtain ⟨b, hbk, hf⟩ := sup (m / 16) (by omega)
      have h16 := hf 16 (by omega)
      rw [hbk.off] at h16
      unfold ho at h16
      rw [if_pos (by omega)] at h16
      rw [uget_ok (by omega) h16, ok_bind]
      have hoff : (if m % 16 > 0 then (do
            let d ← slot1 x.sel (21 * (m / 16) + 16) (m % 16)
            ok (off t L TH (16 * (m / 16)) + d)) else ok (off t L TH (16 * (m / 16)))) = ok (off t L TH m) := by
        by_cases h0 : m % 16 > 0
        · rw [if_pos h0]
          have hq : 21 * (m / 16) + 16 + (m % 16 + 3) / 4 = 21 * (m / 16) + (17 + (m % 16 - 1) / 4) := by omega
          have hfd := hf (17 + (m % 16 - 1) / 4) (by omega)
          rw [hbk.dif _ (by omega)] at hfd
          rw [slot1_eq (w := acc (fun s => hd t L TH (16 * (m / 16)) (4 * ((m % 16 - 1) / 4) + s))
            (min 4 (15 - 4 * ((m % 16 - 1) / 4)))) (by omega) (by rw [hq]; exact hfd) (acc_lt _ _), ok_bind]
          have hsmall : ∀ j, j < m % 16 → hd t L TH (16 * (m / 16)) j = off t L TH (16 * (m / 16) + j + 1) - off t L TH (16 * (m / 16)) ∧
              hd t L TH (16 * (m / 16)) j < 65536 := by
            intro j hj
            have h1 := hd_eq (t := t) (L := L) (TH := TH) (i := 16 * (m / 16)) (j := j) (by omega) hbig
            have h2 := off_diff (t := t) (TH := TH) hL hL2 hTH (16 * (m / 16)) (j + 1) (by omega)
            rw [← Nat.add_assoc] at h2
            exact ⟨h1, by omega⟩
          rw [show (m % 16 + 3) % 4 = (m % 16 - 1) % 4 by omega,
            acc_slot _ (by omega) (by omega) (fun k hk => (hsmall _ (by omega)).2)]
          rw [show 4 * ((m % 16 - 1) / 4) + (m % 16 - 1) % 4 = m % 16 - 1 by omega,
            Nat.mod_eq_of_lt (hsmall _ (by omega)).2, (hsmall _ (by omega)).1,
            show 16 * (m / 16) + (m % 16 - 1) + 1 = m by omega]
          have := off_mono (t := t) (L := L) TH (show 16 * (m / 16) ≤ m by omega)
          rw [show off t L TH (16 * (m / 16)) + (off t L TH m - off t L TH (16 * (m / 16))) = off t L TH m by omega]
        · rw [if_neg h0, show 16 * (m / 16) = m by omega]
      rw [hoff, ok_bind]
      rfl

theorem selectBch_ok {x : Select} (hL : 1 ≤ L) (hL2 : 8 * (L - 1) ≤ 4369) (hTH : TH - 1 ≤ 8 * 4369)
    (h32 : 2 * nbk t L + 2 < 2 ^ 32) (hlen : t.len < 2 ^ 60) (hx : BuiltBch t L TH x) :
    Answers t L TH (fun strict i => selectBch strict L TH x i) :=
  answers_of hL hlen hx.bits hx.data (selectBch_heads hL hL2 hTH h32 hlen
    (by have := hx.slen; rw [hx.selLen] at this; exact this) hx.sup)

/-- `select(0)`. -/
theorem selectBch_zero {x : Select} (hx : BuiltBch t L TH x) (strict : Bool) :
    selectBch strict L TH x 0 = ok (2 ^ 64 - 1) := by
  have hsl := hx.slen
  rw [hx.selLen] at hsl
  obtain ⟨b, hb, hf⟩ := hx.sup 0 (by omega)
  have h0 := hf 0 (by omega)
  rw [hb.sel 0 (by omega)] at h0
  unfold hv at h0
  rw [if_pos (Nat.zero_le _)] at h0
  unfold selectBch
  simp only []
  rw [Nat.zero_div, Nat.zero_mod, Nat.zero_div, Nat.zero_mod, uget_ok (a := en t L 0) (by omega) h0, ok_bind, if_pos rfl, en_zero,
    show sub64 0 1 = 2 ^ 64 - 1 by decide]

/-! ## No ones -/

theorem no_bit (h0 : tot t = 0) {p : Nat} (hp : p < 8 * t.len) : tbit t p = false := by
  have h1 := T_mono t (show p + 1 ≤ 8 * t.len by omega)
  have h2 := T_succ t p
  unfold tot at h0
  cases hb : tbit t p
  · rfl
  · rw [hb] at h2
    have : (true : Bool).toNat = 1 := rfl
    omega

theorem zeroLoop (h0 : tot t = 0) {BL : Nat} {v : Vec (Option Nat)} : ∀ n p (s : Sel2), p + n = 8 * t.len → 1 ≤ p →
    s.upTo = 0 → s.sparse = false → s.mono = false → s.bc = (p - 1) / 8 → s.bpos = 7 - (p - 1) % 8 →
    s.sel = v → s.bits.len = BL → s.bc ≤ BL →
    (t.len ≤ BL + 1 → ∃ s', sel2Loop L TH t 0 0 n p s = ok s' ∧ s'.sel = v) ∧
    (BL + 1 < t.len → sel2Loop L TH t 0 0 n p s = ub .oob) := by
  intro n
  induction n with
  | zero =>
    intro p s hp h1 _ _ _ hbc _ hv hbl hle
    exact ⟨fun _ => ⟨s, rfl, hv⟩, fun h => by omega⟩
  | succ n ih =>
    intro p s hp h1 hup hsp hmo hbc hpos hv hbl hle
    unfold sel2Loop
    rw [bitAt_ok (by omega), ok_bind, no_bit h0 (by omega), if_neg (by omega)]
    unfold sel2In
    rw [if_neg (by rw [hmo]; simp), if_neg (by rw [hsp]; simp)]
    simp only [Bool.false_eq_true, if_false]
    by_cases hz : s.bpos = 0
    · rw [if_pos hz]
      by_cases hroom : s.bc < s.bits.len
      · rw [put_ok hroom, ok_bind, ok_bind]
        exact ih (p + 1) _ (by omega) (by omega) hup hsp hmo (by show s.bc + 1 = _; omega) (by show 7 = _; omega) hv hbl
          (by show s.bc + 1 ≤ BL; omega)
      · rw [put_oob hroom]
        exact ⟨fun h => by omega, fun _ => rfl⟩
    · rw [if_neg hz, ok_bind]
      exact ih (p + 1) _ (by omega) (by omega) hup hsp hmo (by show s.bc = _; omega) (by show s.bpos - 1 = _; omega) hv hbl hle

/-- Without a one `build_bch` writes a zero byte for every byte but one. -/
theorem buildSelBch_none (hL : 1 ≤ L) (hTH : 1 ≤ TH) (hlen : t.len < 2 ^ 60) (h0 : tot t = 0) (aS aB : Nat) :
    (t.len ≤ roomBytes aB + 1 → ∃ x, buildSelBch L TH aS aB t = ok x) ∧
    (roomBytes aB + 1 < t.len → buildSelBch L TH aS aB t = ub .oob) := by
  have hn : nbk t L = 0 := nbk_pos h0
  have hroom := roomBytes_pos aB
  unfold buildSelBch
  rw [countOnes_ok, ok_bind]
  simp only []
  rw [entries_eq, selTmpLen_eq, hn]
  obtain ⟨s, e, hs⟩ := sel1_ok (t := t) (L := L) (TH := TH) (SL := 32) hL hlen (by omega)
  have hcn := hs.cnt
  have hbits := hs.bits
  rw [hn] at hcn
  rw [h0, Nat.zero_div] at hbits
  have hbz : s.bitsLen = 0 := by
    rw [hbits]
    unfold szLast
    rw [h0, Nat.zero_mod, if_neg (by omega)]
    rfl
  obtain ⟨w, ew, w1, w2, w3⟩ := pad_ok (SL := 32) (c := s.cnt) hs.len (by omega)
  have hw : ∀ y, y < 32 → w.f y = some 0 := by
    intro y hy
    by_cases hyc : y < s.cnt
    · rw [w2 y hyc]
      have h := hs.ev 0 (Nat.zero_le _)
      by_cases hy0 : y = 0
      · rw [hy0]; exact h.1
      · rw [show y = 1 by omega]; exact h.2
    · exact w3 y (by omega) hy
  rw [show 32 * (0 / 16 + 1) = 32 from rfl, e, ok_bind, ew, ok_bind,
    show ((2 * 0 + 2) % 2 ^ 32 + 2 ^ 32 - 2) % 2 ^ 32 = 0 by decide, show (2 * 0 + 2) % 2 ^ 32 = 2 by decide]
  -- the second loop
  have key : (t.len ≤ roomBytes aB + 1 → ∃ s2, sel2 L TH t (tot t) 0 2 aB { s with sel := w } = ok s2 ∧
        TmpSel t L TH 32 s2.sel) ∧
      (roomBytes aB + 1 < t.len → sel2 L TH t (tot t) 0 2 aB { s with sel := w } = ub .oob) := by
    have htmp : ∀ v : Vec (Option Nat), v.len = 32 → (∀ y, y < 32 → v.f y = some 0) → TmpSel t L TH 32 v := by
      intro v h1 h2
      refine ⟨h1, fun k hk => ?_, fun k hk => ?_⟩
      · rw [h2 _ (by omega)]
        unfold hv
        rw [hn]
        by_cases hk0 : k ≤ 0
        · rw [if_pos hk0, show k = 0 by omega, en_zero]
        · rw [if_neg hk0]
      · rw [h2 _ hk]
        unfold ho
        rw [hn, if_neg (by omega)]
    unfold sel2
    rw [uget_ok (a := 0) (by show 2 < w.len; omega) (hw 2 (by omega)), ok_bind,
      uget_ok (a := 0) (by show 0 < w.len; omega) (hw 0 (by omega)), ok_bind]
    simp only []
    rw [h0, show add64 (sub64 0 0) 1 = 1 by decide, hbz, Nat.zero_add]
    have hfin : ∀ s' : Sel2, forN (2 / 2 - 1) (fun k (v : Vec (Option Nat)) => do
        let x ← uget v (2 + 2 * k)
        v.set (2 + 2 * k) (some (add64 x 1))) s'.sel = ok s'.sel := fun _ => rfl
    by_cases hl0 : t.len = 0
    · rw [hl0]
      refine ⟨fun _ => ?_, fun h => by omega⟩
      exact ⟨_, rfl, htmp w w1 hw⟩
    · obtain ⟨n, hn8⟩ : ∃ n, 8 * t.len = n + 1 := ⟨8 * t.len - 1, by omega⟩
      rw [hn8]
      unfold sel2Loop
      rw [bitAt_ok (by omega), ok_bind, if_pos rfl, if_neg (by show ¬ 0 + 2 = 0; omega)]
      unfold sel2Next
      simp only []
      rw [if_neg (by simp), ok_bind]
      simp only []
      rw [Vec.set_ok _ (by omega), ok_bind]
      have hw' : ∀ y, y < 32 → (⟨w.len, fun j => if j = 0 + 2 + 1 then some 0 else w.f j⟩ : Vec (Option Nat)).f y = some 0 := by
        intro y hy
        show (if y = 0 + 2 + 1 then _ else _) = _
        split
        · rfl
        · exact hw y hy
      rw [uget_ok (a := 0) (by show 0 + 2 + 2 < w.len; omega) (hw' _ (by omega)), ok_bind,
        uget_ok (a := 0) (by show 0 + 2 < w.len; omega) (hw' _ (by omega)), ok_bind]
      rw [ok_bind]
      have hd1 : decide (sub64 0 0 > TH) = false :=
        decide_eq_false (show ¬ sub64 0 0 > TH by rw [show sub64 0 0 = 0 by decide]; omega)
      have hd2 : decide (¬ sub64 0 0 > TH ∧ sub64 0 0 = L) = false :=
        decide_eq_false (show ¬ (¬ sub64 0 0 > TH ∧ sub64 0 0 = L) by rw [show sub64 0 0 = 0 by decide]; omega)
      have hz := zeroLoop (L := L) (TH := TH) h0 (BL := roomBytes aB)
        (v := ⟨w.len, fun j => if j = 0 + 2 + 1 then some 0 else w.f j⟩) n (0 + 1)
        ⟨⟨w.len, fun j => if j = 0 + 2 + 1 then some 0 else w.f j⟩, fresh (roomBytes aB), 0 + 2, 0, 0#8, 7, 0,
          decide (sub64 0 0 > TH), decide (¬ sub64 0 0 > TH ∧ sub64 0 0 = L)⟩
        (by omega) (by omega) rfl hd1 hd2 rfl rfl rfl rfl (Nat.zero_le _)
      refine ⟨fun h => ?_, fun h => ?_⟩
      · obtain ⟨s', e', hv'⟩ := hz.1 h
        rw [e', ok_bind, hfin, ok_bind]
        refine ⟨_, rfl, ?_⟩
        show TmpSel t L TH 32 s'.sel
        rw [hv']
        exact htmp _ w1 hw'
      · rw [hz.2 h]
        rfl
  refine ⟨fun h => ?_, fun h => ?_⟩
  · obtain ⟨s2, e2, ht⟩ := key.1 h
    rw [e2, ok_bind]
    obtain ⟨v, ev, -, -⟩ := supers_ok (N := 1) (V := 32 / 2 / 16 * 21 + room aS) ht (by omega)
    rw [show 32 / 2 / 16 = 1 from rfl] at ev ⊢
    rw [ev, ok_bind]
    exact ⟨_, rfl⟩
  · rw [key.2 h]
    rfl

end MRS.Mran
