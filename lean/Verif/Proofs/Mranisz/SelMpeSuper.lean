import Verif.Proofs.Mranisz.SelMpeTop

/-! # Compressed select with pairs left out: superblocks and `build` -/

set_option autoImplicit false

namespace MRS.Mran
open Outcome Spec Poppy

variable {ty : MpeType} {t : Vec Byte} {L TH : Nat}

/-- Entries of `blockToCompress`; `f` says what memory holds where nothing was written. -/
def fvS (ty : MpeType) (t : Vec Byte) (L TH : Nat) (f : Nat → Byte) (k : Nat) : Byte :=
  if k + 1 < nbk t L then BitVec.ofNat 8 (ks ty t L TH k) else if k + 1 = nbk t L ∧ tot t % L > 0 then 0#8 else f k

theorem flagAtS_ok {g : Option (Nat → Byte)} {pl : PlanS} (hpl : PlanOKS ty t L TH g pl) {f : Nat → Byte} {k : Nat}
    (h : k + 1 < nbk t L ∨ (k + 1 = nbk t L ∧ tot t % L > 0) ∨ g = some f) :
    flagAt g pl.flags k = ok (fvS ty t L TH f k) := by
  unfold flagAt fvS
  rw [hpl.len]
  by_cases h1 : k + 1 < nbk t L
  · rw [if_pos (by omega), if_pos h1]
    exact uget_ok (by rw [hpl.len]; omega) (hpl.val k h1)
  · rw [if_neg h1]
    by_cases h2 : k + 1 = nbk t L ∧ tot t % L > 0
    · rw [if_pos (by omega), if_pos h2]
      refine uget_ok (by rw [hpl.len]; omega) ?_
      rw [← hpl.last h2.2, show nbk t L - 1 = k by omega]
    · rw [if_neg h2]
      have hg := (h.resolve_left h1).resolve_left h2
      by_cases h3 : k < nbk t L
      · rw [if_pos h3]
        have hz : tot t % L = 0 := by
          by_cases hz : tot t % L > 0
          · exact absurd ⟨by omega, hz⟩ h2
          · omega
        refine uget_ok (by rw [hpl.len]; omega) ?_
        have := hpl.rest hz
        rw [show nbk t L - 1 = k by omega, hg] at this
        exact this
      · rw [if_neg h3, hg]

/-- A difference of offsets with the kind of the block. -/
def ovS (ty : MpeType) (t : Vec Byte) (L TH : Nat) (f : Nat → Byte) (i j : Nat) : Nat :=
  add64 (sub64 (oS ty t L TH (i + j + 1)) (oS ty t L TH i)) (markOf ty (fvS ty t L TH f (i + j + 1)))

structure BucketS (ty : MpeType) (t : Vec Byte) (L TH : Nat) (f : Nat → Byte) (i : Nat) (b : Vec Nat) : Prop where
  len : b.len = 21
  sel : ∀ j, j < 16 → b.f j = hv t L (i + j)
  off : b.f 16 = oS ty t L TH i
  o1 : b.f 17 = add64 (acc (fun s => ovS ty t L TH f i s) 4) (markFirst ty (fvS ty t L TH f i))
  offs : ∀ c, 0 < c → c < 4 → b.f (17 + c) = acc (fun s => ovS ty t L TH f i (4 * c + s)) (min 4 (15 - 4 * c))

theorem bucketS_split (ty : MpeType) (g : Option (Nat → Byte)) (tmp : Vec (Option Nat)) (fl : Vec (Option Byte))
    (i : Nat) : bucketS ty g tmp fl i = (do
      let b ← (do
        let b : Vec Nat := ⟨21, fun _ => 0⟩
        let b ← forN 16 (fun j b => do
          let x ← uget tmp (2 * (i + j))
          b.set j x) b
        let o ← uget tmp (2 * i + 1)
        b.set 16 o)
      let b ← forN 15 (fun j b => do
        let o ← uget tmp (2 * (i + j + 1) + 1)
        let b0 ← b.get 16
        let fl ← flagAt g fl (i + j + 1)
        let x ← b.get (17 + j / 4)
        b.set (17 + j / 4) (add64 x (shl64 (add64 (sub64 o b0) (markOf ty fl)) (16 * (j % 4))))) b
      let fl ← flagAt g fl i
      let x ← b.get 17
      b.set 17 (add64 x (markFirst ty fl))) := by
  unfold bucketS
  simp only [bind_assoc']

theorem bucketS_mid {N : Nat} {out0 fl : Vec (Option Byte)} {s : EncS} (hs : EncDone ty t L TH N out0 fl s) {i : Nat}
    (hi : i + 16 ≤ 16 * N) :
    ∃ b, (do
        let b : Vec Nat := ⟨21, fun _ => 0⟩
        let b ← forN 16 (fun j b => do
          let x ← uget s.sel (2 * (i + j))
          b.set j x) b
        let o ← uget s.sel (2 * i + 1)
        b.set 16 o : Outcome (Vec Nat)) = ok b ∧ b.len = 21 ∧ (∀ j, j < 16 → b.f j = hv t L (i + j)) ∧
      b.f 16 = oS ty t L TH i ∧ ∀ j, 17 ≤ j → b.f j = 0 := by
  have hl := hs.slen
  simp only []
  obtain ⟨b, e, h1, h2, h3⟩ := forN_inv
    (body := fun j (b : Vec Nat) => do
      let x ← uget s.sel (2 * (i + j))
      b.set j x)
    (fun n b => b.len = 21 ∧ (∀ j, j < n → b.f j = hv t L (i + j)) ∧ ∀ j, n ≤ j → b.f j = 0) 16
    ⟨21, fun _ => 0⟩ ⟨rfl, by intro j hj; omega, fun _ _ => rfl⟩
    (by
      intro j b hj ⟨h1, h2, h3⟩
      rw [uget_ok (by omega) (hs.ev (i + j) (by omega)), ok_bind, Vec.set_ok _ (by omega)]
      refine ⟨_, rfl, h1, ?_, ?_⟩
      · intro j' hj'
        show (if j' = j then _ else _) = _
        by_cases hjj : j' = j
        · rw [if_pos hjj, hjj]
        · rw [if_neg hjj, h2 j' (by omega)]
      · intro j' hj'
        show (if j' = j then _ else _) = _
        rw [if_neg (by omega), h3 j' (by omega)])
  rw [e, ok_bind, uget_ok (by omega) (hs.od i (by omega)), ok_bind, Vec.set_ok _ (by omega)]
  refine ⟨_, rfl, h1, ?_, ?_, ?_⟩
  · intro j hj
    show (if j = 16 then _ else _) = _
    rw [if_neg (by omega), h2 j hj]
  · show (if 16 = 16 then oS ty t L TH i else b.f 16) = oS ty t L TH i
    rw [if_pos rfl]
  · intro j hj
    show (if j = 16 then _ else _) = _
    rw [if_neg (by omega), h3 j (by omega)]

theorem bucketS_ok {N : Nat} {out0 : Vec (Option Byte)} {s : EncS} {g : Option (Nat → Byte)} {pl : PlanS}
    (hs : EncDone ty t L TH N out0 pl.flags s) (hpl : PlanOKS ty t L TH g pl) {f : Nat → Byte} {i : Nat}
    (hi : i + 16 ≤ 16 * N) (hb : i + 16 < nbk t L ∨ (i + 16 = nbk t L ∧ tot t % L > 0) ∨ g = some f) :
    ∃ b, bucketS ty g s.sel pl.flags i = ok b ∧ BucketS ty t L TH f i b := by
  obtain ⟨b0, e0, l0, s0, o0, f0⟩ := bucketS_mid hs hi
  have hl := hs.slen
  have hb' : ∀ k, k ≤ i + 15 → k + 1 < nbk t L ∨ (k + 1 = nbk t L ∧ tot t % L > 0) ∨ g = some f := by
    intro k hk
    rcases hb with h | h | h
    · left; omega
    · by_cases hk' : k + 1 = nbk t L
      · exact Or.inr (Or.inl ⟨hk', h.2⟩)
      · left; omega
    · exact Or.inr (Or.inr h)
  rw [bucketS_split, e0, ok_bind]
  obtain ⟨b, e1, h1, h2, h3⟩ := forN_inv (body := fun j (b : Vec Nat) => do
        let o ← uget s.sel (2 * (i + j + 1) + 1)
        let b0 ← b.get 16
        let fl ← flagAt g pl.flags (i + j + 1)
        let x ← b.get (17 + j / 4)
        b.set (17 + j / 4) (add64 x (shl64 (add64 (sub64 o b0) (markOf ty fl)) (16 * (j % 4)))))
    (fun j b => b.len = 21 ∧ (∀ x, x < 17 → b.f x = b0.f x) ∧
      ∀ c, c < 4 → b.f (17 + c) = acc (fun s => ovS ty t L TH f i (4 * c + s)) (min 4 (j - 4 * c)))
    15 b0 ⟨l0, fun _ _ => rfl, fun c hc => by
      rw [f0 _ (by omega), show min 4 (0 - 4 * c) = 0 by omega]; rfl⟩
    (by
      intro j b hj ⟨a1, a2, a3⟩
      rw [uget_ok (by omega) (hs.od (i + j + 1) (by omega)), ok_bind, Vec.get_ok (by omega), ok_bind,
        flagAtS_ok hpl (f := f) (hb' _ (by omega)), ok_bind, Vec.get_ok (by omega), ok_bind,
        Vec.set_ok _ (by omega)]
      refine ⟨_, rfl, a1, ?_, ?_⟩
      · intro x hx
        show (if x = 17 + j / 4 then _ else _) = _
        rw [if_neg (by omega), a2 x hx]
      · intro c hc
        show (if 17 + c = 17 + j / 4 then _ else _) = _
        by_cases hcj : c = j / 4
        · subst hcj
          rw [if_pos rfl, a3 _ hc, a2 16 (by omega), o0]
          rw [show min 4 (j - 4 * (j / 4)) = j % 4 by omega,
            show min 4 (j + 1 - 4 * (j / 4)) = j % 4 + 1 by omega]
          show add64 _ (shl64 (ovS ty t L TH f i j) (16 * (j % 4))) =
            add64 _ (shl64 (ovS ty t L TH f i (4 * (j / 4) + j % 4)) (16 * (j % 4)))
          rw [show 4 * (j / 4) + j % 4 = j by omega]
        · rw [if_neg (by omega), a3 c hc, show min 4 (j + 1 - 4 * c) = min 4 (j - 4 * c) by omega])
  rw [e1, ok_bind, flagAtS_ok hpl (f := f) (hb' _ (by omega)), ok_bind, Vec.get_ok (by omega), ok_bind,
    Vec.set_ok _ (by omega)]
  refine ⟨_, rfl, h1, ?_, ?_, ?_, ?_⟩
  · intro j hj
    show (if j = 17 then _ else _) = _
    rw [if_neg (by omega), h2 j (by omega), s0 j hj]
  · show b.f 16 = _
    rw [h2 16 (by omega), o0]
  · show add64 (b.f (17 + 0)) _ = _
    rw [h3 0 (by omega)]
    simp only [Nat.mul_zero, Nat.zero_add]
    rfl
  · intro c hc0 hc
    show (if 17 + c = 17 then _ else _) = _
    rw [if_neg (by omega), h3 c hc]

/-- With nothing known about the memory of `blockToCompress`, the last superblock reads past its end. -/
theorem bucketS_ub {N : Nat} {out0 : Vec (Option Byte)} {s : EncS} {pl : PlanS}
    (hs : EncDone ty t L TH N out0 pl.flags s) (hpl : PlanOKS ty t L TH none pl) (hr : tot t % L > 0) {i : Nat}
    (hi : i + 16 ≤ 16 * N) (hn : nbk t L ≤ i + 15) (hin : i ≤ nbk t L) :
    bucketS ty none s.sel pl.flags i = ub .oob := by
  obtain ⟨b0, e0, l0, -⟩ := bucketS_mid hs hi
  have hl := hs.slen
  rw [bucketS_split, e0, ok_bind]
  have bad : ∀ k, nbk t L ≤ k → flagAt none pl.flags k = ub .oob := by
    intro k hk
    unfold flagAt
    rw [hpl.len, if_neg (by omega)]
  have step : ∀ n a (b : Vec Nat), b.len = 21 → a + n = 15 → (nbk t L = i ∨ i + a + 1 ≤ nbk t L) → 0 < n →
      forFrom a n (fun j (b : Vec Nat) => do
        let o ← uget s.sel (2 * (i + j + 1) + 1)
        let b0 ← b.get 16
        let fl ← flagAt none pl.flags (i + j + 1)
        let x ← b.get (17 + j / 4)
        b.set (17 + j / 4) (add64 x (shl64 (add64 (sub64 o b0) (markOf ty fl)) (16 * (j % 4))))) b =
      ub .oob := by
    intro n
    induction n with
    | zero => intro a b _ _ _ h; omega
    | succ n ih =>
      intro a b hb ha hc _
      unfold forFrom
      simp only []
      rw [uget_ok (by omega) (hs.od (i + a + 1) (by omega)), ok_bind, Vec.get_ok (by omega), ok_bind]
      by_cases hlt : i + a + 1 < nbk t L
      · rw [flagAtS_ok hpl (f := fun _ => 0#8) (by omega), ok_bind, Vec.get_ok (by omega), ok_bind,
          Vec.set_ok _ (by omega), ok_bind]
        exact ih _ _ hb (by omega) (by omega) (by omega)
      · rw [bad _ (by omega)]
        rfl
  have key := step 15 0 b0 l0 (by omega) (by omega) (by omega)
  show ((forN 15 _ b0 >>= _ : Outcome (Vec Nat))) = _
  unfold forN
  rw [key]
  rfl

theorem copy21 {b : Vec Nat} (hb : b.len = 21) {r : Vec (Option Nat)} {k : Nat} (hr : 21 * k + 21 ≤ r.len) :
    ∃ r', forN 21 (fun j (r : Vec (Option Nat)) => do
        let x ← b.get j
        r.set (21 * k + j) (some x)) r = ok r' ∧ r'.len = r.len ∧
      (∀ j', j' < 21 → r'.f (21 * k + j') = some (b.f j')) ∧
      ∀ y, y < 21 * k ∨ 21 * k + 21 ≤ y → r'.f y = r.f y := by
  obtain ⟨r', er, c1, c2, c3⟩ := forN_inv (body := fun j (r : Vec (Option Nat)) => do
      let x ← b.get j
      r.set (21 * k + j) (some x))
    (fun j r' => r'.len = r.len ∧ (∀ j', j' < j → r'.f (21 * k + j') = some (b.f j')) ∧
      ∀ y, y < 21 * k ∨ 21 * k + j ≤ y → r'.f y = r.f y) 21 r
    ⟨rfl, by intro j hj; omega, fun _ _ => rfl⟩
    (by
      intro j r' hj ⟨d1, d2, d3⟩
      rw [Vec.get_ok (by omega), ok_bind, Vec.set_ok _ (by omega)]
      refine ⟨_, rfl, d1, ?_, ?_⟩
      · intro j' hj'
        show (if 21 * k + j' = 21 * k + j then _ else _) = _
        by_cases hjj : j' = j
        · rw [if_pos (by omega), hjj]
        · rw [if_neg (by omega), d2 j' (by omega)]
      · intro y hy
        show (if y = 21 * k + j then _ else _) = _
        rw [if_neg (by omega), d3 y (by omega)])
  exact ⟨r', er, c1, c2, c3⟩

/-! ## `build` -/

/-- The object that `build` makes. -/
structure BuiltMpeS (ty : MpeType) (t : Vec Byte) (L TH : Nat) (f : Nat → Byte) (gb : Option (Nat → Byte)) (x : Select) :
    Prop where
  selLen : x.selLen = 21 * (nbk t L / 16 + 1)
  slen : x.selLen ≤ x.sel.len
  sup : ∀ k, k < nbk t L / 16 + 1 → ∃ b, BucketS ty t L TH f (16 * k) b ∧ ∀ j, j < 21 → x.sel.f (21 * k + j) = some (b.f j)
  bl : x.bitsLen + 2 * psum (drops ty t L TH) (nbk t L) =
    psum (sz1 t L TH) (tot t / L) + szLast t L TH + psum (tabs ty t L TH) (nbk t L)
  bits : offS ty t L TH (nbk t L) ≤ x.bits.len
  blen : x.bitsLen ≤ x.bits.len
  more : gb ≠ none → x.bitsLen < x.bits.len
  data : ∀ k, k < nbk t L → DataS ty t L TH k x.bits
  known : ∀ h, gb = some h → ∀ y, x.bits.f y ≠ none
  text : x.textLen = t.len

theorem sparse_of_odd (ho : Odd t L TH) : sparse t L TH 0 = true := by
  unfold sparse
  rw [ho.2]
  exact decide_eq_true (by omega)

theorem odd_one (hL : 1 ≤ L) (ho : Odd t L TH) : nbk t L ≤ 1 := by
  have := ho.1
  unfold nbk
  split <;> omega

theorem tbs_pos (m : Nat) : 1 ≤ tbs t L m := by unfold tbs; omega

theorem wdS_pos {m : Nat} (h : ks ty t L TH m ≠ 0) : 1 ≤ wdS ty t L TH m := by
  rw [wdS_comp h]
  have := (hdS_ge (b := tbs t L m) h).1
  have := tbs_pos (t := t) (L := L) m
  omega

theorem drops_none : ∀ {n : Nat}, offS ty t L TH n = 0 → psum (drops ty t L TH) n = 0 := by
  intro n
  induction n with
  | zero => intro _; rfl
  | succ n ih =>
    intro h
    rw [offS_succ] at h
    rw [psum_succ, ih (by omega)]
    by_cases hk : ks ty t L TH n = 0
    · rw [drops_zero hk]
    · have := wdS_pos hk
      omega

theorem psum_one_last (hn : nbk t L = 1) : psum (drops ty t L TH) (nbk t L) = 0 ∧ psum (tabs ty t L TH) (nbk t L) = 0 := by
  have k0 : ks ty t L TH 0 = 0 := ks_last (by omega)
  rw [hn]
  exact ⟨by rw [psum_succ, drops_zero k0]; rfl, by rw [psum_succ, tabs_zero k0]; rfl⟩

/-- The bytes counted by the first loop. -/
theorem bits1_le (hL : 1 ≤ L) : psum (sz1 t L TH) (tot t / L) + szLast t L TH ≤ 72 * t.len := by
  have hfull : ∀ K, K ≤ tot t / L → psum (sz1 t L TH) K ≤ 8 * (K * L) + en t L K := by
    intro K
    induction K with
    | zero => intro _; exact Nat.zero_le _
    | succ K ih =>
      intro hK
      have h1 := ih (by omega)
      have h2 := en_succ (t := t) (L := L) (m := K) hL (by have := nbk_ge t L; omega)
      have hp := bl_pos (t := t) (L := L) (m := K) hL (by have := nbk_ge t L; omega)
      have h3 : sz1 t L TH K ≤ 8 * L + bl t L K := by
        unfold sz1
        rw [ceil8, ceil8]
        (repeat' split) <;> omega
      rw [psum_succ, ← h2, Nat.add_mul]
      omega
  have h1 := hfull _ (Nat.le_refl _)
  have h2 := en_le (t := t) (L := L) (m := nbk t L) hL (Nat.le_refl _)
  have ht := tot_le t
  have hd := Nat.div_add_mod (tot t) L
  rw [Nat.mul_comm] at hd
  have h3 : szLast t L TH + en t L (tot t / L) ≤ 8 * (tot t % L) + en t L (nbk t L) := by
    unfold szLast
    by_cases hr : tot t % L > 0
    · have hn : nbk t L = tot t / L + 1 := by unfold nbk; rw [if_pos hr]
      have h4 := en_succ (t := t) (L := L) (m := tot t / L) hL (by omega)
      have hp := bl_pos (t := t) (L := L) (m := tot t / L) hL (by omega)
      rw [if_pos hr, hn, ← h4]
      simp only []
      rw [ceil8]
      generalize hlen : (if tot t / L = 0 then bl t L 0 - 1 else bl t L (tot t / L)) = len
      have hle : len ≤ bl t L (tot t / L) := by
        rw [← hlen]
        split
        · rename_i h0; rw [h0]; omega
        · exact Nat.le_refl _
      split <;> omega
    · have hn : nbk t L = tot t / L := by unfold nbk; rw [if_neg hr, Nat.add_zero]
      rw [if_neg hr, hn]
      omega
  omega

theorem tabs_le (hL : 1 ≤ L) : ∀ n, n ≤ nbk t L → psum (tabs ty t L TH) n ≤ 2 * en t L n := by
  intro n
  induction n with
  | zero => intro _; exact Nat.zero_le _
  | succ n ih =>
    intro hn
    have h1 := ih (by omega)
    have h2 := en_succ (t := t) (L := L) (m := n) hL hn
    have hp := bl_pos (t := t) (L := L) (m := n) hL hn
    have h3 : tabs ty t L TH n ≤ 2 * bl t L n := by
      unfold tabs hdS tbs
      (repeat' split) <;> omega
    rw [psum_succ, ← h2]
    omega

/-- The number of bytes that `build` computes. -/
theorem bitsLenS (ty : MpeType) (hL : 1 ≤ L) (hlen : t.len < 2 ^ 57) (h1 : 1 ≤ tot t) :
    ∃ n, sub64 (psum (sz1 t L TH) (tot t / L) + szLast t L TH + psum (tabs ty t L TH) (nbk t L))
        (2 * psum (drops ty t L TH) (nbk t L)) = n ∧
      n + 2 * psum (drops ty t L TH) (nbk t L) =
        psum (sz1 t L TH) (tot t / L) + szLast t L TH + psum (tabs ty t L TH) (nbk t L) := by
  have ha := bits1_le (t := t) (TH := TH) hL
  have hb := tabs_le (ty := ty) (t := t) (TH := TH) hL _ (Nat.le_refl _)
  have hc := en_le (t := t) (L := L) (m := nbk t L) hL (Nat.le_refl _)
  have hle : 2 * psum (drops ty t L TH) (nbk t L) ≤
      psum (sz1 t L TH) (tot t / L) + szLast t L TH + psum (tabs ty t L TH) (nbk t L) := by
    by_cases ho : Odd t L TH
    · have := psum_one_last (ty := ty) (TH := TH)
        (show nbk t L = 1 by have := odd_one hL ho; have := nbk_one hL h1; omega)
      omega
    · have h2 := room_enough hL ho
      have h3 := offS_eq (ty := ty) (t := t) (L := L) (TH := TH) (nbk t L)
      by_cases hz : offS ty t L TH (nbk t L) = 0
      · rw [drops_none hz]; omega
      · omega
  refine ⟨_, sub64_eq hle (by simp only [W64]; omega), by omega⟩

theorem supersS_ok {N V : Nat} {out0 : Vec (Option Byte)} {s : EncS} {g : Option (Nat → Byte)} {pl : PlanS}
    (hs : EncDone ty t L TH N out0 pl.flags s) (hpl : PlanOKS ty t L TH g pl) {f : Nat → Byte} (hg : g = some f)
    (hV : 21 * N ≤ V) :
    ∃ v, forN N (superS ty g s.sel pl.flags) (fresh V) = ok v ∧ v.len = V ∧
      ∀ k, k < N → ∃ b, BucketS ty t L TH f (16 * k) b ∧ ∀ j, j < 21 → v.f (21 * k + j) = some (b.f j) := by
  obtain ⟨v, e, h1, h2⟩ := forN_inv (body := superS ty g s.sel pl.flags)
    (fun n v => v.len = V ∧ ∀ k, k < n → ∃ b, BucketS ty t L TH f (16 * k) b ∧
      ∀ j, j < 21 → v.f (21 * k + j) = some (b.f j)) N (fresh V)
    ⟨rfl, by intro k hk; omega⟩
    (by
      intro k v hk ⟨a1, a2⟩
      obtain ⟨b, eb, hb⟩ := bucketS_ok hs hpl (f := f) (i := 16 * k) (by omega) (Or.inr (Or.inr hg))
      unfold superS
      rw [eb, ok_bind]
      obtain ⟨v', ev, c1, c2, c3⟩ := copy21 hb.len (r := v) (k := k) (by omega)
      refine ⟨v', ev, c1.trans a1, ?_⟩
      intro k' hk'
      by_cases hkk : k' = k
      · subst hkk
        exact ⟨b, hb, c2⟩
      · obtain ⟨b', hb1, hb2⟩ := a2 k' (by omega)
        refine ⟨b', hb1, fun j hj => ?_⟩
        rw [c3 _ (by omega), hb2 j hj])
  exact ⟨v, e, h1, h2⟩

theorem supersS_ub {V : Nat} {out0 : Vec (Option Byte)} {s : EncS} {pl : PlanS}
    (hs : EncDone ty t L TH (nbk t L / 16 + 1) out0 pl.flags s) (hpl : PlanOKS ty t L TH none pl) (hr : tot t % L > 0)
    (hV : 21 * (nbk t L / 16 + 1) ≤ V) :
    forN (nbk t L / 16 + 1) (superS ty none s.sel pl.flags) (fresh V) = ub .oob := by
  have step : ∀ n a (v : Vec (Option Nat)), v.len = V → a + n = nbk t L / 16 + 1 → 0 < n →
      forFrom a n (superS ty none s.sel pl.flags) v = ub .oob := by
    intro n
    induction n with
    | zero => intro a v _ _ h; omega
    | succ n ih =>
      intro a v hv ha _
      unfold forFrom
      by_cases hlt : a < nbk t L / 16
      · unfold superS
        obtain ⟨b, eb, hb⟩ := bucketS_ok hs hpl (f := fun _ => 0#8) (i := 16 * a) (by omega) (by omega)
        obtain ⟨v', ev, c1, -⟩ := copy21 hb.len (r := v) (k := a) (by omega)
        rw [eb, ok_bind, ev, ok_bind]
        exact ih _ _ (c1.trans hv) (by omega) (by omega)
      · unfold superS
        rw [bucketS_ub hs hpl hr (i := 16 * a) (by omega) (by omega) (by omega)]
        rfl
  exact step _ 0 _ rfl (by omega) (by omega)

/-- The array of bytes is too small: a single block, counted as dense by the first loop. -/
def Short (t : Vec Byte) (L TH aB : Nat) : Prop := Odd t L TH ∧ (TH + 7) / 8 + roomBytes aB < 8 * tot t

theorem buildSelMpe_cases (ty : MpeType) (hL : 1 ≤ L) (hlen : t.len < 2 ^ 57) (h1 : 1 ≤ tot t) (aS aB : Nat) (g : JunkS) :
    (∀ f, g.flags = some f → ¬ Short t L TH aB →
      ∃ x, buildSelMpe ty L TH aS aB g t = ok x ∧ BuiltMpeS ty t L TH f g.bits x) ∧
    (Short t L TH aB → buildSelMpe ty L TH aS aB g t = ub .oob) ∧
    (g.flags = none → buildSelMpe ty L TH aS aB g t = ub (if tot t % L = 0 then .uninit else .oob)) := by
  have hlen' : t.len < 2 ^ 60 := by omega
  have hn := nbk_one hL h1
  have hroom := roomBytes_pos aB
  obtain ⟨n, en1, en2⟩ := bitsLenS (TH := TH) ty hL hlen h1
  have hoff := offS_eq (ty := ty) (t := t) (L := L) (TH := TH) (nbk t L)
  obtain ⟨s, e, hs⟩ := sel1_ok (t := t) (L := L) (TH := TH) (SL := 32 * (nbk t L / 16 + 1)) hL hlen' (by omega)
  have hcn := hs.cnt
  obtain ⟨w, ew, w1, w2, w3⟩ := pad_ok (SL := 32 * (nbk t L / 16 + 1)) (c := s.cnt) hs.len (by omega)
  have hev : ∀ m, m ≤ nbk t L → w.f (2 * m) = some (en t L m - 1) ∧ w.f (2 * m + 1) = some 0 := by
    intro m hm
    rw [w2 _ (by omega), w2 _ (by omega)]
    exact hs.ev m hm
  have hz : ∀ y, 2 * nbk t L + 2 ≤ y → y < 32 * (nbk t L / 16 + 1) → w.f y = some 0 := fun y a b => w3 y (by omega) b
  obtain ⟨pl, epl, hpl⟩ := planS_ok (TH := TH) ty g.flags hL hlen' hn (v := w) ⟨by omega, fun k hk => (hev k hk).1⟩
  have hno : ¬ Odd t L TH → offS ty t L TH (nbk t L) ≤ n + roomBytes aB := by
    intro ho
    have := room_enough hL ho
    omega
  have hodd : Odd t L TH → offS ty t L TH (nbk t L) = 8 * tot t ∧ n = (TH + 7) / 8 := by
    intro ho
    have h2 := room_odd h1 ho
    have h3 := psum_one_last (ty := ty) (TH := TH) (show nbk t L = 1 by have := odd_one hL ho; omega)
    omega
  have henc := encodeS_ok (ty := ty) (TH := TH) (N := nbk t L / 16 + 1) (out0 := memory g.bits (n + roomBytes aB))
    (fl := pl.flags) hL hlen' hn (by omega) w1 hev hz ⟨hpl.len, hpl.val⟩
    (by
      intro h
      refine hno (fun ho => ?_)
      have h2 := sparse_of_odd ho
      have h3 := odd_one hL ho
      have h4 := ho.1
      rcases h with h | h | h
      · omega
      · rw [h2] at h; cases h
      · omega)
  have main : buildSelMpe ty L TH aS aB g t = (do
      let e ← encodeS L TH t (tot t) (2 * nbk t L + 2) (32 * (nbk t L / 16 + 1)) pl.flags
        (memory g.bits (n + roomBytes aB)) w
      let v ← forN (nbk t L / 16 + 1) (superS ty g.flags e.sel pl.flags) (fresh ((nbk t L / 16 + 1) * 21 + room aS))
      ok ⟨v, (nbk t L / 16 + 1) * 21, e.out, n, t.len⟩) := by
    unfold buildSelMpe
    rw [countOnes_ok, ok_bind]
    simp only []
    rw [entries_eq, selTmpLen_eq, e, ok_bind, ew, ok_bind, hcn, sub64_eq (by omega) (nbk_small hL hlen'),
      Nat.add_sub_cancel, show (2 * nbk t L + 2) / 2 - 1 = nbk t L by omega, epl, ok_bind,
      show 32 * (nbk t L / 16 + 1) / 2 / 16 = nbk t L / 16 + 1 by omega, hs.bits, hpl.added, hpl.pairs, en1]
  rw [main]
  have hok : ∀ e, EncDone ty t L TH (nbk t L / 16 + 1) (memory g.bits (n + roomBytes aB)) pl.flags e →
      ∀ f, g.flags = some f → ∃ x, (do
        let v ← forN (nbk t L / 16 + 1) (superS ty g.flags e.sel pl.flags) (fresh ((nbk t L / 16 + 1) * 21 + room aS))
        ok (⟨v, (nbk t L / 16 + 1) * 21, e.out, n, t.len⟩ : Select)) = ok x ∧ BuiltMpeS ty t L TH f g.bits x := by
    intro e he f hf
    obtain ⟨v, ev, v1, v2⟩ := supersS_ok (V := (nbk t L / 16 + 1) * 21 + room aS) he hpl hf (by omega)
    rw [ev, ok_bind]
    have hbl : e.out.len = n + roomBytes aB := he.blen
    refine ⟨_, rfl, Nat.mul_comm _ _, ?_, v2, en2, ?_, ?_, ?_, he.data, ?_, rfl⟩
    · show (nbk t L / 16 + 1) * 21 ≤ v.len
      omega
    · show _ ≤ e.out.len
      rw [hbl]; exact he.room
    · show n ≤ e.out.len
      omega
    · intro _
      show n < e.out.len
      omega
    · intro h hh y
      refine he.keeps y ?_
      show (g.bits.map fun f => f y) ≠ none
      rw [hh]
      exact Option.some_ne_none _
  refine ⟨fun f hf hsh => ?_, fun hsh => ?_, fun hnone => ?_⟩
  · rcases henc with ⟨e, ee, he⟩ | ⟨ft, ee, he⟩
    · rw [ee, ok_bind]
      exact hok e he f hf
    · exfalso
      rcases he with ⟨-, hl⟩ | ⟨-, hl⟩
      · have hl : n + roomBytes aB < offS ty t L TH (nbk t L) := hl
        by_cases ho : Odd t L TH
        · have := hodd ho
          exact hsh ⟨ho, by omega⟩
        · have := hno ho
          omega
      · by_cases hr : tot t % L > 0
        · rw [hpl.last hr] at hl; cases hl
        · rw [hpl.rest (by omega), hf] at hl; cases hl
  · have h2 := hodd hsh.1
    have h3 := hsh.2
    rcases henc with ⟨e, ee, he⟩ | ⟨ft, ee, he⟩
    · have hl : offS ty t L TH (nbk t L) ≤ n + roomBytes aB := he.room
      omega
    · rw [ee]
      rcases he with ⟨h4, -⟩ | ⟨-, hl⟩
      · rw [h4]; rfl
      · have h5 := Nat.div_add_mod (tot t) L
        rw [hsh.1.1, Nat.mul_zero, Nat.zero_add] at h5
        rw [hpl.last (by omega)] at hl; cases hl
  · by_cases hr : tot t % L = 0
    · rw [if_pos hr]
      have hl : pl.flags.f (nbk t L - 1) = none := by rw [hpl.rest hr, hnone]; rfl
      rcases henc with ⟨e, ee, he⟩ | ⟨ft, ee, he⟩
      · exact absurd hl he.flag
      · rw [ee]
        rcases he with ⟨-, h4⟩ | ⟨h4, -⟩
        · have h4 : n + roomBytes aB < offS ty t L TH (nbk t L) := h4
          have := hno (fun ho => by
            have h5 := Nat.div_add_mod (tot t) L
            rw [ho.1, Nat.mul_zero, Nat.zero_add] at h5
            omega)
          omega
        · rw [h4]; rfl
    · rw [if_neg hr]
      rcases henc with ⟨e, ee, he⟩ | ⟨ft, ee, he⟩
      · rw [ee, ok_bind, hnone]
        rw [hnone] at hpl
        rw [supersS_ub he hpl (by omega) (by omega)]
        rfl
      · rw [ee]
        rcases he with ⟨h4, -⟩ | ⟨-, hl⟩
        · rw [h4]; rfl
        · rw [hpl.last (by omega)] at hl; cases hl

end MRS.Mran
