import Verif.Proofs.Mranisz.S32mLoop
import Verif.Proofs.Mranisz.SelMpeSuper

/-! # Compressed select with pairs left out, 32 bits: superblocks and `build` -/

set_option autoImplicit false

namespace MRS.Mran.S32
open Outcome Spec Poppy

variable {ty : MpeType} {t : Vec Byte} {L TH : Nat}

/-- A difference of offsets with the kind of the block. -/
def ovS (ty : MpeType) (t : Vec Byte) (L TH : Nat) (f : Nat → Byte) (i j : Nat) : Nat :=
  add32 (sub32 (oS ty t L TH (i + j + 1)) (oS ty t L TH i)) (markOf ty (fvS ty t L TH f (i + j + 1)))

structure BucketS (ty : MpeType) (t : Vec Byte) (L TH : Nat) (f : Nat → Byte) (i : Nat) (b : Vec Nat) : Prop where
  len : b.len = 25
  sel : ∀ j, j < 16 → b.f j = hv t L (i + j)
  off : b.f 16 = oS ty t L TH i
  o1 : b.f 17 = add32 (acc32 (fun s => ovS ty t L TH f i s) 2) (markFirst32 ty (fvS ty t L TH f i))
  offs : ∀ c, 0 < c → c < 8 → b.f (17 + c) = acc32 (fun s => ovS ty t L TH f i (2 * c + s)) (min 2 (15 - 2 * c))

theorem bucketS_split (ty : MpeType) (g : Option (Nat → Byte)) (tmp : Vec (Option Nat)) (fl : Vec (Option Byte))
    (i : Nat) : bucketS ty g tmp fl i = (do
      let b ← (do
        let b : Vec Nat := ⟨25, fun _ => 0⟩
        let b ← forN 16 (fun j b => do
          let x ← uget tmp (2 * (i + j))
          b.set j x) b
        let o ← uget tmp (2 * i + 1)
        b.set 16 o)
      let b ← forN 15 (fun j b => do
        let o ← uget tmp (2 * (i + j + 1) + 1)
        let b0 ← b.get 16
        let fl ← flagAt g fl (i + j + 1)
        let x ← b.get (17 + j / 2)
        b.set (17 + j / 2) (add32 x (shl32 (add32 (sub32 o b0) (markOf ty fl)) (16 * (j % 2))))) b
      let fl ← flagAt g fl i
      let x ← b.get 17
      b.set 17 (add32 x (markFirst32 ty fl))) := by
  unfold bucketS
  simp only [bind_assoc']

theorem bucketS_mid {N : Nat} {out0 fl : Vec (Option Byte)} {s : EncS} (hs : EncDone ty t L TH N out0 fl s) {i : Nat}
    (hi : i + 16 ≤ 16 * N) :
    ∃ b, (do
        let b : Vec Nat := ⟨25, fun _ => 0⟩
        let b ← forN 16 (fun j b => do
          let x ← uget s.sel (2 * (i + j))
          b.set j x) b
        let o ← uget s.sel (2 * i + 1)
        b.set 16 o : Outcome (Vec Nat)) = ok b ∧ b.len = 25 ∧ (∀ j, j < 16 → b.f j = hv t L (i + j)) ∧
      b.f 16 = oS ty t L TH i ∧ ∀ j, 17 ≤ j → b.f j = 0 := by
  have hl := hs.slen
  simp only []
  obtain ⟨b, e, h1, h2, h3⟩ := forN_inv
    (body := fun j (b : Vec Nat) => do
      let x ← uget s.sel (2 * (i + j))
      b.set j x)
    (fun n b => b.len = 25 ∧ (∀ j, j < n → b.f j = hv t L (i + j)) ∧ ∀ j, n ≤ j → b.f j = 0) 16
    ⟨25, fun _ => 0⟩ ⟨rfl, by intro j hj; omega, fun _ _ => rfl⟩
    (by
      intro j b hj ⟨h1, h2, h3⟩
      rw [uget_ok (by omega) (hs.ev (i + j) (by omega)), ok_bind, Vec.set_ok _ (by omega)]
      refine ⟨_, rfl, h1, ?_, ?_⟩
      · intro j' hj'
        show (if j' = j then _ else _) = _
        by_cases hjj : j' = j
        · rw [if_pos hjj, hjj]
        · rw [if_neg hjj, h2 j' (by omega)]
      · intro j' hj'
        show (if j' = j then _ else _) = _
        rw [if_neg (by omega), h3 j' (by omega)])
  rw [e, ok_bind, uget_ok (by omega) (hs.od i (by omega)), ok_bind, Vec.set_ok _ (by omega)]
  refine ⟨_, rfl, h1, ?_, ?_, ?_⟩
  · intro j hj
    show (if j = 16 then _ else _) = _
    rw [if_neg (by omega), h2 j hj]
  · show (if 16 = 16 then oS ty t L TH i else b.f 16) = oS ty t L TH i
    rw [if_pos rfl]
  · intro j hj
    show (if j = 16 then _ else _) = _
    rw [if_neg (by omega), h3 j (by omega)]

theorem bucketS_ok {N : Nat} {out0 : Vec (Option Byte)} {s : EncS} {g : Option (Nat → Byte)} {pl : PlanS}
    (hs : EncDone ty t L TH N out0 pl.flags s) (hpl : PlanOKS ty t L TH g pl) {f : Nat → Byte} {i : Nat}
    (hi : i + 16 ≤ 16 * N) (hb : i + 16 < nbk t L ∨ (i + 16 = nbk t L ∧ tot t % L > 0) ∨ g = some f) :
    ∃ b, bucketS ty g s.sel pl.flags i = ok b ∧ BucketS ty t L TH f i b := by
  obtain ⟨b0, e0, l0, s0, o0, f0⟩ := bucketS_mid hs hi
  have hl := hs.slen
  have hb' : ∀ k, k ≤ i + 15 → k + 1 < nbk t L ∨ (k + 1 = nbk t L ∧ tot t % L > 0) ∨ g = some f := by
    intro k hk
    rcases hb with h | h | h
    · left; omega
    · by_cases hk' : k + 1 = nbk t L
      · exact Or.inr (Or.inl ⟨hk', h.2⟩)
      · left; omega
    · exact Or.inr (Or.inr h)
  rw [bucketS_split, e0, ok_bind]
  obtain ⟨b, e1, h1, h2, h3⟩ := forN_inv (body := fun j (b : Vec Nat) => do
        let o ← uget s.sel (2 * (i + j + 1) + 1)
        let b0 ← b.get 16
        let fl ← flagAt g pl.flags (i + j + 1)
        let x ← b.get (17 + j / 2)
        b.set (17 + j / 2) (add32 x (shl32 (add32 (sub32 o b0) (markOf ty fl)) (16 * (j % 2)))))
    (fun j b => b.len = 25 ∧ (∀ x, x < 17 → b.f x = b0.f x) ∧
      ∀ c, c < 8 → b.f (17 + c) = acc32 (fun s => ovS ty t L TH f i (2 * c + s)) (min 2 (j - 2 * c)))
    15 b0 ⟨l0, fun _ _ => rfl, fun c hc => by
      rw [f0 _ (by omega), show min 2 (0 - 2 * c) = 0 by omega]; rfl⟩
    (by
      intro j b hj ⟨a1, a2, a3⟩
      rw [uget_ok (by omega) (hs.od (i + j + 1) (by omega)), ok_bind, Vec.get_ok (by omega), ok_bind,
        flagAtS_ok hpl (f := f) (hb' _ (by omega)), ok_bind, Vec.get_ok (by omega), ok_bind,
        Vec.set_ok _ (by omega)]
      refine ⟨_, rfl, a1, ?_, ?_⟩
      · intro x hx
        show (if x = 17 + j / 2 then _ else _) = _
        rw [if_neg (by omega), a2 x hx]
      · intro c hc
        show (if 17 + c = 17 + j / 2 then _ else _) = _
        by_cases hcj : c = j / 2
        · subst hcj
          rw [if_pos rfl, a3 _ hc, a2 16 (by omega), o0]
          rw [show min 2 (j - 2 * (j / 2)) = j % 2 by omega,
            show min 2 (j + 1 - 2 * (j / 2)) = j % 2 + 1 by omega]
          show add32 _ (shl32 (ovS ty t L TH f i j) (16 * (j % 2))) =
            add32 _ (shl32 (ovS ty t L TH f i (2 * (j / 2) + j % 2)) (16 * (j % 2)))
          rw [show 2 * (j / 2) + j % 2 = j by omega]
        · rw [if_neg (by omega), a3 c hc, show min 2 (j + 1 - 2 * c) = min 2 (j - 2 * c) by omega])
  rw [e1, ok_bind, flagAtS_ok hpl (f := f) (hb' _ (by omega)), ok_bind, Vec.get_ok (by omega), ok_bind,
    Vec.set_ok _ (by omega)]
  refine ⟨_, rfl, h1, ?_, ?_, ?_, ?_⟩
  · intro j hj
    show (if j = 17 then _ else _) = _
    rw [if_neg (by omega), h2 j (by omega), s0 j hj]
  · show b.f 16 = _
    rw [h2 16 (by omega), o0]
  · show add32 (b.f (17 + 0)) _ = _
    rw [h3 0 (by omega)]
    simp only [Nat.mul_zero, Nat.zero_add]
    rfl
  · intro c hc0 hc
    show (if 17 + c = 17 then _ else _) = _
    rw [if_neg (by omega), h3 c hc]

/-- With nothing known about the memory of `blockToCompress`, the last superblock reads past its end. -/
theorem bucketS_ub {N : Nat} {out0 : Vec (Option Byte)} {s : EncS} {pl : PlanS}
    (hs : EncDone ty t L TH N out0 pl.flags s) (hpl : PlanOKS ty t L TH none pl) (hr : tot t % L > 0) {i : Nat}
    (hi : i + 16 ≤ 16 * N) (hn : nbk t L ≤ i + 15) (hin : i ≤ nbk t L) :
    bucketS ty none s.sel pl.flags i = ub .oob := by
  obtain ⟨b0, e0, l0, -⟩ := bucketS_mid hs hi
  have hl := hs.slen
  rw [bucketS_split, e0, ok_bind]
  have bad : ∀ k, nbk t L ≤ k → flagAt none pl.flags k = ub .oob := by
    intro k hk
    unfold flagAt
    rw [hpl.len, if_neg (by omega)]
  have step : ∀ n a (b : Vec Nat), b.len = 25 → a + n = 15 → (nbk t L = i ∨ i + a + 1 ≤ nbk t L) → 0 < n →
      forFrom a n (fun j (b : Vec Nat) => do
        let o ← uget s.sel (2 * (i + j + 1) + 1)
        let b0 ← b.get 16
        let fl ← flagAt none pl.flags (i + j + 1)
        let x ← b.get (17 + j / 2)
        b.set (17 + j / 2) (add32 x (shl32 (add32 (sub32 o b0) (markOf ty fl)) (16 * (j % 2))))) b =
      ub .oob := by
    intro n
    induction n with
    | zero => intro a b _ _ _ h; omega
    | succ n ih =>
      intro a b hb ha hc _
      unfold forFrom
      simp only []
      rw [uget_ok (by omega) (hs.od (i + a + 1) (by omega)), ok_bind, Vec.get_ok (by omega), ok_bind]
      by_cases hlt : i + a + 1 < nbk t L
      · rw [flagAtS_ok hpl (f := fun _ => 0#8) (by omega), ok_bind, Vec.get_ok (by omega), ok_bind,
          Vec.set_ok _ (by omega), ok_bind]
        exact ih _ _ hb (by omega) (by omega) (by omega)
      · rw [bad _ (by omega)]
        rfl
  have key := step 15 0 b0 l0 (by omega) (by omega) (by omega)
  show ((forN 15 _ b0 >>= _ : Outcome (Vec Nat))) = _
  unfold forN
  rw [key]
  rfl

theorem copy25 {b : Vec Nat} (hb : b.len = 25) {r : Vec (Option Nat)} {k : Nat} (hr : 25 * k + 25 ≤ r.len) :
    ∃ r', forN 25 (fun j (r : Vec (Option Nat)) => do
        let x ← b.get j
        r.set (25 * k + j) (some x)) r = ok r' ∧ r'.len = r.len ∧
      (∀ j', j' < 25 → r'.f (25 * k + j') = some (b.f j')) ∧
      ∀ y, y < 25 * k ∨ 25 * k + 25 ≤ y → r'.f y = r.f y := by
  obtain ⟨r', er, c1, c2, c3⟩ := forN_inv (body := fun j (r : Vec (Option Nat)) => do
      let x ← b.get j
      r.set (25 * k + j) (some x))
    (fun j r' => r'.len = r.len ∧ (∀ j', j' < j → r'.f (25 * k + j') = some (b.f j')) ∧
      ∀ y, y < 25 * k ∨ 25 * k + j ≤ y → r'.f y = r.f y) 25 r
    ⟨rfl, by intro j hj; omega, fun _ _ => rfl⟩
    (by
      intro j r' hj ⟨d1, d2, d3⟩
      rw [Vec.get_ok (by omega), ok_bind, Vec.set_ok _ (by omega)]
      refine ⟨_, rfl, d1, ?_, ?_⟩
      · intro j' hj'
        show (if 25 * k + j' = 25 * k + j then _ else _) = _
        by_cases hjj : j' = j
        · rw [if_pos (by omega), hjj]
        · rw [if_neg (by omega), d2 j' (by omega)]
      · intro y hy
        show (if y = 25 * k + j then _ else _) = _
        rw [if_neg (by omega), d3 y (by omega)])
  exact ⟨r', er, c1, c2, c3⟩

/-- The bytes that `build` means to allocate, before the reduction modulo `2^32`. -/
def BS (ty : MpeType) (t : Vec Byte) (L TH : Nat) : Nat :=
  B t L TH + psum (tabs ty t L TH) (nbk t L) - 2 * psum (drops ty t L TH) (nbk t L)

/-- The object that `build` makes. -/
structure BuiltMpeS (ty : MpeType) (t : Vec Byte) (L TH : Nat) (f : Nat → Byte) (gb : Option (Nat → Byte)) (x : Select) :
    Prop where
  selLen : x.selLen = 25 * (nbk t L / 16 + 1)
  slen : x.selLen ≤ x.sel.len
  sup : ∀ k, k < nbk t L / 16 + 1 → ∃ b, BucketS ty t L TH f (16 * k) b ∧ ∀ j, j < 25 → x.sel.f (25 * k + j) = some (b.f j)
  bl : x.bitsLen = BS ty t L TH
  bits : offS ty t L TH (nbk t L) ≤ x.bits.len
  blen : x.bitsLen ≤ x.bits.len
  more : gb ≠ none → x.bitsLen < x.bits.len
  data : ∀ k, k < nbk t L → DataS ty t L TH k x.bits
  known : ∀ h, gb = some h → ∀ y, x.bits.f y ≠ none
  text : x.textLen = t.len
  big : x.bits.len < 2 ^ 32

theorem wdS_pos {m : Nat} (h : ks ty t L TH m ≠ 0) : 1 ≤ wdS ty t L TH m := by
  rw [wdS_comp h]
  have := (hdS_ge (b := tbs t L m) h).1
  have := tbs_pos (t := t) (L := L) m
  omega

theorem drops_none : ∀ {n : Nat}, offS ty t L TH n = 0 → psum (drops ty t L TH) n = 0 := by
  intro n
  induction n with
  | zero => intro _; rfl
  | succ n ih =>
    intro h
    rw [offS_succ] at h
    rw [psum_succ, ih (by omega)]
    by_cases hk : ks ty t L TH n = 0
    · rw [drops_zero hk]
    · have := wdS_pos hk
      omega

theorem BS_eq (ty : MpeType) (hL : 1 ≤ L) (h1 : 1 ≤ tot t) :
    BS ty t L TH + 2 * psum (drops ty t L TH) (nbk t L) = B t L TH + psum (tabs ty t L TH) (nbk t L) := by
  have hle : 2 * psum (drops ty t L TH) (nbk t L) ≤ B t L TH + psum (tabs ty t L TH) (nbk t L) := by
    by_cases ho : Odd t L TH
    · have := psum_one_last (ty := ty) (TH := TH)
        (show nbk t L = 1 by have := odd_one hL ho; have := nbk_one hL h1; omega)
      omega
    · have h2 : _ ≤ B t L TH + 1 := room_enough hL ho
      have h3 := offS_eq (ty := ty) (t := t) (L := L) (TH := TH) (nbk t L)
      by_cases hz : offS ty t L TH (nbk t L) = 0
      · rw [drops_none hz]; omega
      · omega
  unfold BS
  omega

/-- The number of bytes that `build` computes. -/
theorem bitsLenS (ty : MpeType) (hL : 1 ≤ L) (h1 : 1 ≤ tot t) :
    sub32 (add32 (B t L TH % W32) (psum (tabs ty t L TH) (nbk t L))) (2 * psum (drops ty t L TH) (nbk t L)) =
      BS ty t L TH % W32 := by
  have := BS_eq (TH := TH) ty hL h1
  unfold sub32 add32
  simp only [W32]
  omega

/-- When the array of bytes is too small: a single block, counted as dense by the first loop, or a count that
wraps. -/
def ShortS (ty : MpeType) (t : Vec Byte) (L TH aB : Nat) : Prop :=
  (Odd t L TH ∧ (TH + 7) / 8 + roomBytes aB < 4 * tot t) ∨ 2 ^ 32 ≤ BS ty t L TH + 128

theorem room_iffS (ty : MpeType) (hL : 1 ≤ L) (hlen : t.len < 2 ^ 29) (h1 : 1 ≤ tot t) (aB : Nat) :
    bytesAt aB (BS ty t L TH % W32) < offS ty t L TH (nbk t L) ↔ ShortS ty t L TH aB := by
  have hroom := roomBytes_pos aB
  have hB := BS_eq (TH := TH) ty hL h1
  have hoff := offS_eq (ty := ty) (t := t) (L := L) (TH := TH) (nbk t L)
  unfold ShortS
  by_cases hw : W32 ≤ BS ty t L TH + 128
  · refine ⟨fun _ => Or.inr hw, fun _ => ?_⟩
    have := count_le (t := t) (TH := TH) hL
    unfold bytesAt add32
    simp only [W32] at *
    omega
  · rw [Nat.mod_eq_of_lt (by omega), bytesAt_eq aB (by omega)]
    simp only [W32] at hw
    by_cases ho : Odd t L TH
    · have h3 := room_odd h1 ho
      have h4 := psum_one_last (ty := ty) (TH := TH) (show nbk t L = 1 by have := odd_one hL ho; have := nbk_one hL h1; omega)
      have hBe : B t L TH = (TH + 7) / 8 := h3.2
      constructor
      · exact fun h => Or.inl ⟨ho, by omega⟩
      · rintro (h | h)
        · have := h.2; omega
        · omega
    · have h4 : off t L TH (nbk t L) ≤ B t L TH + 1 := room_enough hL ho
      constructor
      · intro h; omega
      · rintro (h | h)
        · exact absurd h.1 ho
        · omega

theorem supersS_ok {N V : Nat} {out0 : Vec (Option Byte)} {s : EncS} {g : Option (Nat → Byte)} {pl : PlanS}
    (hs : EncDone ty t L TH N out0 pl.flags s) (hpl : PlanOKS ty t L TH g pl) {f : Nat → Byte} (hg : g = some f)
    (hV : 25 * N ≤ V) :
    ∃ v, forN N (superS ty g s.sel pl.flags) (fresh V) = ok v ∧ v.len = V ∧
      ∀ k, k < N → ∃ b, BucketS ty t L TH f (16 * k) b ∧ ∀ j, j < 25 → v.f (25 * k + j) = some (b.f j) := by
  obtain ⟨v, e, h1, h2⟩ := forN_inv (body := superS ty g s.sel pl.flags)
    (fun n v => v.len = V ∧ ∀ k, k < n → ∃ b, BucketS ty t L TH f (16 * k) b ∧
      ∀ j, j < 25 → v.f (25 * k + j) = some (b.f j)) N (fresh V)
    ⟨rfl, by intro k hk; omega⟩
    (by
      intro k v hk ⟨a1, a2⟩
      obtain ⟨b, eb, hb⟩ := bucketS_ok hs hpl (f := f) (i := 16 * k) (by omega) (Or.inr (Or.inr hg))
      unfold superS
      rw [eb, ok_bind]
      obtain ⟨v', ev, c1, c2, c3⟩ := copy25 hb.len (r := v) (k := k) (by omega)
      refine ⟨v', ev, c1.trans a1, ?_⟩
      intro k' hk'
      by_cases hkk : k' = k
      · subst hkk
        exact ⟨b, hb, c2⟩
      · obtain ⟨b', hb1, hb2⟩ := a2 k' (by omega)
        refine ⟨b', hb1, fun j hj => ?_⟩
        rw [c3 _ (by omega), hb2 j hj])
  exact ⟨v, e, h1, h2⟩

theorem supersS_ub {V : Nat} {out0 : Vec (Option Byte)} {s : EncS} {pl : PlanS}
    (hs : EncDone ty t L TH (nbk t L / 16 + 1) out0 pl.flags s) (hpl : PlanOKS ty t L TH none pl) (hr : tot t % L > 0)
    (hV : 25 * (nbk t L / 16 + 1) ≤ V) :
    forN (nbk t L / 16 + 1) (superS ty none s.sel pl.flags) (fresh V) = ub .oob := by
  have step : ∀ n a (v : Vec (Option Nat)), v.len = V → a + n = nbk t L / 16 + 1 → 0 < n →
      forFrom a n (superS ty none s.sel pl.flags) v = ub .oob := by
    intro n
    induction n with
    | zero => intro a v _ _ h; omega
    | succ n ih =>
      intro a v hv ha _
      unfold forFrom
      by_cases hlt : a < nbk t L / 16
      · unfold superS
        obtain ⟨b, eb, hb⟩ := bucketS_ok hs hpl (f := fun _ => 0#8) (i := 16 * a) (by omega) (by omega)
        obtain ⟨v', ev, c1, -⟩ := copy25 hb.len (r := v) (k := a) (by omega)
        rw [eb, ok_bind, ev, ok_bind]
        exact ih _ _ (c1.trans hv) (by omega) (by omega)
      · unfold superS
        rw [bucketS_ub hs hpl hr (i := 16 * a) (by omega) (by omega) (by omega)]
        rfl
  exact step _ 0 _ rfl (by omega) (by omega)

theorem buildSelMpe_cases (ty : MpeType) (hL : 1 ≤ L) (hlen : t.len < 2 ^ 29) (h1 : 1 ≤ tot t)
    (hE : 2 * nbk t L + 2 + 32 ≤ 2 ^ 32) (aS aB : Nat) (g : JunkS) :
    (∀ f, g.flags = some f → ¬ ShortS ty t L TH aB →
      ∃ x, buildSelMpe ty L TH aS aB g t = ok x ∧ BuiltMpeS ty t L TH f g.bits x) ∧
    (∀ f, g.flags = some f → ShortS ty t L TH aB → buildSelMpe ty L TH aS aB g t = ub .oob) ∧
    (g.flags = none → ¬ ShortS ty t L TH aB →
      buildSelMpe ty L TH aS aB g t = ub (if tot t % L = 0 then .uninit else .oob)) ∧
    (g.flags = none → ∃ ft, buildSelMpe ty L TH aS aB g t = ub ft) := by
  have hn := nbk_one hL h1
  have hroom := roomBytes_pos aB
  have hW : 2 * nbk t L + 2 < W32 := by simp only [W32]; omega
  obtain ⟨s, e, hs⟩ := sel1_ok (t := t) (L := L) (TH := TH) (SL := 32 * (nbk t L / 16 + 1)) hL hlen (by omega)
  have hcn := hs.cnt
  have hb : s.bitsLen = B t L TH % W32 := hs.bits
  obtain ⟨w, ew, w1, w2, w3⟩ := pad_ok (SL := 32 * (nbk t L / 16 + 1)) (c := s.cnt) hs.len (by omega)
  have hev : ∀ m, m ≤ nbk t L → w.f (2 * m) = some (en t L m - 1) ∧ w.f (2 * m + 1) = some 0 := by
    intro m hm
    rw [w2 _ (by omega), w2 _ (by omega)]
    exact hs.ev m hm
  have hz : ∀ y, 2 * nbk t L + 2 ≤ y → y < 32 * (nbk t L / 16 + 1) → w.f y = some 0 := fun y a b => w3 y (by omega) b
  obtain ⟨pl, epl, hpl⟩ := planS_ok (TH := TH) ty g.flags hL hlen hn (v := w) ⟨by omega, fun k hk => (hev k hk).1⟩
  have henc := encodeS_ok (ty := ty) (TH := TH) (N := nbk t L / 16 + 1)
    (out0 := memory g.bits (bytesAt aB (BS ty t L TH % W32)))
    (fl := pl.flags) hL hlen hn (by omega) w1 hev hz ⟨hpl.len, hpl.val⟩ hW
  have hr := room_iffS (t := t) (TH := TH) ty hL hlen h1 aB
  have main : buildSelMpe ty L TH aS aB g t = (do
      let e ← encodeS L TH t (tot t) (2 * nbk t L + 2) (32 * (nbk t L / 16 + 1)) pl.flags
        (memory g.bits (bytesAt aB (BS ty t L TH % W32))) w
      let v ← forN (nbk t L / 16 + 1) (superS ty g.flags e.sel pl.flags) (fresh (items aS ((nbk t L / 16 + 1) * 25)))
      ok ⟨v, (nbk t L / 16 + 1) * 25, e.out, BS ty t L TH % W32, t.len⟩) := by
    unfold buildSelMpe
    rw [countOnes_ok hlen, ok_bind]
    simp only []
    rw [entries_eq hW, selTmpLen_eq hE, e, ok_bind, ew, ok_bind, hcn, sub32_eq (by omega) hW,
      Nat.add_sub_cancel, show (2 * nbk t L + 2) / 2 - 1 = nbk t L by omega, epl, ok_bind,
      show 32 * (nbk t L / 16 + 1) / 2 / 16 = nbk t L / 16 + 1 by omega, hb, hpl.added, hpl.pairs,
      bitsLenS ty hL h1]
  rw [main]
  have hit := items_eq (n := (nbk t L / 16 + 1) * 25) aS (by simp only [W32]; omega)
  have hsb : ∀ h : bytesAt aB (BS ty t L TH % W32) < offS ty t L TH (nbk t L), ShortS ty t L TH aB := hr.1
  refine ⟨fun f hf hsh => ?_, fun f hf hsh => ?_, fun hnone hsh => ?_, fun hnone => ?_⟩
  · have hB : BS ty t L TH + 128 < W32 := Nat.lt_of_not_le (fun h => hsh (Or.inr h))
    have hBe := Nat.mod_eq_of_lt (show BS ty t L TH < W32 by omega)
    rcases henc with ⟨e, ee, he⟩ | ⟨ft, ee, he⟩
    · rw [ee, ok_bind]
      obtain ⟨v, ev, v1, v2⟩ := supersS_ok (V := items aS ((nbk t L / 16 + 1) * 25)) he hpl hf (by omega)
      rw [ev, ok_bind]
      have hbl : e.out.len = bytesAt aB (BS ty t L TH % W32) := he.blen
      have hbq := bytesAt_eq aB hB
      refine ⟨_, rfl, Nat.mul_comm _ _, ?_, v2, hBe, ?_, ?_, ?_, he.data, ?_, rfl, ?_⟩
      · show (nbk t L / 16 + 1) * 25 ≤ v.len
        omega
      · show _ ≤ e.out.len
        rw [hbl]; exact he.room
      · show BS ty t L TH % W32 ≤ e.out.len
        rw [hbl, hBe]
        omega
      · intro _
        show BS ty t L TH % W32 < e.out.len
        rw [hbl, hBe]
        omega
      · intro h hh y
        refine he.keeps y ?_
        show (g.bits.map fun f => f y) ≠ none
        rw [hh]
        exact Option.some_ne_none _
      · show e.out.len < 2 ^ 32
        rw [hbl]; exact bytesAt_lt _ _
    · exfalso
      rcases he with ⟨-, hl⟩ | ⟨-, hl⟩
      · exact hsh (hr.1 hl)
      · by_cases hr : tot t % L > 0
        · rw [hpl.last hr] at hl; cases hl
        · rw [hpl.rest (by omega), hf] at hl; cases hl
  · rcases henc with ⟨e, ee, he⟩ | ⟨ft, ee, he⟩
    · exact absurd (hr.2 hsh) (Nat.not_lt.2 he.room)
    · rw [ee]
      rcases he with ⟨h4, -⟩ | ⟨-, hl⟩
      · rw [h4]; rfl
      · by_cases hr : tot t % L > 0
        · rw [hpl.last hr] at hl; cases hl
        · rw [hpl.rest (by omega), hf] at hl; cases hl
  · by_cases hm : tot t % L = 0
    · rw [if_pos hm]
      have hl : pl.flags.f (nbk t L - 1) = none := by rw [hpl.rest hm, hnone]; rfl
      rcases henc with ⟨e, ee, he⟩ | ⟨ft, ee, he⟩
      · exact absurd hl he.flag
      · rw [ee]
        rcases he with ⟨-, h4⟩ | ⟨h4, -⟩
        · exact absurd (hr.1 h4) hsh
        · rw [h4]; rfl
    · rw [if_neg hm]
      rcases henc with ⟨e, ee, he⟩ | ⟨ft, ee, he⟩
      · rw [ee, ok_bind, hnone]
        rw [hnone] at hpl
        rw [supersS_ub he hpl (by omega) (by omega)]
        rfl
      · rw [ee]
        rcases he with ⟨h4, -⟩ | ⟨-, hl⟩
        · rw [h4]; rfl
        · rw [hpl.last (by omega)] at hl; cases hl
  · rcases henc with ⟨e, ee, he⟩ | ⟨ft, ee, he⟩
    · by_cases hm : tot t % L = 0
      · exact absurd (by rw [hpl.rest hm, hnone]; rfl) he.flag
      · rw [ee, ok_bind, hnone]
        rw [hnone] at hpl
        rw [supersS_ub he hpl (by omega) (by omega)]
        exact ⟨_, rfl⟩
    · rw [ee]
      exact ⟨_, rfl⟩

theorem buildSelMpe_many (ty : MpeType) (hL : 1 ≤ L) (hlen : t.len < 2 ^ 29) (hE : 2 ^ 32 < 2 * nbk t L + 2 + 32)
    (aS aB : Nat) (g : JunkS) : buildSelMpe ty L TH aS aB g t = ub .oob := by
  unfold buildSelMpe
  rw [countOnes_ok hlen, ok_bind]
  simp only []
  rw [entries_mod, sel1_short hL hlen]
  · rfl
  · unfold selTmpLen add32
    simp only [W32]
    split <;> omega

end MRS.Mran.S32
