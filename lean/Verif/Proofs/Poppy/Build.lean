import Verif.Proofs.Poppy.Word

/-! # Poppy: the constructor -/

set_option autoImplicit false

namespace MRS.Poppy
open Outcome Spec

/-! ## Counting in the whole array -/

/-- Bit `p`, counted from the most significant bit of each word. -/
def gbit (bits : Vec Word) (p : Nat) : Bool := (bits.f (p / 64)).getLsbD (63 - p % 64)

/-- Number of ones among the first `p` bits. -/
def G (bits : Vec Word) (p : Nat) : Nat := psum (fun p => (gbit bits p).toNat) p

theorem G_zero (bits : Vec Word) : G bits 0 = 0 := rfl
theorem G_succ (bits : Vec Word) (p : Nat) : G bits (p + 1) = G bits p + (gbit bits p).toNat := rfl
theorem G_mono (bits : Vec Word) {a b : Nat} (h : a ≤ b) : G bits a ≤ G bits b := psum_mono _ h

attribute [irreducible] G

theorem G_diff (bits : Vec Word) (a d : Nat) : G bits (a + d) ≤ G bits a + d := by
  induction d with
  | zero => exact Nat.le_refl _
  | succ d ih =>
    rw [show a + (d + 1) = a + d + 1 by omega, G_succ]
    have : (gbit bits (a + d)).toNat ≤ 1 := Bool.toNat_le _
    omega

theorem G_le (bits : Vec Word) (p : Nat) : G bits p ≤ p := by
  have := G_diff bits 0 p
  rw [G_zero, Nat.zero_add] at this
  exact this

theorem G_word (bits : Vec Word) (x : Nat) {j : Nat} (hj : j ≤ 64) :
    G bits (64 * x + j) = G bits (64 * x) + mcnt (bits.f x) j := by
  induction j with
  | zero => rfl
  | succ j ih =>
    rw [show 64 * x + (j + 1) = 64 * x + j + 1 by omega, G_succ, ih (by omega), mcnt_succ]
    unfold gbit
    rw [show (64 * x + j) / 64 = x by omega, show (64 * x + j) % 64 = j by omega]
    omega

theorem popcountLinear_ok {bits : Vec Word} {x n : Nat} (hn : 0 < n)
    (hx : x + (n - 1) / 64 < bits.len) (hb : n < 2 ^ 60) :
    popcountLinear bits x n = ok (G bits (64 * x + n) - G bits (64 * x)) := by
  unfold popcountLinear
  rw [if_neg (by omega)]
  simp only []
  obtain ⟨p, e, hp⟩ := forN_inv (body := fun i p => do
      let w ← bits.get (x + i)
      ok (add64 p (popcnt w)))
    (fun i p => p = G bits (64 * (x + i)) - G bits (64 * x)) ((n - 1) / 64) 0
    (by rw [Nat.add_zero, Nat.sub_self])
    (by
      intro i p hi hp
      rw [Vec.get_ok (by omega)]
      refine ⟨_, rfl, ?_⟩
      have h1 := G_word bits (x + i) (Nat.le_refl 64)
      rw [mcnt_all, ← popcnt_eq] at h1
      have h2 := G_mono bits (show 64 * x ≤ 64 * (x + i) by omega)
      have h3 := G_diff bits (64 * x) (64 * (i + 1))
      rw [show 64 * x + 64 * (i + 1) = 64 * (x + i) + 64 by omega] at h3
      rw [add64_eq (by simp only [W64]; omega), show 64 * (x + (i + 1)) = 64 * (x + i) + 64 by omega]
      omega)
  rw [e, ok_bind, Vec.get_ok hx, ok_bind, popcnt_shr _ (by omega)]
  congr 1
  have h1 := G_word bits (x + (n - 1) / 64) (show 64 - (63 - (n - 1) % 64) ≤ 64 by omega)
  rw [show 64 * (x + (n - 1) / 64) + (64 - (63 - (n - 1) % 64)) = 64 * x + n by omega] at h1
  have h2 := G_mono bits (show 64 * x ≤ 64 * (x + (n - 1) / 64) by omega)
  have h3 := G_diff bits (64 * x) n
  rw [add64_eq (by simp only [W64]; omega)]
  omega

/-! ## The first pass -/

/-- Ones of basic block `q`. -/
def blk (bits : Vec Word) (q : Nat) : Nat := G bits (512 * (q + 1)) - G bits (512 * q)

theorem blk_le (bits : Vec Word) (q : Nat) : blk bits q ≤ 512 := by
  have := G_diff bits (512 * q) 512
  unfold blk
  rw [show 512 * (q + 1) = 512 * q + 512 by omega]
  omega

theorem blk_add (bits : Vec Word) (q : Nat) :
    G bits (512 * q) + blk bits q = G bits (512 * (q + 1)) := by
  have := G_mono bits (show 512 * q ≤ 512 * (q + 1) by omega)
  unfold blk
  omega

/-- The contents of L2 entry `j` when the running count of the superblock that starts at bit `B`
is kept modulo `2^32`. -/
def entry (bits : Vec Word) (B j : Nat) : Nat :=
  (G bits (2048 * j) - G bits B) % 2 ^ 32 + 2 ^ 32 * blk bits (4 * j) +
    2 ^ 42 * blk bits (4 * j + 1) + 2 ^ 52 * blk bits (4 * j + 2)

theorem or_field {e c s : Nat} (he : e < 2 ^ s) (hs : s ≤ 52) (hc : c ≤ 512) :
    e ||| (c <<< s) % W64 = e + 2 ^ s * c := by
  have h1 : c <<< s < W64 := by
    rw [Nat.shiftLeft_eq]
    have : 2 ^ s ≤ 2 ^ 52 := Nat.pow_le_pow_right (by omega) hs
    calc c * 2 ^ s ≤ 512 * 2 ^ 52 := Nat.mul_le_mul hc this
      _ < W64 := by decide
  rw [Nat.mod_eq_of_lt h1, Nat.shiftLeft_eq, Nat.mul_comm c, Nat.or_comm,
    ← Nat.two_pow_add_eq_or_of_lt he, Nat.add_comm]

theorem blkLinear {bits : Vec Word} {q : Nat} (h : 512 * (q + 1) ≤ 64 * bits.len) (hq : q < 2 ^ 50) :
    popcountLinear bits (mul64 q 8) 512 = ok (blk bits q) := by
  rw [mul64_eq (by simp only [W64]; omega), popcountLinear_ok (by omega) (by omega) (by omega)]
  unfold blk
  rw [show 64 * (q * 8) + 512 = 512 * (q + 1) by omega, show 64 * (q * 8) = 512 * q by omega]

/-- What `l2Part` does. -/
theorem l2Part_ok {bits : Vec Word} {j : Nat} {s : P1} (hj : j < 3) (hl : s.l2Id < s.l2.len)
    (h : 512 * (s.bb + 1) ≤ 64 * bits.len) (hq : s.bb < 2 ^ 50)
    (he : s.l2.f s.l2Id < 2 ^ (32 + 10 * j)) :
    l2Part bits j s = ok { s with
      l2 := { s.l2 with f := fun t =>
        if t = s.l2Id then (s.l2.f s.l2Id + 2 ^ (32 + 10 * j) * blk bits s.bb) else s.l2.f t },
      cum := (s.cum + blk bits s.bb) % 2 ^ 32,
      bb := s.bb + 1 } := by
  unfold l2Part
  rw [blkLinear h hq, ok_bind, Vec.get_ok hl, ok_bind, Vec.set_ok _ hl, ok_bind,
    or_field he (by omega) (blk_le bits _)]

theorem l2Entry_ok {bits : Vec Word} {B : Nat} {s : P1} (hl : s.l2Id < s.l2.len)
    (hbb : s.bb = 4 * s.l2Id) (hB : B ≤ 2048 * s.l2Id) (h : 2048 * (s.l2Id + 1) ≤ 64 * bits.len)
    (hq : s.l2Id < 2 ^ 47) (hc : s.cum = (G bits (2048 * s.l2Id) - G bits B) % 2 ^ 32) :
    ∃ s', l2Entry bits s = ok s' ∧ s'.l2Id = s.l2Id + 1 ∧ s'.bb = 4 * (s.l2Id + 1) ∧
      s'.cum = (G bits (2048 * (s.l2Id + 1)) - G bits B) % 2 ^ 32 ∧ s'.l2.len = s.l2.len ∧
      ∀ t, s'.l2.f t = if t = s.l2Id then entry bits B s.l2Id else s.l2.f t := by
  obtain ⟨l2, i, bb, cum⟩ := s
  simp only at hl hbb hB h hq hc
  subst hbb
  have c0 := blk_le bits (4 * i)
  have c1 := blk_le bits (4 * i + 1)
  have c2 := blk_le bits (4 * i + 1 + 1)
  have hm : cum < 2 ^ 32 := by rw [hc]; exact Nat.mod_lt _ (by decide)
  unfold l2Entry
  simp only []
  rw [Vec.set_ok _ hl, ok_bind]
  unfold forN forFrom
  rw [l2Part_ok (by omega) (by exact hl) (by show 512 * (4 * i + 1) ≤ _; omega)
    (by show 4 * i < _; omega) (by
      show (if i = i then cum else l2.f i) < 2 ^ (32 + 10 * 0)
      rw [if_pos rfl]; exact hm), ok_bind]
  simp only [if_true]
  unfold forFrom
  rw [l2Part_ok (by omega) (by exact hl) (by show 512 * (4 * i + 1 + 1) ≤ _; omega)
    (by show 4 * i + 1 < _; omega) (by
      show (if i = i then cum + 2 ^ (32 + 10 * 0) * blk bits (4 * i) else _) < 2 ^ (32 + 10 * (0 + 1))
      rw [if_pos rfl]; omega), ok_bind]
  simp only [if_true]
  unfold forFrom
  rw [l2Part_ok (by omega) (by exact hl) (by show 512 * (4 * i + 1 + 1 + 1) ≤ _; omega)
    (by show 4 * i + 1 + 1 < _; omega) (by
      show (if i = i then cum + 2 ^ (32 + 10 * 0) * blk bits (4 * i) +
        2 ^ (32 + 10 * (0 + 1)) * blk bits (4 * i + 1) else _) < 2 ^ (32 + 10 * (0 + 1 + 1))
      rw [if_pos rfl]; omega), ok_bind]
  simp only [if_true]
  unfold forFrom
  rw [ok_bind]
  simp only []
  rw [blkLinear (by omega) (by omega), ok_bind]
  refine ⟨_, rfl, rfl, by show 4 * i + 1 + 1 + 1 + 1 = _; omega, ?_, rfl, ?_⟩
  · show ((((cum + blk bits (4 * i)) % 2 ^ 32 + blk bits (4 * i + 1)) % 2 ^ 32 +
      blk bits (4 * i + 1 + 1)) % 2 ^ 32 + blk bits (4 * i + 1 + 1 + 1)) % 2 ^ 32 = _
    have b0 := blk_add bits (4 * i)
    have b1 := blk_add bits (4 * i + 1)
    have b2 := blk_add bits (4 * i + 1 + 1)
    have b3 := blk_add bits (4 * i + 1 + 1 + 1)
    rw [show 512 * (4 * i) = 2048 * i by omega] at b0
    rw [show 512 * (4 * i + 1 + 1 + 1 + 1) = 2048 * (i + 1) by omega] at b3
    have := G_mono bits hB
    omega
  · intro t
    show (if t = i then _ else if t = i then _ else if t = i then _ else if t = i then _ else l2.f t) = _
    by_cases ht : t = i
    · rw [if_pos ht, if_pos ht, hc]
      unfold entry
      rw [show 4 * i + 1 + 1 = 4 * i + 2 by omega]
    · rw [if_neg ht, if_neg ht, if_neg ht, if_neg ht, if_neg ht]

theorem l2Fill_ok {bits : Vec Word} {n2 B : Nat} (h : 2048 * n2 ≤ 64 * bits.len) (hn : n2 < 2 ^ 47) :
    ∀ (f : Nat) (s : P1), s.l2.len = n2 → s.l2Id < n2 → s.bb = 4 * s.l2Id → B ≤ 2048 * s.l2Id →
      s.cum = (G bits (2048 * s.l2Id) - G bits B) % 2 ^ 32 →
    ∃ s', l2Fill bits n2 f s = ok s' ∧ s'.l2Id = min (s.l2Id + f) n2 ∧ s'.bb = 4 * s'.l2Id ∧
      s'.cum = (G bits (2048 * s'.l2Id) - G bits B) % 2 ^ 32 ∧ s'.l2.len = n2 ∧
      ∀ t, s'.l2.f t = if s.l2Id ≤ t ∧ t < s'.l2Id then entry bits B t else s.l2.f t := by
  intro f
  induction f with
  | zero =>
    intro s h1 h2 h3 h4 h5
    refine ⟨s, rfl, by omega, h3, h5, h1, ?_⟩
    intro t
    rw [if_neg (by omega)]
  | succ f ih =>
    intro s h1 h2 h3 h4 h5
    obtain ⟨s1, e1, a1, a2, a3, a4, a5⟩ := l2Entry_ok (by omega) h3 h4 (by omega) (by omega) h5
    rw [l2Fill, e1, ok_bind]
    by_cases hc : s1.l2Id ≥ n2
    · rw [if_pos hc]
      refine ⟨s1, rfl, by omega, by omega, by rw [a3, a1], by omega, ?_⟩
      intro t
      rw [a5]
      by_cases ht : t = s.l2Id
      · rw [if_pos ht, if_pos (by omega), ht]
      · rw [if_neg ht, if_neg (by omega)]
    · rw [if_neg hc]
      obtain ⟨s2, e2, b1, b2, b3, b4, b5⟩ := ih s1 (by omega) (by omega) (by omega) (by omega)
        (by rw [a3, a1])
      refine ⟨s2, e2, by omega, b2, b3, b4, ?_⟩
      intro t
      rw [b5]
      by_cases ht : s1.l2Id ≤ t ∧ t < s2.l2Id
      · rw [if_pos ht, if_pos (by omega)]
      · rw [if_neg ht, a5]
        by_cases ht2 : t = s.l2Id
        · rw [if_pos ht2, if_pos (by omega), ht2]
        · rw [if_neg ht2, if_neg (by omega)]

/-- First L2 entry after superblock `i - 1`. -/
def E (nbits i : Nat) : Nat := min (i * 2 ^ 21) (l2Count nbits)

/-- Ones of superblock `i` seen by the first pass. -/
def c1 (bits : Vec Word) (nbits i : Nat) : Nat :=
  G bits (2048 * E nbits (i + 1)) - G bits (2048 * E nbits i)

/-- Entries allocated for `loc_[i]`. -/
def alloc (bits : Vec Word) (nbits i : Nat) : Nat := (c1 bits nbits i % 2 ^ 32 + 8191) % 2 ^ 32 / 8192

/-- The value of `pCount_` after `i` rounds. -/
def acc (bits : Vec Word) (nbits i : Nat) : Nat := psum (fun t => c1 bits nbits t % 2 ^ 32) i

theorem acc_le (bits : Vec Word) (nbits i : Nat) : acc bits nbits i ≤ i * 2 ^ 32 := by
  induction i with
  | zero => exact Nat.le_refl _
  | succ i ih =>
    show acc bits nbits i + c1 bits nbits i % 2 ^ 32 ≤ _
    omega

/-- State after `i` rounds of the first pass. -/
structure Inv1 (bits : Vec Word) (nbits i : Nat) (s : S1) : Prop where
  l1len : s.l1.len = l1Count nbits
  l2len : s.l2.len = l2Count nbits
  lclen : s.lc.len = 2 ^ 16
  l2Id : s.l2Id = E nbits i
  bb : s.bb = 4 * E nbits i
  pCount : s.pCount = acc bits nbits i
  l1 : ∀ j, j < i → s.l1.f j = acc bits nbits j
  lc : ∀ j, j < i → s.lc.f j = alloc bits nbits j
  l2 : ∀ j t, j < i → E nbits j ≤ t → t < E nbits (j + 1) →
    s.l2.f t = entry bits (2048 * E nbits j) t

theorem E_lt {nbits i : Nat} (h : 2048 ≤ nbits) (hi : i < l1Count nbits) :
    E nbits i = i * 2 ^ 21 ∧ i * 2 ^ 21 < l2Count nbits := by
  unfold E l1Count l2Count at *
  omega

theorem E_succ {nbits i : Nat} (h : 2048 ≤ nbits) (hi : i < l1Count nbits) :
    min (E nbits i + 2 ^ 21) (l2Count nbits) = E nbits (i + 1) := by
  rw [(E_lt h hi).1]
  unfold E
  rw [Nat.succ_mul]

theorem E_mono (nbits : Nat) {i j : Nat} (h : i ≤ j) : E nbits i ≤ E nbits j := by
  unfold E
  have := Nat.mul_le_mul_right (2 ^ 21) h
  exact Nat.le_min.2 ⟨Nat.le_trans (Nat.min_le_left _ _) this, Nat.min_le_right _ _⟩

theorem pass1_ok {bits : Vec Word} {nbits i : Nat} {s : S1} (h : 2048 ≤ nbits) (hn : nbits < 2 ^ 48)
    (hb : nbits ≤ 64 * bits.len) (hi : i < l1Count nbits) (hs : Inv1 bits nbits i s) :
    ∃ s', pass1 bits (l2Count nbits) i s = ok s' ∧ Inv1 bits nbits (i + 1) s' := by
  obtain ⟨hE, hE2⟩ := E_lt h hi
  have hi16 : i < 2 ^ 16 := by unfold l1Count at hi; omega
  have hl2 : 2048 * l2Count nbits ≤ nbits := by unfold l2Count; omega
  unfold pass1
  rw [Vec.set_ok _ (by rw [hs.l1len]; exact hi), ok_bind]
  obtain ⟨p, e, a1, a2, a3, a4, a5⟩ := l2Fill_ok (bits := bits) (n2 := l2Count nbits)
    (B := 2048 * E nbits i) (by omega) (by omega) (2 ^ 21)
    { l2 := s.l2, l2Id := s.l2Id, bb := s.bb, cum := 0 } hs.l2len
    (by show s.l2Id < _; rw [hs.l2Id]; omega) (by show s.bb = 4 * s.l2Id; rw [hs.l2Id, hs.bb])
    (by show _ ≤ 2048 * s.l2Id; rw [hs.l2Id]; omega)
    (by show 0 = (G bits (2048 * s.l2Id) - _) % _; rw [hs.l2Id, Nat.sub_self])
  simp only [hs.l2Id] at a1
  have a1 : p.l2Id = E nbits (i + 1) := a1.trans (E_succ h hi)
  rw [e, ok_bind, Vec.set_ok _ (by rw [hs.lclen]; exact hi16), ok_bind]
  have hcum : p.cum = c1 bits nbits i % 2 ^ 32 := by unfold c1; rw [a3, a1]
  refine ⟨_, rfl, ?_⟩
  constructor
  · exact hs.l1len
  · exact a4
  · exact hs.lclen
  · exact a1
  · show p.bb = _; rw [a2, a1]
  · show add64 s.pCount p.cum = acc bits nbits i + c1 bits nbits i % 2 ^ 32
    rw [hs.pCount, hcum]
    have := acc_le bits nbits i
    exact add64_eq (by simp only [W64]; omega)
  · intro j hj
    show (if j = i then s.pCount else s.l1.f j) = _
    by_cases hji : j = i
    · rw [if_pos hji, hs.pCount, hji]
    · rw [if_neg hji]; exact hs.l1 j (by omega)
  · intro j hj
    show (if j = i then (p.cum + 8191) % 2 ^ 32 / 8192 else s.lc.f j) = _
    by_cases hji : j = i
    · rw [if_pos hji, hji, hcum]; unfold alloc; rfl
    · rw [if_neg hji]; exact hs.lc j (by omega)
  · intro j t hj h1 h2
    show p.l2.f t = _
    rw [a5]
    show (if s.l2Id ≤ t ∧ t < p.l2Id then _ else s.l2.f t) = _
    rw [hs.l2Id, a1]
    by_cases hji : j = i
    · subst hji; rw [if_pos ⟨h1, h2⟩]
    · have := E_mono nbits (show j + 1 ≤ i by omega)
      rw [if_neg (by omega)]
      exact hs.l2 j t (by omega) h1 h2

theorem pass1_all {bits : Vec Word} {nbits : Nat} (g1 g2 : Nat → Nat) (h : 2048 ≤ nbits)
    (hn : nbits < 2 ^ 48) (hb : nbits ≤ 64 * bits.len) :
    ∃ s, forN (l1Count nbits) (pass1 bits (l2Count nbits))
      { l1 := ⟨l1Count nbits, g1⟩, l2 := ⟨l2Count nbits, g2⟩, l2Id := 0, bb := 0,
        lc := ⟨2 ^ 16, fun _ => 0⟩, pCount := 0 } = ok s ∧ Inv1 bits nbits (l1Count nbits) s := by
  apply forN_inv (fun i s => Inv1 bits nbits i s)
  · refine ⟨rfl, rfl, rfl, ?_, ?_, rfl, ?_, ?_, ?_⟩
    · show 0 = E nbits 0; unfold E; omega
    · show 0 = 4 * E nbits 0; unfold E; omega
    · intro j hj; omega
    · intro j hj; omega
    · intro j t hj; omega
  · intro i s hi hs
    exact pass1_ok h hn hb hi hs

/-! ## The second pass -/

/-- Run a loop on an outcome. -/
theorem forFrom_res {σ : Type} {body : Nat → σ → Outcome σ} (R : Nat → Outcome σ → Prop) :
    ∀ (n a b : Nat) (o : Outcome σ), R a o →
    (∀ j o, j < n → R (a + j) o → R (a + j + 1) (o >>= body (b + j))) →
    R (a + n) (o >>= forFrom b n body)
  | 0, a, b, o, h, _ => by
    have : (o >>= forFrom b 0 body) = o := by cases o <;> rfl
    rw [this]; exact h
  | n + 1, a, b, o, h, hb => by
    have : (o >>= forFrom b (n + 1) body) = ((o >>= body b) >>= forFrom (b + 1) n body) := by
      cases o <;> rfl
    rw [this, show a + (n + 1) = a + 1 + n by omega]
    apply forFrom_res R n (a + 1) (b + 1) _ (hb 0 o (by omega) h)
    intro j o hj hr
    have := hb (j + 1) o (by omega) (by rw [show a + (j + 1) = a + 1 + j by omega]; exact hr)
    rw [show a + (j + 1) + 1 = a + 1 + j + 1 by omega, show b + (j + 1) = b + 1 + j by omega] at this
    exact this

/-- `v` is where the one number `8192 * j` of the superblock that starts at bit `B` is. -/
def LocOK (bits : Vec Word) (B j v : Nat) : Prop :=
  v < 2 ^ 32 ∧ gbit bits (B + v) = true ∧ G bits (B + v) = G bits B + 8192 * j

/-- Entries of `loc_[i]` needed for the first `r` bits of the superblock that starts at bit `B`. -/
def need (bits : Vec Word) (B r : Nat) : Nat := (G bits (B + r) - G bits B + 8191) / 8192

theorem need_mono (bits : Vec Word) (B : Nat) {r r' : Nat} (h : r ≤ r') :
    need bits B r ≤ need bits B r' := by
  have := G_mono bits (show B + r ≤ B + r' by omega)
  unfold need
  exact Nat.div_le_div_right (by omega)

/-- State of the second pass after `r` bits. -/
structure Scan (bits : Vec Word) (B A r : Nat) (s : P2) : Prop where
  len : s.arr.len = A
  cnt : s.cnt = (G bits (B + r) - G bits B) % 2 ^ 32
  n : s.n = need bits B r
  loc : ∀ j, j < need bits B r → LocOK bits B j (s.arr.f j)

/-- Result of the second pass after `r` bits: as long as the allocated entries suffice. -/
def Res (bits : Vec Word) (B A r : Nat) (o : Outcome P2) : Prop :=
  if need bits B r ≤ A then ∃ s, o = ok s ∧ Scan bits B A r s else o = ub .oob

theorem locBit_res {bits : Vec Word} {B A k widx bit woff r : Nat} {o : Outcome P2} (hbit : bit < 64)
    (hrd : k * 512 + widx * 64 + bit = r) (hw : 64 * (woff + widx) = B + k * 512 + widx * 64)
    (hl : woff + widx < bits.len) (hr : r < 2 ^ 32) (h : Res bits B A r o) :
    Res bits B A (r + 1) (o >>= locBit bits woff k widx bit) := by
  have hmono := need_mono bits B (show r ≤ r + 1 by omega)
  unfold Res at *
  by_cases hA : need bits B r ≤ A
  · rw [if_pos hA] at h
    obtain ⟨s, rfl, hs⟩ := h
    rw [ok_bind]
    have hg : (bits.f (woff + widx)).getLsbD (63 - bit) = gbit bits (B + r) := by
      unfold gbit
      rw [show (B + r) / 64 = woff + widx by omega, show (B + r) % 64 = bit by omega]
    have hG := G_succ bits (B + r)
    have hm := G_mono bits (show B ≤ B + r by omega)
    have hd := G_diff bits B r
    unfold locBit
    rw [Vec.get_ok hl, ok_bind, hg, hrd]
    by_cases hb : gbit bits (B + r) = true
    · rw [if_pos hb]
      rw [hb] at hG
      have hG : G bits (B + r + 1) = G bits (B + r) + 1 := hG
      simp only []
      have hcnt : (s.cnt + 1) % 2 ^ 32 = (G bits (B + (r + 1)) - G bits B) % 2 ^ 32 := by
        rw [hs.cnt, show B + (r + 1) = B + r + 1 by omega]; omega
      by_cases hq : (s.cnt + 1) % 2 ^ 32 % 8192 = 1
      · rw [if_pos hq]
        have hc0 : (G bits (B + r) - G bits B) % 8192 = 0 := by
          rw [hs.cnt] at hq; omega
        have hneed : need bits B r = (G bits (B + r) - G bits B) / 8192 := by unfold need; omega
        have hneed' : need bits B (r + 1) = need bits B r + 1 := by
          rw [hneed]; unfold need; rw [show B + (r + 1) = B + r + 1 by omega]; omega
        by_cases hlt : need bits B r < A
        · rw [if_pos (by omega), Vec.set_ok _ (by rw [hs.len, hs.n]; exact hlt), ok_bind]
          refine ⟨_, rfl, hs.len, hcnt, ?_, ?_⟩
          · show (s.n + 1) % 2 ^ 32 = _
            rw [hs.n, hneed', Nat.mod_eq_of_lt]
            rw [hneed]; omega
          · intro j hj
            show LocOK bits B j (if j = s.n then r % 2 ^ 32 else s.arr.f j)
            rw [hs.n]
            by_cases hjn : j = need bits B r
            · rw [if_pos hjn, Nat.mod_eq_of_lt hr]
              refine ⟨hr, hb, ?_⟩
              rw [hjn, hneed]; omega
            · rw [if_neg hjn]; exact hs.loc j (by omega)
        · rw [if_neg (by omega)]
          unfold Vec.set
          rw [if_neg (by rw [hs.len, hs.n]; exact hlt)]
          rfl
      · rw [if_neg hq]
        have hc0 : (G bits (B + r) - G bits B) % 8192 ≠ 0 := by
          rw [hs.cnt] at hq; omega
        have hneed' : need bits B (r + 1) = need bits B r := by
          unfold need; rw [show B + (r + 1) = B + r + 1 by omega]; omega
        rw [if_pos (by omega)]
        refine ⟨_, rfl, hs.len, hcnt, ?_, ?_⟩
        · rw [hneed']; exact hs.n
        · rw [hneed']; exact hs.loc
    · rw [if_neg hb]
      have hf : gbit bits (B + r) = false := by simpa using hb
      rw [hf] at hG
      have hG : G bits (B + (r + 1)) = G bits (B + r) := hG
      have hneed' : need bits B (r + 1) = need bits B r := by unfold need; rw [hG]
      rw [if_pos (by omega)]
      refine ⟨s, rfl, hs.len, ?_, ?_, ?_⟩
      · rw [hG]; exact hs.cnt
      · rw [hneed']; exact hs.n
      · rw [hneed']; exact hs.loc
  · rw [if_neg hA] at h
    rw [if_neg (by omega), h, ub_bind]

theorem locBlock_res {bits : Vec Word} {B A k bb : Nat} {o : Outcome P2} (hB : B + 512 * k = 512 * bb)
    (hl : 512 * (bb + 1) ≤ 64 * bits.len) (hbb : bb < 2 ^ 50) (hk : k < 2 ^ 23)
    (h : Res bits B A (512 * k) o) :
    Res bits B A (512 * (k + 1)) (o >>= locBlock bits bb k) := by
  have hm : mul64 bb 8 = bb * 8 := mul64_eq (by simp only [W64]; omega)
  unfold locBlock
  rw [hm]
  have := forFrom_res (body := fun widx s => forN 64 (fun bit s => locBit bits (bb * 8) k widx bit s) s)
    (fun w o => Res bits B A (512 * k + 64 * w) o) 8 0 0 o (by rw [Nat.mul_zero, Nat.add_zero]; exact h) (by
      intro w o hw hr
      rw [Nat.zero_add] at hr ⊢
      have := forFrom_res (body := fun bit s => locBit bits (bb * 8) k w bit s)
        (fun t o => Res bits B A (512 * k + 64 * w + t) o) 64 0 0 o hr (by
          intro t o ht hr
          rw [Nat.zero_add] at hr ⊢
          exact locBit_res (woff := bb * 8) (r := 512 * k + 64 * w + t) ht (by omega) (by omega) (by omega) (by omega) hr)
      rw [show 512 * k + 64 * w + (0 + 64) = 512 * k + 64 * (w + 1) by omega] at this
      exact this)
  rw [show 512 * k + 64 * (0 + 8) = 512 * (k + 1) by omega] at this
  exact this

theorem locFill_res {bits : Vec Word} {B A nb : Nat} (hl : 512 * nb ≤ 64 * bits.len)
    (hnb : nb < 2 ^ 50) :
    ∀ (f k bb : Nat) (s : P2), bb < nb → B + 512 * k = 512 * bb → k + f ≤ 2 ^ 23 →
    need bits B (512 * k) ≤ A → Scan bits B A (512 * k) s →
    if need bits B (512 * min (k + f) (k + nb - bb)) ≤ A then
      ∃ s', locFill bits nb f k bb s = ok (s', min (bb + f) nb) ∧
        Scan bits B A (512 * min (k + f) (k + nb - bb)) s'
    else locFill bits nb f k bb s = ub .oob
  | 0, k, bb, s, h1, h2, h3, h4, h5 => by
    rw [show min (k + 0) (k + nb - bb) = k by omega, if_pos h4]
    refine ⟨s, ?_, h5⟩
    rw [locFill, show min (bb + 0) nb = bb by omega]
  | f + 1, k, bb, s, h1, h2, h3, h4, h5 => by
    have hr := locBlock_res (bits := bits) (A := A) (o := ok s) h2 (by omega) (by omega) (by omega) (by
      unfold Res; rw [if_pos h4]; exact ⟨s, rfl, h5⟩)
    rw [ok_bind] at hr
    have hmono := need_mono bits B (show 512 * (k + 1) ≤ 512 * min (k + (f + 1)) (k + nb - bb) by omega)
    unfold Res at hr
    rw [locFill]
    by_cases hA : need bits B (512 * (k + 1)) ≤ A
    · rw [if_pos hA] at hr
      obtain ⟨s1, e1, hs1⟩ := hr
      rw [e1, ok_bind]
      by_cases hc : bb + 1 ≥ nb
      · rw [if_pos hc, show min (k + (f + 1)) (k + nb - bb) = k + 1 by omega, if_pos hA]
        refine ⟨s1, ?_, hs1⟩
        rw [show min (bb + (f + 1)) nb = bb + 1 by omega]
      · rw [if_neg hc]
        have := locFill_res hl hnb f (k + 1) (bb + 1) s1 (by omega) (by omega) (by omega) hA hs1
        rw [show min (k + 1 + f) (k + 1 + nb - (bb + 1)) = min (k + (f + 1)) (k + nb - bb) by omega,
          show min (bb + 1 + f) nb = min (bb + (f + 1)) nb by omega] at this
        exact this
    · rw [if_neg hA] at hr
      rw [hr, ub_bind, if_neg (by omega)]

/-- End of superblock `i` in the second pass, relative to its start, in blocks. -/
def F (nbits i : Nat) : Nat := min (2 ^ 23) (blockCount nbits - i * 2 ^ 23)

/-- The entries allocated for superblock `i` suffice. -/
def LocFits (bits : Vec Word) (nbits i : Nat) : Prop :=
  need bits (2 ^ 32 * i) (512 * F nbits i) ≤ alloc bits nbits i

/-- State after `i` rounds of the second pass. -/
structure Inv2 (bits : Vec Word) (nbits i : Nat) (s : S2) : Prop where
  loclen : s.loc.len = 2 ^ 16
  lclen : s.lc.len = 2 ^ 16
  bb : s.bb = min (i * 2 ^ 23) (blockCount nbits)
  lc : ∀ j, j < i → s.lc.f j = need bits (2 ^ 32 * j) (512 * F nbits j)
  rest : ∀ j, i ≤ j → j < l1Count nbits → s.lc.f j = alloc bits nbits j
  len : ∀ j, j < i → (s.loc.f j).len = alloc bits nbits j
  loc : ∀ j t, j < i → t < need bits (2 ^ 32 * j) (512 * F nbits j) →
    LocOK bits (2 ^ 32 * j) t ((s.loc.f j).f t)

theorem pass2_res {bits : Vec Word} {nbits i : Nat} {s : S2} (g3 : Nat → Nat → Nat)
    (h : 2048 ≤ nbits) (hn : nbits < 2 ^ 48) (hb : nbits ≤ 64 * bits.len) (hi : i < l1Count nbits)
    (hs : Inv2 bits nbits i s) :
    (LocFits bits nbits i → ∃ s', pass2 g3 bits (blockCount nbits) i s = ok s' ∧
      Inv2 bits nbits (i + 1) s') ∧
    (¬ LocFits bits nbits i → pass2 g3 bits (blockCount nbits) i s = ub .oob) := by
  have hi16 : i < 2 ^ 16 := by unfold l1Count at hi; omega
  have hbb : i * 2 ^ 23 < blockCount nbits := by unfold l1Count at hi; unfold blockCount; omega
  have hbe : s.bb = i * 2 ^ 23 := by rw [hs.bb]; omega
  have hnb : 512 * blockCount nbits ≤ nbits := by unfold blockCount; omega
  have hn0 : need bits (2 ^ 32 * i) (512 * 0) = 0 := by
    unfold need
    rw [Nat.mul_zero, Nat.add_zero (2 ^ 32 * i), Nat.sub_self]
  have hres := locFill_res (bits := bits) (B := 2 ^ 32 * i) (A := alloc bits nbits i)
    (nb := blockCount nbits) (by omega) (by omega) (2 ^ 23) 0 s.bb
    { arr := ⟨alloc bits nbits i, g3 i⟩, n := 0, cnt := 0 } (by omega) (by omega) (by omega)
    (by rw [hn0]; omega) (by
      refine ⟨rfl, ?_, ?_, ?_⟩
      · show 0 = (G bits (2 ^ 32 * i + 512 * 0) - _) % _
        rw [Nat.mul_zero, Nat.add_zero (2 ^ 32 * i), Nat.sub_self]
      · rw [hn0]
      · rw [hn0]; intro j hj; omega)
  rw [show min (0 + 2 ^ 23) (0 + blockCount nbits - s.bb) = F nbits i by
      rw [hbe]; unfold F; rw [Nat.zero_add, Nat.zero_add]] at hres
  unfold pass2
  rw [Vec.get_ok (by rw [hs.lclen]; exact hi16), ok_bind, hs.rest i (Nat.le_refl _) hi]
  constructor
  · intro hf
    unfold LocFits at hf
    rw [if_pos hf] at hres
    obtain ⟨p, e, hp⟩ := hres
    rw [e, ok_bind]
    simp only []
    rw [Vec.set_ok _ (by rw [hs.loclen]; exact hi16), ok_bind,
      Vec.set_ok _ (by rw [hs.lclen]; exact hi16), ok_bind]
    refine ⟨_, rfl, hs.loclen, hs.lclen, ?_, ?_, ?_, ?_, ?_⟩
    · simp only [hbe]
      rw [Nat.succ_mul]
    · intro j hj
      show (if j = i then p.n else s.lc.f j) = _
      by_cases hji : j = i
      · rw [if_pos hji, hji]; exact hp.n
      · rw [if_neg hji]; exact hs.lc j (by omega)
    · intro j h1 h2
      show (if j = i then p.n else s.lc.f j) = _
      rw [if_neg (by omega)]
      exact hs.rest j (by omega) h2
    · intro j hj
      show (if j = i then p.arr else s.loc.f j).len = _
      by_cases hji : j = i
      · rw [if_pos hji, hji]; exact hp.len
      · rw [if_neg hji]; exact hs.len j (by omega)
    · intro j t hj ht
      show LocOK bits _ t ((if j = i then p.arr else s.loc.f j).f t)
      by_cases hji : j = i
      · subst hji; rw [if_pos rfl]; exact hp.loc t ht
      · rw [if_neg hji]; exact hs.loc j t (by omega) ht
  · intro hf
    unfold LocFits at hf
    rw [if_neg hf] at hres
    rw [hres, ub_bind]

theorem pass2_all {bits : Vec Word} {nbits : Nat} (g3 : Nat → Nat → Nat) {lc : Vec Nat}
    (h : 2048 ≤ nbits) (hn : nbits < 2 ^ 48) (hb : nbits ≤ 64 * bits.len) (hlen : lc.len = 2 ^ 16)
    (hlc : ∀ j, j < l1Count nbits → lc.f j = alloc bits nbits j) :
    ((∀ i, i < l1Count nbits → LocFits bits nbits i) →
      ∃ s, forN (l1Count nbits) (pass2 g3 bits (blockCount nbits))
        { loc := ⟨2 ^ 16, fun _ => ⟨0, fun _ => 0⟩⟩, lc := lc, bb := 0 } = ok s ∧
        Inv2 bits nbits (l1Count nbits) s) ∧
    ((∃ i, i < l1Count nbits ∧ ¬ LocFits bits nbits i) →
      forN (l1Count nbits) (pass2 g3 bits (blockCount nbits))
        { loc := ⟨2 ^ 16, fun _ => ⟨0, fun _ => 0⟩⟩, lc := lc, bb := 0 } = ub .oob) := by
  have key := forFrom_res (body := pass2 g3 bits (blockCount nbits))
    (fun i o => ((∀ j, j < i → LocFits bits nbits j) → ∃ s, o = ok s ∧ Inv2 bits nbits i s) ∧
      ((∃ j, j < i ∧ ¬ LocFits bits nbits j) → o = ub .oob)) (l1Count nbits) 0 0
    (ok { loc := ⟨2 ^ 16, fun _ => ⟨0, fun _ => 0⟩⟩, lc := lc, bb := 0 })
    ⟨fun _ => ⟨_, rfl, rfl, hlen, by show 0 = min (0 * 2 ^ 23) _; omega, fun j hj => by omega,
      fun j _ hj => hlc j hj, fun j hj => by omega, fun j t hj => by omega⟩,
      fun ⟨j, hj, _⟩ => by omega⟩ (by
    intro i o hi hr
    rw [Nat.zero_add] at hr ⊢
    by_cases hall : ∀ j, j < i → LocFits bits nbits j
    · obtain ⟨s, rfl, hs⟩ := hr.1 hall
      rw [ok_bind]
      have hp := pass2_res g3 h hn hb hi hs
      constructor
      · intro hf
        exact hp.1 (hf i (by omega))
      · rintro ⟨j, hj, hnf⟩
        by_cases hji : j = i
        · subst hji; exact hp.2 hnf
        · exact absurd (hall j (by omega)) hnf
    · have hex : ∃ j, j < i ∧ ¬ LocFits bits nbits j := by
        apply Classical.byContradiction
        intro hc
        apply hall
        intro j hj
        apply Classical.byContradiction
        intro hnf
        exact hc ⟨j, hj, hnf⟩
      rw [hr.2 hex, ub_bind]
      constructor
      · intro hf
        exact absurd (fun j hj => hf j (by omega)) hall
      · intro _; rfl)
  rw [Nat.zero_add, ok_bind] at key
  exact key

/-! ## The constructed object -/

/-- What the constructor leaves behind. -/
structure Holds (bits : Vec Word) (nbits : Nat) (o : Obj) : Prop where
  obits : o.bits = bits
  onbits : o.nbits = nbits
  l1len : o.l1.len = l1Count nbits
  l2len : o.l2.len = l2Count nbits
  loclen : o.loc.len = 2 ^ 16
  lclen : o.lc.len = 2 ^ 16
  pCount : o.pCount = acc bits nbits (l1Count nbits)
  l1 : ∀ j, j < l1Count nbits → o.l1.f j = acc bits nbits j
  l2 : ∀ j t, j < l1Count nbits → E nbits j ≤ t → t < E nbits (j + 1) →
    o.l2.f t = entry bits (2048 * E nbits j) t
  lc : ∀ j, j < l1Count nbits → o.lc.f j = need bits (2 ^ 32 * j) (512 * F nbits j)
  llen : ∀ j, j < l1Count nbits → (o.loc.f j).len = alloc bits nbits j
  loc : ∀ j t, j < l1Count nbits → t < need bits (2 ^ 32 * j) (512 * F nbits j) →
    LocOK bits (2 ^ 32 * j) t ((o.loc.f j).f t)

theorem new_ok {bits : Vec Word} {nbits : Nat} (g1 g2 : Nat → Nat) (g3 : Nat → Nat → Nat)
    (h : 2048 ≤ nbits) (hn : nbits < 2 ^ 48) (hb : nbits ≤ 64 * bits.len)
    (hf : ∀ i, i < l1Count nbits → LocFits bits nbits i) :
    ∃ o, new g1 g2 g3 bits nbits = ok o ∧ Holds bits nbits o := by
  obtain ⟨s, e, hs⟩ := pass1_all (bits := bits) g1 g2 h hn hb
  obtain ⟨t, e2, ht⟩ := (pass2_all (bits := bits) g3 h hn hb hs.lclen hs.lc).1 hf
  unfold new
  simp only []
  rw [e, ok_bind, e2, ok_bind]
  exact ⟨_, rfl, rfl, rfl, hs.l1len, hs.l2len, ht.loclen, ht.lclen, hs.pCount, hs.l1, hs.l2, ht.lc,
    ht.len, ht.loc⟩

theorem new_oob {bits : Vec Word} {nbits : Nat} (g1 g2 : Nat → Nat) (g3 : Nat → Nat → Nat)
    (h : 2048 ≤ nbits) (hn : nbits < 2 ^ 48) (hb : nbits ≤ 64 * bits.len)
    (hf : ∃ i, i < l1Count nbits ∧ ¬ LocFits bits nbits i) :
    new g1 g2 g3 bits nbits = ub .oob := by
  obtain ⟨s, e, hs⟩ := pass1_all (bits := bits) g1 g2 h hn hb
  have e2 := (pass2_all (bits := bits) g3 h hn hb hs.lclen hs.lc).2 hf
  unfold new
  simp only []
  rw [e, ok_bind, e2, ub_bind]

theorem new_short (bits : Vec Word) {nbits : Nat} (g1 g2 : Nat → Nat) (g3 : Nat → Nat → Nat)
    (h : nbits < 2048) : new g1 g2 g3 bits nbits = ub .oob := by
  have h1 : l1Count nbits = 1 := by unfold l1Count; omega
  have h2 : l2Count nbits = 0 := by unfold l2Count; omega
  unfold new
  simp only []
  rw [h1, h2]
  have key : ∀ s : S1, s.l1.len = 1 → s.l2.len = 0 → pass1 bits 0 0 s = ub .oob := by
    intro s e1 e2
    unfold pass1
    rw [Vec.set_ok _ (by rw [e1]; omega), ok_bind,
      show (2 ^ 21 : Nat) = 2097151 + 1 by decide, l2Fill]
    unfold l2Entry Vec.set
    rw [if_neg (by show ¬ s.l2Id < s.l2.len; omega)]
    rfl
  unfold forN forFrom
  rw [key _ rfl rfl]
  rfl

end MRS.Poppy
