import Verif.Model.Mranisz.Rank
import Verif.SpecText
import Verif.Proofs.Poppy.Word

/-! # Compressed rank: the text, its words and its blocks -/

set_option autoImplicit false

namespace MRS.Mran
open Outcome Spec Poppy

/-- Byte `k` of the text followed by zeros. -/
def tbyte (t : Vec Byte) (k : Nat) : Byte := if k < t.len then t.f k else 0#8

/-- Bit `p` of the text followed by zeros. -/
def tbit (t : Vec Byte) (p : Nat) : Bool := (tbyte t (p / 8)).getLsbD (7 - p % 8)

/-- Number of ones among the first `p` bits. -/
def T (t : Vec Byte) (p : Nat) : Nat := psum (fun p => (tbit t p).toNat) p

theorem T_zero (t : Vec Byte) : T t 0 = 0 := rfl
theorem T_succ (t : Vec Byte) (p : Nat) : T t (p + 1) = T t p + (tbit t p).toNat := rfl
theorem T_mono (t : Vec Byte) {a b : Nat} (h : a ≤ b) : T t a ≤ T t b := psum_mono _ h

attribute [irreducible] T

theorem T_diff (t : Vec Byte) (a d : Nat) : T t (a + d) ≤ T t a + d := by
  induction d with
  | zero => exact Nat.le_refl _
  | succ d ih =>
    rw [show a + (d + 1) = a + d + 1 by omega, T_succ]
    have : (tbit t (a + d)).toNat ≤ 1 := Bool.toNat_le _
    omega

theorem T_le (t : Vec Byte) (p : Nat) : T t p ≤ p := by
  have := T_diff t 0 p
  rw [T_zero, Nat.zero_add] at this
  exact this

theorem tbit_beyond (t : Vec Byte) {p : Nat} (h : 8 * t.len ≤ p) : tbit t p = false := by
  unfold tbit tbyte
  rw [if_neg (by omega)]
  simp

theorem T_beyond (t : Vec Byte) {p : Nat} (h : 8 * t.len ≤ p) : T t p = T t (8 * t.len) := by
  obtain ⟨d, rfl⟩ := Nat.le.dest h
  induction d with
  | zero => rfl
  | succ d ih =>
    rw [show 8 * t.len + (d + 1) = 8 * t.len + d + 1 by omega, T_succ, ih (by omega),
      tbit_beyond t (by omega)]
    rfl

/-! ## Words -/

/-- The word `x` of the text after `j` of its bytes were added. -/
def wpart (t : Vec Byte) (x : Nat) : Nat → Word
  | 0 => 0#64
  | j + 1 => wpart t x j + (tbyte t (8 * x + j)).setWidth 64 <<< (8 * (8 - j - 1))

/-- Word `x` of the text, first byte most significant. -/
def tword (t : Vec Byte) (x : Nat) : Word := wpart t x 8

theorem shl_bit (b : Byte) {j l : Nat} (hj : j < 8) (hl : l < 64) :
    (b.setWidth 64 <<< (8 * (8 - j - 1))).getLsbD l =
      (decide (8 * (8 - j - 1) ≤ l) && b.getLsbD (l - 8 * (8 - j - 1))) := by
  rw [BitVec.getLsbD_shiftLeft, BitVec.getLsbD_setWidth, decide_eq_true hl,
    decide_eq_true (show l - 8 * (8 - j - 1) < 64 by omega)]
  by_cases h : 8 * (8 - j - 1) ≤ l
  · rw [decide_eq_true h, decide_eq_false (by omega)]; simp
  · rw [decide_eq_false h, decide_eq_true (by omega)]; simp

theorem wpart_bit (t : Vec Byte) (x : Nat) {j : Nat} (hj : j ≤ 8) {l : Nat} (hl : l < 64) :
    (wpart t x j).getLsbD l = (decide (63 - l < 8 * j) && tbit t (64 * x + (63 - l))) := by
  induction j generalizing l with
  | zero => simp [wpart]
  | succ j ih =>
    have key : ∀ l, l < 64 → ((wpart t x j).getLsbD l = true →
        ((tbyte t (8 * x + j)).setWidth 64 <<< (8 * (8 - j - 1)) : Word).getLsbD l = false) := by
      intro l hl h
      rw [ih (by omega) hl] at h
      rw [shl_bit _ (by omega) hl]
      simp only [Bool.and_eq_true, decide_eq_true_eq] at h
      by_cases h1 : 8 * (8 - j - 1) ≤ l
      · rw [BitVec.getLsbD_of_ge _ _ (by omega), Bool.and_false]
      · rw [decide_eq_false h1, Bool.false_and]
    show (wpart t x j + _ : Word).getLsbD l = _
    rw [BitVec.add_eq_or_of_and_eq_zero _ _ (by
      apply BitVec.eq_of_getLsbD_eq
      intro l hl
      rw [BitVec.getLsbD_and]
      cases h : (wpart t x j).getLsbD l
      · simp
      · rw [key l hl h]; simp), BitVec.getLsbD_or, ih (by omega) hl, shl_bit _ (by omega) hl]
    by_cases h1 : 63 - l < 8 * j
    · rw [decide_eq_true h1, decide_eq_true (show 63 - l < 8 * (j + 1) by omega)]
      rw [BitVec.getLsbD_of_ge _ (l - 8 * (8 - j - 1)) (by omega)]
      simp
    · rw [decide_eq_false h1]
      by_cases h2 : 63 - l < 8 * (j + 1)
      · rw [decide_eq_true h2, decide_eq_true (show 8 * (8 - j - 1) ≤ l by omega)]
        unfold tbit
        rw [show (64 * x + (63 - l)) / 8 = 8 * x + j by omega,
          show 7 - (64 * x + (63 - l)) % 8 = l - 8 * (8 - j - 1) by omega]
        simp
      · rw [decide_eq_false h2, decide_eq_false (show ¬ 8 * (8 - j - 1) ≤ l by omega)]
        simp

theorem tword_bit (t : Vec Byte) (x : Nat) {m : Nat} (hm : m < 64) :
    (tword t x).getLsbD (63 - m) = tbit t (64 * x + m) := by
  unfold tword
  rw [wpart_bit t x (Nat.le_refl _) (by omega), decide_eq_true (by omega), Bool.true_and,
    show 63 - (63 - m) = m by omega]

theorem T_word (t : Vec Byte) (x : Nat) {j : Nat} (hj : j ≤ 64) :
    T t (64 * x + j) = T t (64 * x) + mcnt (tword t x) j := by
  induction j with
  | zero => rfl
  | succ j ih =>
    rw [show 64 * x + (j + 1) = 64 * x + j + 1 by omega, T_succ, ih (by omega), mcnt_succ,
      tword_bit t x (by omega)]
    omega

theorem T_word_all (t : Vec Byte) (x : Nat) :
    T t (64 * x) + popcnt (tword t x) = T t (64 * (x + 1)) := by
  have := T_word t x (Nat.le_refl 64)
  rw [mcnt_all, ← popcnt_eq] at this
  rw [show 64 * (x + 1) = 64 * x + 64 by omega]
  exact this.symm

/-! ## Masks -/

theorem masks_table : ∀ k : Fin 64,
    BitVec.ofNat 64 (masksTable.getD k.1 0) = BitVec.allOnes 64 <<< (64 - k.1) := by decide +kernel

theorem maskAt_ok {k : Nat} (h : k < 64) : maskAt k = ok (BitVec.allOnes 64 <<< (64 - k)) := by
  unfold maskAt
  rw [if_pos h, masks_table ⟨k, h⟩]

theorem popcnt_mask (w : Word) {k : Nat} (h : k < 64) :
    popcnt (w &&& BitVec.allOnes 64 <<< (64 - k)) = mcnt w k := by
  rw [popcnt_eq, ← mcnt_all]
  have hb : ∀ m, m < 64 → (w &&& BitVec.allOnes 64 <<< (64 - k)).getLsbD (63 - m) =
      (w.getLsbD (63 - m) && decide (m < k)) := by
    intro m hm
    rw [BitVec.getLsbD_and, BitVec.getLsbD_shiftLeft, BitVec.getLsbD_allOnes]
    congr 1
    rw [decide_eq_true (show 63 - m < 64 by omega), decide_eq_true (show 63 - m - (64 - k) < 64 by omega)]
    by_cases h1 : m < k
    · rw [decide_eq_true h1, decide_eq_false (show ¬ 63 - m < 64 - k by omega)]; rfl
    · rw [decide_eq_false h1, decide_eq_true (show 63 - m < 64 - k by omega)]; rfl
  have h1 : ∀ j, j ≤ k → mcnt (w &&& BitVec.allOnes 64 <<< (64 - k)) j = mcnt w j := by
    intro j
    induction j with
    | zero => intro _; rfl
    | succ j ih =>
      intro hj
      rw [mcnt_succ, mcnt_succ, ih (by omega), hb j (by omega), decide_eq_true (show j < k by omega),
        Bool.and_true]
  have h2 : ∀ d, k + d ≤ 64 → mcnt (w &&& BitVec.allOnes 64 <<< (64 - k)) (k + d) = mcnt w k := by
    intro d
    induction d with
    | zero => intro _; exact h1 k (Nat.le_refl _)
    | succ d ih =>
      intro hd
      rw [← Nat.add_assoc, mcnt_succ, ih (by omega), hb _ (by omega),
        decide_eq_false (by omega), Bool.and_false]
      rfl
  have := h2 (64 - k) (by omega)
  rwa [show k + (64 - k) = 64 by omega] at this

/-! ## Blocks -/

/-- Block `q` lies inside the text and its bytes are all 0 or all 255. -/
def Hom (t : Vec Byte) (q : Nat) : Prop :=
  64 * q + 64 ≤ t.len ∧ ((∀ j, j < 64 → t.f (64 * q + j) = 0#8) ∨ ∀ j, j < 64 → t.f (64 * q + j) = 255#8)

instance (t : Vec Byte) (q : Nat) : Decidable (Hom t q) := by unfold Hom; infer_instance

/-- Number of blocks among the first `q` that are stored. -/
def ne (t : Vec Byte) (q : Nat) : Nat := psum (fun q => if Hom t q then 0 else 1) q

theorem ne_zero (t : Vec Byte) : ne t 0 = 0 := rfl
theorem ne_succ (t : Vec Byte) (q : Nat) : ne t (q + 1) = ne t q + if Hom t q then 0 else 1 := rfl
theorem ne_mono (t : Vec Byte) {a b : Nat} (h : a ≤ b) : ne t a ≤ ne t b := psum_mono _ h
theorem ne_le (t : Vec Byte) (q : Nat) : ne t q ≤ q := by
  induction q with
  | zero => exact Nat.le_refl _
  | succ q ih => rw [ne_succ]; split <;> omega

theorem nblk_eq (t : Vec Byte) : nblk t = (t.len + 63) / 64 := by
  unfold nblk; split <;> omega

theorem Hom.lt {t : Vec Byte} {q : Nat} (h : Hom t q) : q < nblk t := by
  have := h.1; rw [nblk_eq]; omega

theorem tbit_byte {t : Vec Byte} {q c : Nat} (h : 64 * q + 64 ≤ t.len)
    (hc : ∀ j, j < 64 → t.f (64 * q + j) = BitVec.ofNat 8 c) {i : Nat} (hi : i < 512) :
    tbit t (512 * q + i) = (BitVec.ofNat 8 c).getLsbD (7 - (512 * q + i) % 8) := by
  unfold tbit tbyte
  rw [if_pos (by omega), show (512 * q + i) / 8 = 64 * q + i / 8 by omega, hc _ (by omega)]

theorem T_zeros {t : Vec Byte} {q : Nat} (h : 64 * q + 64 ≤ t.len)
    (hc : ∀ j, j < 64 → t.f (64 * q + j) = 0#8) {i : Nat} (hi : i ≤ 512) :
    T t (512 * q + i) = T t (512 * q) := by
  induction i with
  | zero => rfl
  | succ i ih =>
    rw [← Nat.add_assoc, T_succ, ih (by omega), tbit_byte h hc (by omega)]
    simp

theorem T_ones {t : Vec Byte} {q : Nat} (h : 64 * q + 64 ≤ t.len)
    (hc : ∀ j, j < 64 → t.f (64 * q + j) = 255#8) {i : Nat} (hi : i ≤ 512) :
    T t (512 * q + i) = T t (512 * q) + i := by
  induction i with
  | zero => rfl
  | succ i ih =>
    rw [← Nat.add_assoc, T_succ, ih (by omega), tbit_byte h hc (by omega)]
    have : ∀ m : Fin 8, (255#8).getLsbD (7 - m.1) = true := by decide
    rw [this ⟨(512 * q + i) % 8, Nat.mod_lt _ (by decide)⟩]
    show _ + i + 1 = _
    omega

/-- A block whose count is 0 or 512 answers without its words. -/
theorem T_homog {t : Vec Byte} {q i : Nat} (hi : i < 512)
    (h : (T t (512 * q + 512) - T t (512 * q)) % 512 = 0) :
    T t (512 * q + i) = T t (512 * q) + i * ((T t (512 * q + 512) - T t (512 * q)) / 512) := by
  have h1 := T_mono t (show 512 * q ≤ 512 * q + i by omega)
  have h2 := T_mono t (show 512 * q + i ≤ 512 * q + 512 by omega)
  have h3 := T_diff t (512 * q) i
  have h4 := T_diff t (512 * q + i) (512 - i)
  rw [show 512 * q + i + (512 - i) = 512 * q + 512 by omega] at h4
  have h5 := T_diff t (512 * q) 512
  have : T t (512 * q + 512) - T t (512 * q) = 0 ∨ T t (512 * q + 512) - T t (512 * q) = 512 := by omega
  rcases this with h | h
  · rw [h]; omega
  · rw [h]; omega

theorem Hom.count {t : Vec Byte} {q : Nat} (h : Hom t q) :
    (T t (512 * q + 512) - T t (512 * q)) % 512 = 0 := by
  rcases h.2 with hc | hc
  · rw [T_zeros h.1 hc (Nat.le_refl _)]; simp
  · rw [T_ones h.1 hc (Nat.le_refl _)]; simp

/-! ## Reading memory from `new[]` -/

theorem uget_ok {α : Type} {v : Vec (Option α)} {i : Nat} {a : α} (hi : i < v.len) (h : v.f i = some a) :
    uget v i = ok a := by
  unfold uget
  rw [Vec.get_ok hi, ok_bind, h]

theorem uget_none {α : Type} {v : Vec (Option α)} {i : Nat} (h : v.f i = none) :
    ∃ f, uget v i = ub f := by
  unfold uget Vec.get
  split
  · exact ⟨.uninit, by rw [ok_bind, h]⟩
  · exact ⟨.oob, rfl⟩

end MRS.Mran
