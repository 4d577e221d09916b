import Verif.Model.Mranisz.Mpe
import Verif.Proofs.Mranisz.SelQuery

/-! # Compressed rank with pairs left out: bytes, pairs and blocks -/

set_option autoImplicit false

namespace MRS.Mran
open Outcome Spec Poppy

/-! ## Two bytes -/

/-- Ones among the first `r` bits of two bytes. -/
def dcnt (a b : Byte) (r : Nat) : Nat := if r ≤ 8 then bcnt a r else bcnt a 8 + bcnt b (r - 8)

theorem T_dcnt {t : Vec Byte} (k : Nat) {r : Nat} (hr : r ≤ 16) :
    T t (8 * k + r) = T t (8 * k) + dcnt (tbyte t k) (tbyte t (k + 1)) r := by
  unfold dcnt
  split
  · exact T_bcnt k (by assumption)
  · rw [show 8 * k + r = 8 * (k + 1) + (r - 8) by omega, T_bcnt (k + 1) (by omega),
      show 8 * (k + 1) = 8 * k + 8 by omega, T_bcnt k (Nat.le_refl 8), Nat.add_assoc]

theorem bcnt_zero {j : Nat} : bcnt 0#8 j = 0 := by
  induction j with
  | zero => rfl
  | succ j ih => rw [bcnt_succ, ih]; simp

theorem bcnt_ones {j : Nat} (hj : j ≤ 8) : bcnt 255#8 j = j := by
  induction j with
  | zero => rfl
  | succ j ih =>
    have : ∀ m : Fin 8, (255#8).getLsbD (7 - m.1) = true := by decide
    rw [bcnt_succ, ih (by omega), this ⟨j, by omega⟩]; rfl

theorem dcnt_zero {r : Nat} : dcnt 0#8 0#8 r = 0 := by
  unfold dcnt; split <;> simp [bcnt_zero]

theorem dcnt_ones {r : Nat} (hr : r ≤ 16) : dcnt 255#8 255#8 r = r := by
  unfold dcnt
  split
  · exact bcnt_ones (by assumption)
  · rw [bcnt_ones (by omega), bcnt_ones (by omega)]; omega

/-! ## Pairs -/

/-- Pair `p` of the bytes `c` is FF FF. -/
def fp (c : Nat → Byte) (p : Nat) : Bool := c (2 * p) == 255#8 && c (2 * p + 1) == 255#8

/-- Pair `p` is 00 00. -/
def zp (c : Nat → Byte) (p : Nat) : Bool := c (2 * p) == 0#8 && c (2 * p + 1) == 0#8

/-- Pair `p` is left out of a block of kind `k`. -/
def dp (k : Nat) (c : Nat → Byte) (p : Nat) : Bool := k != 0 && dropped k (c (2 * p)) (c (2 * p + 1))

/-- Number of pairs kept among the first `p`. -/
def kp (k : Nat) (c : Nat → Byte) (p : Nat) : Nat := psum (fun p => if dp k c p then 0 else 1) p

/-- Number of pairs FF FF left out among the first `p`. -/
def df (k : Nat) (c : Nat → Byte) (p : Nat) : Nat := psum (fun p => if dp k c p && fp c p then 1 else 0) p

theorem kp_succ (k : Nat) (c : Nat → Byte) (p : Nat) : kp k c (p + 1) = kp k c p + if dp k c p then 0 else 1 := rfl
theorem df_succ (k : Nat) (c : Nat → Byte) (p : Nat) :
    df k c (p + 1) = df k c p + if dp k c p && fp c p then 1 else 0 := rfl
theorem kp_mono (k : Nat) (c : Nat → Byte) {a b : Nat} (h : a ≤ b) : kp k c a ≤ kp k c b := psum_mono _ h
theorem kp_le (k : Nat) (c : Nat → Byte) (p : Nat) : kp k c p ≤ p := by
  induction p with
  | zero => exact Nat.le_refl _
  | succ p ih => rw [kp_succ]; split <;> omega

theorem kp_zero {c : Nat → Byte} (p : Nat) : kp 0 c p = p := by
  induction p with
  | zero => rfl
  | succ p ih => rw [kp_succ, ih]; rfl

theorem df_zero {c : Nat → Byte} (p : Nat) : df 0 c p = 0 := by
  induction p with
  | zero => rfl
  | succ p ih => rw [df_succ, ih]; rfl

theorem dp_cases {k : Nat} {c : Nat → Byte} {p : Nat} (h : dp k c p = true) :
    (fp c p = true ∧ c (2 * p) = 255#8 ∧ c (2 * p + 1) = 255#8) ∨
      (fp c p = false ∧ c (2 * p) = 0#8 ∧ c (2 * p + 1) = 0#8) := by
  unfold dp dropped at h
  unfold fp
  simp only [Bool.and_eq_true] at h
  by_cases h1 : c (2 * p) = 255#8 ∧ c (2 * p + 1) = 255#8
  · left; exact ⟨by rw [h1.1, h1.2]; rfl, h1⟩
  · have hf : (c (2 * p) == 255#8 && c (2 * p + 1) == 255#8) = false := by
      rw [← Bool.not_eq_true, Bool.and_eq_true, beq_iff_eq, beq_iff_eq]; exact h1
    have hz : (c (2 * p) == 0#8 && c (2 * p + 1) == 0#8) = true := by
      have := h.2
      rw [hf] at this
      split at this
      · simpa using this
      · split at this
        · exact this
        · exact absurd this (by simp)
    rw [Bool.and_eq_true, beq_iff_eq, beq_iff_eq] at hz
    exact Or.inr ⟨hf, hz⟩

/-- A position of a block and the position of the bytes kept of it. -/
theorem T_pairs {t u : Vec Byte} {B k n : Nat}
    (hu : ∀ p, p < n → dp k (fun j => tbyte t (B + j)) p = false → ∀ b, b < 2 →
      tbyte u (2 * kp k (fun j => tbyte t (B + j)) p + b) = tbyte t (B + (2 * p + b))) :
    ∀ p, p ≤ n → T t (8 * B + 16 * p) = T t (8 * B) + 16 * df k (fun j => tbyte t (B + j)) p +
      T u (16 * kp k (fun j => tbyte t (B + j)) p) := by
  intro p
  induction p with
  | zero => intro _; show T t (8 * B) = T t (8 * B) + 0 + T u 0; rw [T_zero]; rfl
  | succ p ih =>
    intro hp
    have h1 := T_dcnt (t := t) (B + 2 * p) (Nat.le_refl 16)
    rw [show 8 * (B + 2 * p) + 16 = 8 * B + 16 * (p + 1) by omega,
      show 8 * (B + 2 * p) = 8 * B + 16 * p by omega, ih (by omega)] at h1
    rw [h1, kp_succ, df_succ]
    cases hdM : dp k (fun j => tbyte t (B + j)) p
    · have e0 := hu p (by omega) hdM 0 (by omega)
      have e1 := hu p (by omega) hdM 1 (by omega)
      have h2 := T_dcnt (t := u) (2 * kp k (fun j => tbyte t (B + j)) p) (Nat.le_refl 16)
      simp only [Nat.add_zero] at e0
      rw [e0, e1] at h2
      simp only [Bool.false_eq_true, if_false, Bool.false_and, Nat.add_zero]
      rw [show 16 * (kp k (fun j => tbyte t (B + j)) p + 1) = 8 * (2 * kp k (fun j => tbyte t (B + j)) p) + 16 by omega, h2,
        show 8 * (2 * kp k (fun j => tbyte t (B + j)) p) = 16 * kp k (fun j => tbyte t (B + j)) p by omega]
      rw [show B + 2 * p + 1 = B + (2 * p + 1) by omega]
      omega
    · simp only [Bool.true_and, if_true, Nat.add_zero]
      rcases dp_cases hdM with ⟨h3, h4, h5⟩ | ⟨h3, h4, h5⟩
      · rw [h3, if_pos rfl, h4, show B + 2 * p + 1 = B + (2 * p + 1) by omega, h5, dcnt_ones (Nat.le_refl _)]
        omega
      · rw [h3, if_neg (by simp), h4, show B + 2 * p + 1 = B + (2 * p + 1) by omega, h5, dcnt_zero]
        omega

theorem T_inPair {t u : Vec Byte} {B k n : Nat}
    (hu : ∀ p, p < n → dp k (fun j => tbyte t (B + j)) p = false → ∀ b, b < 2 →
      tbyte u (2 * kp k (fun j => tbyte t (B + j)) p + b) = tbyte t (B + (2 * p + b))) {p r : Nat} (hp : p < n)
    (hr : r < 16) :
    T t (8 * B + 16 * p + r) = T t (8 * B) + 16 * df k (fun j => tbyte t (B + j)) p +
      (if dp k (fun j => tbyte t (B + j)) p && fp (fun j => tbyte t (B + j)) p then r else 0) +
      T u (16 * kp k (fun j => tbyte t (B + j)) p + if dp k (fun j => tbyte t (B + j)) p then 0 else r) := by
  have h0 := T_pairs hu p (by omega)
  have h1 := T_dcnt (t := t) (B + 2 * p) (show r ≤ 16 by omega)
  rw [show 8 * (B + 2 * p) + r = 8 * B + 16 * p + r by omega,
    show 8 * (B + 2 * p) = 8 * B + 16 * p by omega, h0] at h1
  rw [h1]
  cases hdM : dp k (fun j => tbyte t (B + j)) p
  · have e0 := hu p (by omega) hdM 0 (by omega)
    have e1 := hu p (by omega) hdM 1 (by omega)
    have h2 := T_dcnt (t := u) (2 * kp k (fun j => tbyte t (B + j)) p) (show r ≤ 16 by omega)
    simp only [Nat.add_zero] at e0
    rw [e0, e1, show 8 * (2 * kp k (fun j => tbyte t (B + j)) p) = 16 * kp k (fun j => tbyte t (B + j)) p by omega] at h2
    simp only [Bool.false_eq_true, if_false, Bool.false_and, Nat.add_zero]
    rw [h2, show B + 2 * p + 1 = B + (2 * p + 1) by omega]
    omega
  · simp only [Bool.true_and, if_true, Nat.add_zero]
    rcases dp_cases hdM with ⟨h3, h4, h5⟩ | ⟨h3, h4, h5⟩
    · rw [h3, if_pos rfl, h4, show B + 2 * p + 1 = B + (2 * p + 1) by omega, h5, dcnt_ones (by omega)]
      omega
    · rw [h3, if_neg (by simp), h4, show B + 2 * p + 1 = B + (2 * p + 1) by omega, h5, dcnt_zero]
      omega

/-! ## Words of marks -/

/-- One bit for each pair with `E`, the first pair most significant. -/
def pw (E : Nat → Bool) : Nat → Word
  | 0 => 0#64
  | p + 1 => if E p then pw E p + 1#64 <<< (63 - p) else pw E p

theorem pw_bit (E : Nat → Bool) {j : Nat} (hj : j ≤ 64) {l : Nat} (hl : l < 64) :
    (pw E j).getLsbD l = (decide (63 - l < j) && E (63 - l)) := by
  induction j generalizing l with
  | zero => simp [pw]
  | succ j ih =>
    unfold pw
    have h1 : ∀ l, l < 64 → (1#64 <<< (63 - j) : Word).getLsbD l = decide (63 - j = l) := by
      intro l hl
      rw [← BitVec.twoPow_eq, BitVec.getLsbD_twoPow, decide_eq_true (show 63 - j < 64 by omega), Bool.true_and]
    cases hE : E j
    · simp only [Bool.false_eq_true, if_false]
      rw [ih (by omega) hl]
      by_cases h1 : 63 - l = j
      · rw [h1, hE]; simp
      · congr 2
        apply propext; omega
    · simp only [if_true]
      rw [BitVec.add_eq_or_of_and_eq_zero _ _ (by
        apply BitVec.eq_of_getLsbD_eq
        intro l hl
        rw [BitVec.getLsbD_and, ih (by omega) hl, h1 l hl]
        by_cases h1 : 63 - l < j
        · rw [decide_eq_false (show ¬ 63 - j = l by omega)]; simp
        · rw [decide_eq_false h1]; simp), BitVec.getLsbD_or, ih (by omega) hl, h1 l hl]
      by_cases h2 : 63 - l = j
      · rw [h2, hE, decide_eq_true (show 63 - j = l by omega), decide_eq_true (show j < j + 1 by omega)]
        simp
      · rw [decide_eq_false (show ¬ 63 - j = l by omega), Bool.or_false]
        congr 2
        apply propext; omega

theorem pw_count (E : Nat → Bool) {n : Nat} (hn : n ≤ 64) :
    mcnt (pw E 64) n = psum (fun j => if E j then 1 else 0) n := by
  induction n with
  | zero => rfl
  | succ n ih =>
    rw [mcnt_succ, ih (by omega), pw_bit E (by omega) (by omega),
      decide_eq_true (show 63 - (63 - n) < 64 by omega), show 63 - (63 - n) = n by omega]
    show _ = psum _ n + if E n = true then 1 else 0
    cases E n <;> rfl

theorem leWord_bytes (w : Word) : leWord (fun k => (w >>> (8 * k)).setWidth 8) 8 = w := by
  apply BitVec.eq_of_getLsbD_eq
  intro j hj
  rw [leWord_bit _ (Nat.le_refl 8) hj, decide_eq_true (show j < 8 * 8 by omega), Bool.true_and,
    BitVec.getLsbD_setWidth, decide_eq_true (show j % 8 < 8 by omega), Bool.true_and,
    BitVec.getLsbD_ushiftRight, show 8 * (j / 8) + j % 8 = j by omega]

/-! ## Blocks -/

/-- Block `q` of 128 bytes lies inside the text and its bytes are all 0 or all 255. -/
def HomM (t : Vec Byte) (q : Nat) : Prop :=
  128 * q + 128 ≤ t.len ∧ ((∀ j, j < 128 → t.f (128 * q + j) = 0#8) ∨ ∀ j, j < 128 → t.f (128 * q + j) = 255#8)

instance (t : Vec Byte) (q : Nat) : Decidable (HomM t q) := by unfold HomM; infer_instance

/-- Number of blocks among the first `q` that are stored. -/
def neM (t : Vec Byte) (q : Nat) : Nat := psum (fun q => if HomM t q then 0 else 1) q

theorem neM_zero (t : Vec Byte) : neM t 0 = 0 := rfl
theorem neM_succ (t : Vec Byte) (q : Nat) : neM t (q + 1) = neM t q + if HomM t q then 0 else 1 := rfl
theorem neM_mono (t : Vec Byte) {a b : Nat} (h : a ≤ b) : neM t a ≤ neM t b := psum_mono _ h
theorem neM_le (t : Vec Byte) (q : Nat) : neM t q ≤ q := by
  induction q with
  | zero => exact Nat.le_refl _
  | succ q ih => rw [neM_succ]; split <;> omega

theorem nblkM_eq (t : Vec Byte) : nblkM t = (t.len + 127) / 128 := by
  unfold nblkM; split <;> omega

theorem nblkM_le (t : Vec Byte) : 128 * nblkM t ≤ t.len + 127 := by rw [nblkM_eq]; omega

theorem nblkM_ge (t : Vec Byte) : t.len ≤ 128 * nblkM t := by rw [nblkM_eq]; omega

/-- The bytes of block `q`. -/
def blk (t : Vec Byte) (q : Nat) : Nat → Byte := fun j => tbyte t (128 * q + j)

theorem T_run0 {t : Vec Byte} {B n : Nat} (h : ∀ j, j < n → tbyte t (B + j) = 0#8) {i : Nat} (hi : i ≤ 8 * n) :
    T t (8 * B + i) = T t (8 * B) := by
  induction i with
  | zero => rfl
  | succ i ih =>
    rw [← Nat.add_assoc, T_succ, ih (by omega)]
    unfold tbit
    rw [show (8 * B + i) / 8 = B + i / 8 by omega, h _ (by omega)]
    simp

theorem T_run1 {t : Vec Byte} {B n : Nat} (h : ∀ j, j < n → tbyte t (B + j) = 255#8) {i : Nat} (hi : i ≤ 8 * n) :
    T t (8 * B + i) = T t (8 * B) + i := by
  induction i with
  | zero => rfl
  | succ i ih =>
    rw [← Nat.add_assoc, T_succ, ih (by omega)]
    unfold tbit
    rw [show (8 * B + i) / 8 = B + i / 8 by omega, h _ (by omega)]
    have : ∀ m : Fin 8, (255#8).getLsbD (7 - m.1) = true := by decide
    rw [this ⟨(8 * B + i) % 8, Nat.mod_lt _ (by decide)⟩]
    show _ + i + 1 = _
    omega

theorem HomM.bytes {t : Vec Byte} {q : Nat} (h : HomM t q) :
    (∀ j, j < 128 → tbyte t (128 * q + j) = 0#8) ∨ ∀ j, j < 128 → tbyte t (128 * q + j) = 255#8 := by
  have h1 := h.1
  refine h.2.imp (fun hc j hj => ?_) (fun hc j hj => ?_) <;>
  · unfold tbyte
    rw [if_pos (by omega), hc j hj]

theorem HomM.rank {t : Vec Byte} {q : Nat} (h : HomM t q) :
    T t (1024 * (q + 1)) = T t (1024 * q) + if (t.f (128 * q)).toNat = 255 then 1024 else 0 := by
  have h1 := h.1
  rw [show 1024 * (q + 1) = 8 * (128 * q) + 1024 by omega, show 1024 * q = 8 * (128 * q) by omega]
  rcases h.2 with hc | hc
  · rw [T_run0 (h.bytes.resolve_right (fun hb => by
      have e1 := hb 0 (by omega)
      have e2 := hc 0 (by omega)
      unfold tbyte at e1
      rw [if_pos (by omega), e2] at e1
      exact absurd e1 (by decide))) (Nat.le_refl _)]
    have := hc 0 (by omega)
    rw [Nat.add_zero] at this
    rw [this]; rfl
  · rw [T_run1 (h.bytes.resolve_left (fun hb => by
      have e1 := hb 0 (by omega)
      have e2 := hc 0 (by omega)
      unfold tbyte at e1
      rw [if_pos (by omega), e2] at e1
      exact absurd e1 (by decide))) (Nat.le_refl _)]
    have := hc 0 (by omega)
    rw [Nat.add_zero] at this
    rw [this]; rfl

/-- A block whose count is 0 or 1024 answers without its bytes. -/
theorem T_homogM {t : Vec Byte} {q i : Nat} (hi : i < 1024)
    (h : (T t (1024 * q + 1024) - T t (1024 * q)) % 1024 = 0) :
    T t (1024 * q + i) = T t (1024 * q) + i * ((T t (1024 * q + 1024) - T t (1024 * q)) / 1024) := by
  have h1 := T_mono t (show 1024 * q ≤ 1024 * q + i by omega)
  have h2 := T_mono t (show 1024 * q + i ≤ 1024 * q + 1024 by omega)
  have h3 := T_diff t (1024 * q) i
  have h4 := T_diff t (1024 * q + i) (1024 - i)
  rw [show 1024 * q + i + (1024 - i) = 1024 * q + 1024 by omega] at h4
  have h5 := T_diff t (1024 * q) 1024
  have : T t (1024 * q + 1024) - T t (1024 * q) = 0 ∨ T t (1024 * q + 1024) - T t (1024 * q) = 1024 := by omega
  rcases this with h | h
  · rw [h]; omega
  · rw [h]; omega

theorem HomM.count {t : Vec Byte} {q : Nat} (h : HomM t q) :
    (T t (1024 * q + 1024) - T t (1024 * q)) % 1024 = 0 := by
  have := h.rank
  rw [show 1024 * (q + 1) = 1024 * q + 1024 by omega] at this
  rw [this]
  split <;> simp

/-- The step common to the queries: a block whose count is a multiple of 1024 needs no bytes. -/
theorem coreM {t : Vec Byte} {q i : Nat} (hlen : t.len < 2 ^ 60) (hq : q < nblkM t) (hi : i < 1024)
    {k : Outcome Nat} (hk : ¬ HomM t q → k = ok (T t (1024 * q + i))) :
    (if sub64 (T t (1024 * (q + 1))) (T t (1024 * q)) &&& 1023 = 0 then
      ok (T t (1024 * q) + i * (sub64 (T t (1024 * (q + 1))) (T t (1024 * q)) >>> 10)) else k) =
      ok (T t (1024 * q + i)) := by
  have h1 := T_le t (1024 * (q + 1))
  have h2 := nblkM_le t
  rw [sub64_eq (T_mono t (by omega)) (by simp only [W64]; omega)]
  rw [show (1023 : Nat) = 2 ^ 10 - 1 by rfl, Nat.and_two_pow_sub_one_eq_mod, Nat.shiftRight_eq_div_pow]
  rw [show 1024 * (q + 1) = 1024 * q + 1024 by omega]
  split
  · rename_i h
    rw [T_homogM hi h]
  · rename_i h
    exact hk (fun hh => h hh.count)

/-! ## How blocks are stored -/

/-- Number of pairs 00 00 and FF FF among the first `p`. -/
def zc (c : Nat → Byte) (p : Nat) : Nat := psum (fun p => if zp c p then 1 else 0) p
def fc (c : Nat → Byte) (p : Nat) : Nat := psum (fun p => if fp c p then 1 else 0) p

/-- How block `q` is stored. -/
def kd (ty : MpeType) (t : Vec Byte) (q : Nat) : Nat :=
  kindOf ty (zc (blk t q) 64) (fc (blk t q) 64) (zc (blk t q) 64 + fc (blk t q) 64)

/-- Bytes in front of a stored block. -/
def hdM (k : Nat) : Nat := if k = 3 then 16 else if k = 0 then 0 else 8

/-- Bytes of a stored block. -/
def sl (ty : MpeType) (t : Vec Byte) (q : Nat) : Nat := hdM (kd ty t q) + 2 * kp (kd ty t q) (blk t q) 64

/-- Where block `q` is stored. -/
def eo (ty : MpeType) (t : Vec Byte) (q : Nat) : Nat := psum (fun q => if HomM t q then 0 else sl ty t q) q

theorem eo_succ (ty : MpeType) (t : Vec Byte) (q : Nat) :
    eo ty t (q + 1) = eo ty t q + if HomM t q then 0 else sl ty t q := rfl
theorem eo_mono (ty : MpeType) (t : Vec Byte) {a b : Nat} (h : a ≤ b) : eo ty t a ≤ eo ty t b := psum_mono _ h

theorem kindOf_lt (ty : MpeType) (z f n : Nat) : kindOf ty z f n < 4 := by
  cases ty <;> simp only [kindOf] <;> (repeat' split) <;> omega

theorem kd_lt (ty : MpeType) (t : Vec Byte) (q : Nat) : kd ty t q < 4 := kindOf_lt _ _ _ _

theorem kd_mpe1 (t : Vec Byte) (q : Nat) : kd .mpe1 t q = 0 ∨ kd .mpe1 t q = 3 := by
  unfold kd kindOf
  simp only []
  split
  · exact Or.inr rfl
  · exact Or.inl rfl

/-- Pairs kept and pairs left out. -/
theorem kp_counts (c : Nat → Byte) (p : Nat) : kp 3 c p + (zc c p + fc c p) = p ∧ kp 1 c p + zc c p = p ∧
    kp 2 c p + fc c p = p := by
  induction p with
  | zero => exact ⟨rfl, rfl, rfl⟩
  | succ p ih =>
    have hz : zc c (p + 1) = zc c p + if zp c p then 1 else 0 := rfl
    have hf : fc c (p + 1) = fc c p + if fp c p then 1 else 0 := rfl
    have hx : ¬ (zp c p = true ∧ fp c p = true) := by
      unfold zp fp
      simp only [Bool.and_eq_true, beq_iff_eq]
      intro h
      have := h.1.1.symm.trans h.2.1
      exact absurd this (by decide)
    have d3 : dp 3 c p = (zp c p || fp c p) := rfl
    have d1 : dp 1 c p = zp c p := rfl
    have d2 : dp 2 c p = fp c p := rfl
    rw [kp_succ, kp_succ, kp_succ, hz, hf, d1, d2, d3]
    cases h1 : zp c p <;> cases h2 : fp c p
    · simp; omega
    · simp; omega
    · simp; omega
    · exact absurd ⟨h1, h2⟩ hx

theorem counts_le (c : Nat → Byte) (p : Nat) : zc c p + fc c p ≤ p := by have := (kp_counts c p).1; omega

/-- A stored block takes between 8 and 128 bytes. -/
theorem sl_bounds (ty : MpeType) (t : Vec Byte) (q : Nat) : 8 ≤ sl ty t q ∧ sl ty t q ≤ 128 := by
  obtain ⟨h3, h1, h2⟩ := kp_counts (blk t q) 64
  have h0 := kp_zero (c := blk t q) 64
  unfold sl kd
  generalize zc (blk t q) 64 = z at *
  generalize fc (blk t q) 64 = f at *
  generalize hk : kindOf ty z f (z + f) = k
  have : (k = 0) ∨ (k = 3 ∧ z + f > 8) ∨ (k = 1 ∧ z > 4) ∨ (k = 2 ∧ f > 4) := by
    rw [← hk]
    cases ty <;> simp only [kindOf] <;> (repeat' split) <;> omega
  rcases this with rfl | ⟨rfl, h⟩ | ⟨rfl, h⟩ | ⟨rfl, h⟩
  · rw [h0]; decide
  · rw [show hdM 3 = 16 from rfl]; omega
  · rw [show hdM 1 = 8 from rfl]; omega
  · rw [show hdM 2 = 8 from rfl]; omega

theorem eo_diff (ty : MpeType) (t : Vec Byte) (a d : Nat) : eo ty t (a + d) ≤ eo ty t a + 128 * d := by
  induction d with
  | zero => exact Nat.le_refl _
  | succ d ih =>
    rw [← Nat.add_assoc, eo_succ]
    have := sl_bounds ty t (a + d)
    split <;> omega

theorem eo_le (ty : MpeType) (t : Vec Byte) (q : Nat) : eo ty t q ≤ 128 * q := by
  have := eo_diff ty t 0 q
  rw [Nat.zero_add] at this
  exact Nat.le_trans this (by show 0 + _ ≤ _; omega)

end MRS.Mran
