import Verif.Model.Mranisz.SelMpe
import Verif.Proofs.Mranisz.MpeEncode
import Verif.Proofs.Mranisz.SelBch

/-! # Compressed select with pairs left out: bytes, kinds and sizes of blocks -/

set_option autoImplicit false

namespace MRS.Mran
open Outcome Spec Poppy

variable {ty : MpeType} {t : Vec Byte} {L TH : Nat}

/-! ## Tables of marks -/

/-- The first `x` marks of byte `j`. -/
def mrk (E : Nat → Bool) (j : Nat) : Nat → Byte
  | 0 => 0#8
  | x + 1 => if E (8 * j + x) then mrk E j x + 1#8 <<< (7 - x) else mrk E j x

/-- Byte `j` of a table of marks. -/
def tbl (E : Nat → Bool) (j : Nat) : Byte := mrk E j 8

theorem mrk_bit (E : Nat → Bool) (j : Nat) {x : Nat} (hx : x ≤ 8) : ∀ {z : Nat}, z < 8 →
    (mrk E j x).getLsbD (7 - z) = (decide (z < x) && E (8 * j + z)) := by
  induction x with
  | zero => intro z _; simp [mrk]
  | succ x ih =>
    intro z hz
    unfold mrk
    cases hb : E (8 * j + x)
    · rw [if_neg (by simp), ih (by omega) hz]
      by_cases hzx : z = x
      · rw [hzx, hb]; simp
      · rw [show decide (z < x + 1) = decide (z < x) by rw [decide_eq_decide]; omega]
    · rw [if_pos rfl]
      have hdis : mrk E j x &&& 1#8 <<< (7 - x) = 0#8 := by
        apply BitVec.eq_of_getLsbD_eq
        intro l hl
        rw [BitVec.getLsbD_and]
        have h1 := shl_table ⟨x, by omega⟩ ⟨7 - l, by omega⟩
        have h2 := ih (by omega) (show 7 - l < 8 by omega)
        simp only [] at h1
        rw [show 7 - (7 - l) = l by omega] at h1 h2
        rw [h1, h2]
        by_cases hlx : x = 7 - l
        · rw [decide_eq_false (show ¬ 7 - l < x by omega)]; simp
        · rw [decide_eq_false (show ¬ (⟨x, by omega⟩ : Fin 8) = ⟨7 - l, by omega⟩ by
            intro hh; exact hlx (congrArg Fin.val hh)), Bool.and_false]; simp
      rw [BitVec.add_eq_or_of_and_eq_zero _ _ hdis, BitVec.getLsbD_or, ih (by omega) hz,
        shl_table ⟨x, by omega⟩ ⟨z, hz⟩]
      by_cases hzx : z = x
      · subst hzx; rw [hb]; simp
      · rw [decide_eq_false (show ¬ (⟨x, _⟩ : Fin 8) = ⟨z, hz⟩ by
          intro hh; exact hzx (congrArg Fin.val hh).symm), Bool.or_false,
          show decide (z < x + 1) = decide (z < x) by rw [decide_eq_decide]; omega]

theorem tbl_bit (E : Nat → Bool) (p : Nat) : (tbl E (p / 8)).getLsbD (7 - p % 8) = E p := by
  unfold tbl
  rw [mrk_bit E _ (Nat.le_refl 8) (Nat.mod_lt _ (by decide)), decide_eq_true (Nat.mod_lt _ (by decide)), Bool.true_and,
    show 8 * (p / 8) + p % 8 = p by omega]

theorem tbl_ext {E : Nat → Bool} {j : Nat} {b : Byte} (h : ∀ z, z < 8 → b.getLsbD (7 - z) = E (8 * j + z)) : b = tbl E j := by
  apply BitVec.eq_of_getLsbD_eq
  intro l hl
  have h1 := h (7 - l) (by omega)
  have h2 := mrk_bit E j (Nat.le_refl 8) (show 7 - l < 8 by omega)
  rw [show 7 - (7 - l) = l by omega] at h1 h2
  unfold tbl
  rw [h1, h2, decide_eq_true (by omega), Bool.true_and]

theorem tbl_congr {E E' : Nat → Bool} {j : Nat} (h : ∀ z, z < 8 → E (8 * j + z) = E' (8 * j + z)) : tbl E j = tbl E' j := by
  refine tbl_ext (fun z hz => ?_)
  have := tbl_bit E (8 * j + z)
  rw [show (8 * j + z) / 8 = j by omega, show (8 * j + z) % 8 = z by omega] at this
  rw [this, h z hz]

/-- Marks of the pairs before `p`. -/
def bef (p : Nat) (E : Nat → Bool) : Nat → Bool := fun q => decide (q < p) && E q

theorem tbl_none (E : Nat → Bool) (j : Nat) : tbl (bef 0 E) j = 0#8 := by
  refine (tbl_ext (fun z _ => ?_)).symm
  unfold bef
  simp

theorem tbl_mark {E : Nat → Bool} {p : Nat} (h : E p = true) :
    tbl (bef p E) (p / 8) + 1#8 <<< (7 - p % 8) = tbl (bef (p + 1) E) (p / 8) := by
  have hb : ∀ z, z < 8 → (tbl (bef p E) (p / 8)).getLsbD (7 - z) = bef p E (8 * (p / 8) + z) := by
    intro z hz
    have := tbl_bit (bef p E) (8 * (p / 8) + z)
    rwa [show (8 * (p / 8) + z) / 8 = p / 8 by omega, show (8 * (p / 8) + z) % 8 = z by omega] at this
  have hs : ∀ z, z < 8 → (1#8 <<< (7 - p % 8)).getLsbD (7 - z) = decide (p % 8 = z) := by
    intro z hz
    rw [shl_table ⟨p % 8, Nat.mod_lt _ (by decide)⟩ ⟨z, hz⟩, decide_eq_decide]
    exact ⟨fun h => congrArg Fin.val h, fun h => Fin.ext h⟩
  refine tbl_ext (fun z hz => ?_)
  rw [BitVec.add_eq_or_of_and_eq_zero, BitVec.getLsbD_or, hb z hz, hs z hz]
  · unfold bef
    by_cases hpz : p % 8 = z
    · rw [show 8 * (p / 8) + z = p by omega, h]; simp [hpz]
    · rw [decide_eq_false hpz, Bool.or_false]
      congr 1
      rw [decide_eq_decide]; omega
  · apply BitVec.eq_of_getLsbD_eq
    intro l hl
    have h1 := hb (7 - l) (by omega)
    have h2 := hs (7 - l) (by omega)
    rw [show 7 - (7 - l) = l by omega] at h1 h2
    rw [BitVec.getLsbD_and, h1, h2]
    unfold bef
    by_cases hpz : p % 8 = 7 - l
    · rw [decide_eq_false (show ¬ 8 * (p / 8) + (7 - l) < p by omega)]; simp
    · rw [decide_eq_false hpz, Bool.and_false]; simp

theorem tbl_same {E : Nat → Bool} {p j : Nat} (h : j ≠ p / 8 ∨ E p = false) :
    tbl (bef (p + 1) E) j = tbl (bef p E) j := by
  refine tbl_congr (fun z hz => ?_)
  unfold bef
  by_cases hp : 8 * j + z = p
  · have : E p = false := h.resolve_left (fun hj => hj (by omega))
    rw [hp, this]; simp
  · congr 1
    rw [decide_eq_decide]; omega

/-! ## Blocks -/

/-- Byte `y` of block `m`. -/
def bb (t : Vec Byte) (L m y : Nat) : Byte := bacc t (en t L m + 8 * y) (min 8 (sb t L m - 8 * y))

/-- Bytes of block `m`. -/
def nby (t : Vec Byte) (L m : Nat) : Nat := (sb t L m + 7) / 8

/-- Bytes of a table of marks of block `m`. -/
def tbs (t : Vec Byte) (L m : Nat) : Nat := (bl t L m - 1) / 128 + 1

/-- Bits of block `m` are stored. -/
def Dense (t : Vec Byte) (L TH m : Nat) : Prop := sparse t L TH m = false ∧ mono t L TH m = false

instance (t : Vec Byte) (L TH m : Nat) : Decidable (Dense t L TH m) := by unfold Dense; infer_instance

/-- How block `m` is stored. -/
def ks (ty : MpeType) (t : Vec Byte) (L TH m : Nat) : Nat :=
  if m + 1 < nbk t L ∧ Dense t L TH m then
    kindS ty (zc (bb t L m) (nby t L m / 2)) (fc (bb t L m) (nby t L m / 2))
      (zc (bb t L m) (nby t L m / 2) + fc (bb t L m) (nby t L m / 2)) (tbs t L m)
  else 0

/-- Bytes in front of a block of kind `k` with tables of `b` bytes. -/
def hdS (k b : Nat) : Nat := if k = 3 then 2 * b else if k = 0 then 0 else b

/-- Bytes that block `m` takes. -/
def wdS (ty : MpeType) (t : Vec Byte) (L TH m : Nat) : Nat :=
  if ks ty t L TH m = 0 then wd t L TH m
  else hdS (ks ty t L TH m) (tbs t L m) + 2 * kp (ks ty t L TH m) (bb t L m) (nby t L m / 2) + nby t L m % 2

/-- Where they start. -/
def offS (ty : MpeType) (t : Vec Byte) (L TH m : Nat) : Nat := psum (wdS ty t L TH) m

theorem offS_succ (m : Nat) : offS ty t L TH (m + 1) = offS ty t L TH m + wdS ty t L TH m := rfl
theorem offS_mono {a b : Nat} (h : a ≤ b) : offS ty t L TH a ≤ offS ty t L TH b := psum_mono _ h

theorem kindS_lt (ty : MpeType) (z f n b : Nat) : kindS ty z f n b < 4 := by
  cases ty <;> simp only [kindS] <;> (repeat' split) <;> omega

theorem ks_lt (m : Nat) : ks ty t L TH m < 4 := by
  unfold ks; split
  · exact kindS_lt _ _ _ _ _
  · omega

theorem ks_dense {m : Nat} (h : ks ty t L TH m ≠ 0) : m + 1 < nbk t L ∧ Dense t L TH m := by
  unfold ks at h
  split at h
  · assumption
  · exact absurd rfl h

theorem ks_last {m : Nat} (h : ¬ m + 1 < nbk t L) : ks ty t L TH m = 0 := by
  unfold ks; rw [if_neg (fun hh => h hh.1)]

theorem ks_not {m : Nat} (h : ¬ Dense t L TH m) : ks ty t L TH m = 0 := by
  unfold ks; rw [if_neg (fun hh => h hh.2)]

theorem full_of_lt {m : Nat} (h : m + 1 < nbk t L) : m < tot t / L := by
  unfold nbk at h; split at h <;> omega

/-- The bytes of a block of kind `k` at `o`: tables of `b` bytes, then what is kept of the `n` bytes `c`. -/
structure Packed (k : Nat) (c : Nat → Byte) (n b o : Nat) (bits : Vec (Option Byte)) : Prop where
  t1 : ∀ j, j < b → bits.f (o + j) = some (tbl (bef (n / 2) (dp k c)) j)
  t2 : k = 3 → ∀ j, j < b → bits.f (o + b + j) = some (tbl (bef (n / 2) (fp c)) j)
  kept : Kept k c (o + hdS k b) (n / 2) bits
  odd : n % 2 = 1 → bits.f (o + hdS k b + 2 * kp k c (n / 2)) = some (c (n - 1))

theorem hdS_ge {k b : Nat} (hk : k ≠ 0) : b ≤ hdS k b ∧ (k = 3 → hdS k b = 2 * b) := by
  unfold hdS
  refine ⟨?_, fun h => by rw [if_pos h]⟩
  (repeat' split) <;> omega

theorem Packed.congr {k : Nat} (hk : k ≠ 0) {c : Nat → Byte} {n b o : Nat} {v v' : Vec (Option Byte)}
    (h : Packed k c n b o v)
    (he : ∀ x, x < o + (hdS k b + 2 * kp k c (n / 2) + n % 2) → v'.f x = v.f x) : Packed k c n b o v' := by
  have h1 := hdS_ge (b := b) hk
  refine ⟨fun j hj => ?_, fun h3 j hj => ?_, ⟨fun p hp hd' b' hb => ?_⟩, fun ho => ?_⟩
  · rw [he _ (by omega)]; exact h.t1 j hj
  · rw [he _ (by have := h1.2 h3; omega)]; exact h.t2 h3 j hj
  · have := kp_lt hd' hp
    rw [he _ (by omega)]; exact h.kept.kept p hp hd' b' hb
  · rw [he _ (by omega)]; exact h.odd ho

/-- The bytes of block `m`. -/
structure DataS (ty : MpeType) (t : Vec Byte) (L TH m : Nat) (bits : Vec (Option Byte)) : Prop where
  sp : sparse t L TH m = true → ∀ j, j < sq t L m → ∀ b, b < 8 →
    bits.f (offS ty t L TH m + 8 * j + b) = some (BitVec.ofNat 8 (sel t (m * L + 1 + j) >>> (8 * b)))
  de : Dense t L TH m → ks ty t L TH m = 0 → ∀ y, y < nby t L m → bits.f (offS ty t L TH m + y) = some (bb t L m y)
  co : ks ty t L TH m ≠ 0 → Packed (ks ty t L TH m) (bb t L m) (nby t L m) (tbs t L m) (offS ty t L TH m) bits

theorem Dense.not_sparse {m : Nat} (h : Dense t L TH m) : ¬ sparse t L TH m = true := by
  rw [h.1]; simp

theorem wdS_sparse {m : Nat} (h : sparse t L TH m = true) : wdS ty t L TH m = 8 * sq t L m := by
  unfold wdS wd
  rw [if_pos (ks_not (fun hd => hd.not_sparse h)), if_pos h]

theorem wdS_mono {m : Nat} (h : sparse t L TH m = false) (h' : mono t L TH m = true) : wdS ty t L TH m = 0 := by
  unfold wdS wd
  rw [if_pos (ks_not (fun hd => by have := hd.2; rw [h'] at this; cases this)), if_neg (by rw [h]; simp), if_pos h']

theorem wdS_dense {m : Nat} (h : Dense t L TH m) (hk : ks ty t L TH m = 0) : wdS ty t L TH m = nby t L m := by
  unfold wdS wd
  rw [if_pos hk, if_neg (by rw [h.1]; simp), if_neg (by rw [h.2]; simp)]
  rfl

theorem wdS_comp {m : Nat} (hk : ks ty t L TH m ≠ 0) : wdS ty t L TH m =
    hdS (ks ty t L TH m) (tbs t L m) + 2 * kp (ks ty t L TH m) (bb t L m) (nby t L m / 2) + nby t L m % 2 := by
  unfold wdS
  rw [if_neg hk]

theorem DataS.frame {m : Nat} {b b' : Vec (Option Byte)} (h : DataS ty t L TH m b)
    (hf : ∀ y, y < offS ty t L TH (m + 1) → b'.f y = b.f y) : DataS ty t L TH m b' := by
  rw [offS_succ] at hf
  refine ⟨fun h1 j hj c hc => ?_, fun h1 h2 y hy => ?_, fun h1 => ?_⟩
  · rw [wdS_sparse h1] at hf
    rw [hf _ (by omega), h.sp h1 j hj c hc]
  · rw [wdS_dense h1 h2] at hf
    rw [hf _ (by omega), h.de h1 h2 y hy]
  · rw [wdS_comp h1] at hf
    exact (h.co h1).congr h1 hf

end MRS.Mran
