import Verif.Model.Mranisz.Rank32
import Verif.Proofs.Mranisz.Basic

/-! # 32-bit compressed rank: blocks and the pass over the text, by simulation of the 64-bit pass -/

set_option autoImplicit false

namespace MRS.Mran
open Outcome Spec Poppy

/-! ## Blocks -/

theorem nblk32_eq {t : Vec Byte} (h : t.len ≤ 2 ^ 32 - 64) : nblk32 t = nblk t := by
  unfold nblk32 nblk add32
  simp only [W32]
  split
  · rw [Nat.mod_eq_of_lt (by omega)]
  · rfl

/-- The padded length of the 63 longest texts is zero. -/
theorem nblk32_wrap {t : Vec Byte} (h : 2 ^ 32 - 64 < t.len) (h2 : t.len < 2 ^ 32) : nblk32 t = 0 := by
  unfold nblk32 add32
  simp only [W32]
  rw [if_pos (by omega), show t.len + (64 - t.len % 64) = 4294967296 by omega]

theorem emptyBlocks32_eq {t : Vec Byte} (h : t.len ≤ 2 ^ 32 - 64) : emptyBlocks32 t = emptyBlocks t := by
  unfold emptyBlocks32 emptyBlocks
  rw [nblk32_eq h]

theorem notEmpty32_eq {t : Vec Byte} (h : t.len ≤ 2 ^ 32 - 64) (e : Vec (Option Bool)) :
    notEmpty32 t e = notEmpty t e := by
  unfold notEmpty32 notEmpty
  rw [nblk32_eq h]

theorem nblk_lt32 {t : Vec Byte} (h : t.len ≤ 2 ^ 32 - 64) : nblk t < 2 ^ 26 := by
  rw [nblk_eq]; omega

/-! ## Simulation -/

/-- Entries reduced modulo `2^32`. -/
def redv (v : Vec (Option Nat)) : Vec (Option Nat) := ⟨v.len, fun x => (v.f x).map (· % W32)⟩

/-- The state of the 32-bit pass. -/
def red (s : Pass) : Pass := { s with ranks := redv s.ranks, rank := s.rank % W32 }

theorem redv_set (v : Vec (Option Nat)) (i a : Nat) :
    (redv v).set i (some (a % W32)) = v.set i (some a) >>= fun v => ok (redv v) := by
  by_cases h : i < v.len
  · rw [Vec.set_ok _ h, ok_bind, Vec.set_ok _ (show i < (redv v).len from h)]
    congr 1
    unfold redv
    simp only [Vec.mk.injEq, true_and]
    funext x
    split <;> rfl
  · unfold Vec.set
    rw [if_neg h, if_neg (show ¬ i < (redv v).len from h)]
    rfl

theorem forFrom_sim {σ τ : Type} {f : Nat → σ → Outcome σ} {g : Nat → τ → Outcome τ} {r : σ → τ}
    (h : ∀ i s, g i (r s) = f i s >>= fun s => ok (r s)) : ∀ n a s,
    forFrom a n g (r s) = forFrom a n f s >>= fun s => ok (r s) := by
  intro n
  induction n with
  | zero => intro a s; rfl
  | succ n ih =>
    intro a s
    unfold forFrom
    rw [h, bind_assoc', bind_assoc']
    congr 1
    funext s'
    rw [ok_bind]
    exact ih _ _

theorem passByte32_sim (t : Vec Byte) (i j : Nat) (s : Pass) :
    passByte32 t i j (red s) = passByte t i j s >>= fun s => ok (red s) := by
  unfold passByte32 passByte
  rw [bind_assoc']
  show Bind.bind (if j % 8 = 0 then s.bits.set s.bc (some 0#64) else ok s.bits) _ = _
  congr 1
  funext b
  rw [bind_assoc']
  show Bind.bind (if i + j < t.len then _ else ok b) _ = _
  congr 1
  funext b
  by_cases h : j % 8 = 7
  · rw [if_pos h, if_pos h, bind_assoc']
    show Bind.bind (uget b s.bc) _ = _
    congr 1
    funext w
    rw [ok_bind]
    unfold red add32
    simp only [Nat.mod_add_mod]
  · rw [if_neg h, if_neg h, ok_bind]
    rfl

theorem passBlock32_sim (t : Vec Byte) (e : Vec (Option Bool)) (q : Nat) (s : Pass) (h : s.bc < W32) :
    passBlock32 t e q (red s) = passBlock t e q s >>= fun s => ok (red s) := by
  unfold passBlock32 passBlock
  rw [bind_assoc']
  show Bind.bind ((redv s.ranks).set s.rc (some (s.rank % W32))) _ = _
  rw [redv_set, bind_assoc']
  congr 1
  funext r
  rw [ok_bind, bind_assoc']
  show Bind.bind ((redv r).set (s.rc + 1) (some s.bc)) _ = _
  rw [show some s.bc = some (s.bc % W32) by rw [Nat.mod_eq_of_lt h], redv_set, bind_assoc',
    Nat.mod_eq_of_lt h]
  congr 1
  funext r
  rw [ok_bind]
  simp only []
  rw [bind_assoc']
  congr 1
  funext b
  cases b
  · simp only [Bool.false_eq_true, if_false]
    exact forFrom_sim (r := red) (fun j s => passByte32_sim t (64 * q) j s) 64 0
      { s with ranks := r, rc := s.rc + 2 }
  · simp only [if_true]
    rw [bind_assoc']
    congr 1
    funext c
    rw [ok_bind]
    congr 1
    split
    · unfold red add32
      simp only [Nat.mod_add_mod]
    · rfl

/-! ## What the pass leaves -/

/-- What the 32-bit pass leaves: ranks modulo `2^32`. -/
structure PassOK32 (t : Vec Byte) (R L : Nat) (s : Pass) : Prop where
  rlen : s.ranks.len = R
  blen : s.bits.len = L
  rc : s.rc = 2 * nblk t + 1
  r0 : ∀ k, k ≤ nblk t → s.ranks.f (2 * k) = some (T t (512 * k) % W32)
  r1 : ∀ k, k < nblk t → s.ranks.f (2 * k + 1) = some (8 * ne t k)
  w : ∀ k, k < nblk t → ¬ Hom t k → ∀ j, j < 8 → s.bits.f (8 * ne t k + j) = some (tword t (8 * k + j))
  rn : ∀ x, 2 * nblk t + 1 ≤ x → s.ranks.f x = none
  bn : ∀ x, 8 * ne t (nblk t) ≤ x → s.bits.f x = none

theorem pass32_ok {t : Vec Byte} (hlen : t.len ≤ 2 ^ 32 - 64) {e : Vec (Option Bool)} (he : EmptyOK t e)
    {R L : Nat} (hR : 2 * nblk t + 1 ≤ R) (hL : 8 * ne t (nblk t) ≤ L) :
    ∃ s, pass32 t e (fresh R) (fresh L) = ok s ∧ PassOK32 t R L s := by
  have hnb := nblk_lt32 hlen
  have hle : ∀ q, q ≤ nblk t → 8 * ne t q < W32 := by
    intro q hq
    have := ne_le t q
    simp only [W32]; omega
  unfold pass32
  rw [nblk32_eq hlen]
  obtain ⟨s', e1, s, i, rfl⟩ := forN_inv (body := passBlock32 t e)
    (fun q s' => ∃ s, PInv t R L q s ∧ s' = red s) (nblk t) ⟨fresh R, fresh L, 0, 0, 0⟩
    ⟨⟨fresh R, fresh L, 0, 0, 0⟩,
      ⟨rfl, rfl, (T_zero t).symm, rfl, rfl, by intro k hk; omega, by intro k hk; omega, by intro k hk; omega,
        fun _ _ => rfl, fun _ _ => rfl⟩, rfl⟩
    (by
      intro q s' hq ⟨s, hs, h'⟩
      obtain ⟨s1, e1, h1⟩ := passBlock_ok he hR hL hq hs
      rw [h', passBlock32_sim t e q s (by rw [hs.bc]; exact hle q (by omega)), e1]
      exact ⟨_, rfl, s1, h1, rfl⟩)
  rw [e1, ok_bind]
  have f0 : ∀ x v, s.ranks.f x = some v → (red s).ranks.f x = some (v % W32) := by
    intro x v hx
    show (s.ranks.f x).map _ = _
    rw [hx]; rfl
  have fn : ∀ x, s.ranks.f x = none → (red s).ranks.f x = none := by
    intro x hx
    show (s.ranks.f x).map _ = _
    rw [hx]; rfl
  have hrc : (red s).rc = 2 * nblk t := i.rc
  rw [Vec.set_ok _ (by show (red s).rc < s.ranks.len; rw [i.rlen, hrc]; omega), ok_bind]
  refine ⟨_, rfl, i.rlen, i.blen, ?_, ?_, ?_, i.w, ?_, i.bn⟩
  · show (red s).rc + 1 = _; rw [hrc]
  · intro k hk
    show (if 2 * k = (red s).rc then _ else _) = _
    by_cases hkq : k = nblk t
    · rw [if_pos (by rw [hrc, hkq])]
      show some (s.rank % W32) = _
      rw [i.rank, hkq]
    · rw [if_neg (by rw [hrc]; omega), f0 _ _ (i.r0 k (by omega))]
  · intro k hk
    show (if 2 * k + 1 = (red s).rc then _ else _) = _
    rw [if_neg (by rw [hrc]; omega), f0 _ _ (i.r1 k hk), Nat.mod_eq_of_lt (hle k (by omega))]
  · intro x hx
    show (if x = (red s).rc then _ else _) = _
    rw [if_neg (by rw [hrc]; omega), fn _ (i.rn x (by omega))]

end MRS.Mran
