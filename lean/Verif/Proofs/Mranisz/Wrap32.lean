import Verif.Proofs.Mranisz.CF32

/-! # 32-bit compressed rank: the 63 longest texts, whose padded length is zero -/

set_option autoImplicit false

namespace MRS.Mran
open Outcome Spec Poppy

/-- The text without its bytes. -/
def cutText (t : Vec Byte) : Vec Byte := ⟨0, t.f⟩

theorem cut_nblk (t : Vec Byte) : nblk (cutText t) = 0 := by
  rw [nblk_eq]
  show (0 + 63) / 64 = 0
  decide

theorem cut_nblk32 (t : Vec Byte) : nblk32 (cutText t) = 0 := by
  rw [nblk32_eq (Nat.zero_le _), cut_nblk]

theorem forN_none {σ : Type} (f : Nat → σ → Outcome σ) (s : σ) : forN 0 f s = ok s := rfl

/-- `build` does what it does for the empty text. -/
theorem buildStd32_wrap {t : Vec Byte} (h : nblk32 t = 0) (aB aR : Nat) :
    buildStd32 aB aR t = buildStd32 aB aR (cutText t) >>= fun x => ok { x with textLen := t.len } := by
  unfold buildStd32 emptyBlocks32 notEmpty32 pass32
  rw [h, cut_nblk32]
  simp only [forN_none, bind_assoc', ok_bind]

theorem buildBch32_wrap {t : Vec Byte} (h : nblk32 t = 0) (beyond : Option (Nat → Bool)) (aB aR : Nat) :
    buildBch32 beyond aB aR t = buildBch32 beyond aB aR (cutText t) >>= fun x => ok { x with textLen := t.len } := by
  unfold buildBch32 emptyBlocks32 notEmpty32 pass32 tmpLen32
  rw [h, cut_nblk32]
  simp only [forN_none, bind_assoc', ok_bind]

theorem buildCF32_wrap {t : Vec Byte} (h : nblk32 t = 0) (aB : Nat) :
    buildCF32 aB t = buildCF32 aB (cutText t) >>= fun x => ok { x with textLen := t.len } := by
  unfold buildCF32 emptyBlocks32 notEmpty32 hpass
  rw [h, cut_nblk32]
  simp only [forN_none, bind_assoc', ok_bind]

/-- Every query of the standard variant is undefined. -/
theorem rankStd32_wrap {t : Vec Byte} (h : nblk32 t = 0) (aB aR : Nat) :
    ∃ x, buildStd32 aB aR t = ok x ∧ ∀ i, ∃ f, rankStd32 x i = ub f := by
  obtain ⟨x, e, hx⟩ := buildStd32_ok (t := cutText t) (Nat.zero_le _) aB aR
  rw [buildStd32_wrap h, e, ok_bind]
  refine ⟨_, rfl, fun i => ?_⟩
  exact rankStd32_end hx (i := i) (by rw [cut_nblk]; exact Nat.zero_le _)

/-- So is every query of the cache-friendly variant. -/
theorem rankCF32_wrap {t : Vec Byte} (h : nblk32 t = 0) (aB : Nat) :
    ∃ x, buildCF32 aB t = ok x ∧ ∀ strict i, ∃ f, rankCF32 strict x i = ub f := by
  obtain ⟨x, e, hx⟩ := buildCF32_ok (t := cutText t) aB (Nat.zero_le _) (Or.inr (cut_nblk t))
  rw [buildCF32_wrap h, e, ok_bind]
  refine ⟨_, rfl, fun strict i => ?_⟩
  exact rankCF32_end hx (i := i) (by rw [cut_nblk]; exact Nat.zero_le _)

theorem buildBch32_wrap_oob {t : Vec Byte} (h : nblk32 t = 0) (aB aR : Nat) :
    buildBch32 none aB aR t = ub .oob := by
  rw [buildBch32_wrap h, buildBch_oob32 (t := cutText t) (Nat.zero_le _) aB aR (by rw [cut_nblk]; decide)]
  rfl

/-- With compressed headers every query in front of block 31 is answered 0. -/
theorem rankBch32_wrap {t : Vec Byte} (h : nblk32 t = 0) (aB aR : Nat) (g : Nat → Bool) :
    ∃ x, buildBch32 (some g) aB aR t = ok x ∧ ∀ i, i < 512 * 31 → rankBch32 x i = ok 0 := by
  obtain ⟨x, e, hx⟩ := buildBch_ok32 (t := cutText t) (Nat.zero_le _) aB aR (beyond := some g) (g := g) (Or.inr rfl)
  rw [buildBch32_wrap h, e, ok_bind]
  refine ⟨_, rfl, fun i hi => ?_⟩
  obtain ⟨b, hb, hf⟩ := hx.sup 0 (Nat.zero_le _)
  have hrl := hx.rlen
  rw [cut_nblk] at hrl
  have hT : ∀ k, tv32 (cutText t) k = 0 := by
    intro k
    unfold tv32
    split
    · rename_i hk
      rw [cut_nblk] at hk
      have : k = 0 := by omega
      subst this
      rw [Nat.mul_zero, T_zero, Nat.zero_mod]
    · rfl
  have hb0 : b.f 0 = 0 := hb.b0.trans (hT _)
  have hdv : ∀ j, dv32 (cutText t) (32 * 0) j = 0 := by
    intro j
    unfold dv32
    rw [hT, hT]
    rfl
  have hz : ∀ m, m < 16 → b.f (m + 1) = 0 := by
    intro m hm
    rw [hb.mid m hm]
    simp only [hdv]
    generalize min 2 (31 - 2 * m) = n
    induction n with
    | zero => rfl
    | succ n ih =>
      unfold acc32 add32 shl32
      rw [ih]
      simp
  have hg : ∀ m, m < 17 → uget x.ranks m = ok 0 := by
    intro m hm
    have h1 := hf m (by omega)
    rw [show 19 * 0 + m = m by omega] at h1
    refine uget_ok (by omega) ?_
    rw [h1]
    cases m with
    | zero => rw [hb0]
    | succ m => rw [hz m (by omega)]
  have hs0 : i / 512 / 32 = 0 := by omega
  have hsm : i / 512 % 32 < 31 := by omega
  unfold rankBch32
  simp only [hs0, Nat.mul_zero]
  rw [hg 0 (by decide), ok_bind]
  have h1 : (if i / 512 % 32 > 0 then do ok (add32 0 (← slot1_32 x.ranks 0 (i / 512 % 32))) else ok 0) = ok 0 := by
    split
    · unfold slot1_32
      rw [hg _ (by omega), ok_bind, ok_bind]
      split <;> rfl
    · rfl
  have h2 : (do ok (add32 0 (← slot2_32 x.ranks 0 (i / 512 % 32)))) = ok 0 := by
    unfold slot2_32
    rw [hg _ (by omega), ok_bind, ok_bind]
    split <;> rfl
  rw [h1, ok_bind, if_neg (by omega), h2, ok_bind]
  have h3 : sub32 0 0 = 0 := by decide
  rw [h3, if_pos (by decide)]
  unfold add32
  simp

end MRS.Mran
