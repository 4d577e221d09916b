import Verif.Proofs.SearchBad
import Verif.Proofs.History

/-!
# `select` at the bad ranks
-/

set_option autoImplicit false

namespace MRS
open Outcome Spec

/-- What `select` does at a bad rank. -/
def badSelect (b : Build) : Outcome Nat := if b.ndebug then ub .oob else abort

theorem BmRep.select_bad {c : Config} {n : Nat} {bm : Bitmap} {B : List Bool} (h : BmRep c n bm B)
    (g : Scratch) {k : Nat} (hbad : c.SelectBad B k) (hk : k < Spec.ones B B.length) :
    bmSelect c g bm k = badSelect c.b := by
  have hs := (h.selectBad k).2 hbad
  obtain ⟨hf, hH, hb, hr⟩ := hs
  have ho := h.rep.ones (Nat.le_refl _)
  rw [ho, h.len] at hk
  have hps : Spec.psum (blkCnt c.blk.width.words n bm.bits.f) n =
      fcnt bm.bits.f (64 * bm.bits.len) := by
    rw [psum_blkCnt _ (Nat.le_refl _), h.inv.len]
  have htot := fcnt_le bm.bits.f (64 * bm.bits.len)
  unfold bmSelect
  rw [h.inv.size, massert_ok (by simpa using (show k < 64 * bm.bits.len by omega)), ok_bind]
  have hinv := h.inv.tree
  have hal := h.inv.align
  have hle := Width.bits_le c.blk.width
  obtain ⟨b, fam, H, blk⟩ := c
  dsimp only at hf hH hb hr hinv hal hps hle ⊢
  subst hf hH
  have e : avx2Search b 4 bm.index k = badOutcome b :=
    avx2Search4_bad hinv hle hal (by rw [hps]; exact hk) hb hr
  show (avx2Search b 4 bm.index k >>= _) = _
  rw [e]
  unfold badOutcome badSelect
  cases b.ndebug <;> rfl

theorem Held.select_bad {c : Config} {bm : Bitmap} {B : List Bool} (h : Held c bm B)
    (g : Scratch) {k : Nat} (hbad : c.SelectBad B k) (hk : k < ones B B.length) :
    bmSelect c g bm k = badSelect c.b := by
  obtain ⟨n, hn⟩ := h.bmRep (by rintro rfl; simp [Spec.ones] at hk)
  exact hn.select_bad g hbad hk

end MRS
