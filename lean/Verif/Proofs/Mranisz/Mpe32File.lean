import Verif.Model.Mranisz.MpeFile32
import Verif.Proofs.Mranisz.Mpe32Rank
import Verif.Proofs.Mranisz.MpeFile
import Verif.Proofs.Mranisz.S32File

/-! # The `RankMPE32` objects that `load` makes -/

set_option autoImplicit false

namespace MRS.Mran
open Outcome Spec

variable {ty : MpeType} {t : Vec Byte} {f : Nat → Byte} {g : Junk} {aB aR : Nat} {x : Mpe}

/-- The bytes of the file. -/
def Mpe.file32 (x : Mpe) : File := S32.file x.sel

/-- The object that `load` makes. -/
def Mpe.back32 (x : Mpe) (bB bR : Nat) : Mpe := (S32.back x.sel bR bB).mpe

theorem Mpe.save_sel32 (x : Mpe) (F : File) : x.save32 F = S32.save x.sel F := rfl

theorem Mpe.load_sel32 (bB bR : Nat) (F : File) :
    Mpe.load32 bB bR F = (do
      let p ← S32.load bR bB F
      ok (p.1.mpe, p.2)) := by
  unfold Mpe.load32 S32.load
  simp only [bind_assoc']
  rfl

theorem MpeOK32.fits (hx : MpeOK32 ty t f g g aB aR x) (hlen : t.len ≤ 2 ^ 32 - 128) : Fits32 x.ranks x.ranksLen := by
  have hnb := nblkM_lt32 hlen
  rw [hx.rl]
  refine ⟨by simp only [W32]; omega, fun i hi v hv => ?_⟩
  obtain ⟨b, hb, hf⟩ := hx.sup (i / 18) (by omega)
  have h1 := hf (i % 18) (Nat.mod_lt _ (by decide))
  rw [show 18 * (i / 18) + i % 18 = i by omega, hv] at h1
  injection h1 with h1
  rw [h1]
  have hj : i % 18 < 18 := Nat.mod_lt _ (by decide)
  generalize i % 18 = j at hj
  rcases (show j = 0 ∨ (1 ≤ j ∧ j < 9) ∨ j = 9 ∨ j = 10 ∨ (11 ≤ j ∧ j < 18) by omega) with h | h | h | h | h
  · rw [h, hb.b0]
    exact Nat.mod_lt _ (by decide)
  · rw [show j = j - 1 + 1 by omega, hb.mid _ (by omega)]
    exact acc_lt32 _ _
  · rw [h, hb.off]
    exact oM_lt32 ty hlen _
  · rw [h, hb.o1]
    exact Nat.mod_lt _ (by decide)
  · rw [show j = j - 10 + 10 by omega, hb.offs _ (by omega) (by omega)]
    exact acc_lt32 _ _

theorem MpeOK32.back (hx : MpeOK32 ty t f g g aB aR x) (bB bR : Nat) :
    MpeOK32 ty t f g ⟨none, none, none⟩ bB bR (x.back32 bB bR) := by
  have hrl := hx.rl
  have hbl := hx.bl
  have er : (x.back32 bB bR).ranks = ⟨x.ranksLen + room32 bR, fun i => if i < x.ranksLen then x.ranks.f i else none⟩ :=
    if_neg (by show ¬ x.ranksLen = 0; omega)
  have eb : (x.back32 bB bR).bits = ⟨x.bitsLen + roomBytes bB, fun i => if i < x.bitsLen then x.bits.f i else none⟩ :=
    if_neg (by show ¬ x.bitsLen = 0; omega)
  refine ⟨hrl, hbl, hx.tl, by rw [er, ← hrl], by rw [eb, ← hbl], ?_, ?_, ?_, ?_, ?_⟩
  · intro k hk
    obtain ⟨b, h1, h2⟩ := hx.sup k hk
    refine ⟨b, h1, fun j hj => ?_⟩
    rw [er, ← h2 j hj]
    exact if_pos (by omega)
  · intro y hy
    rw [er]
    exact if_neg (by omega)
  · intro k hk hh
    refine (hx.st k hk hh).congr (fun y hy2 => ?_)
    have h1 := eo_mono ty t (show k + 1 ≤ nblkM t by omega)
    rw [eo_succ, if_neg hh] at h1
    rw [eb]
    exact if_pos (by unfold sl at h1; omega)
  · intro y h1 h2
    rw [eb, ← hx.rest y h1 h2]
    exact if_pos (by omega)
  · intro y hy
    rw [eb]
    exact if_neg (by omega)

/-- The answer depends on the text and on memory, not on the object. -/
theorem rankMpe32_same {h h' : Junk} {bB bR : Nat} {y : Mpe} (hx : MpeOK32 ty t f g h aB aR x)
    (hy : MpeOK32 ty t f g h' bB bR y) (hlen : t.len ≤ 2 ^ 32 - 128) (strict : Bool) {i : Nat} (hi : i < 1024 * nblkM t)
    (hi2 : i < 2 ^ 32) :
    rankMpe32 ty strict y i = rankMpe32 ty strict x i := by
  by_cases hc : (T t (1024 * (i / 1024 + 1)) - T t (1024 * (i / 1024))) % 1024 = 0
  · rw [rankMpe32_pre hx strict hi hi2, rankMpe32_pre hy strict hi hi2, if_pos hc, if_pos hc]
  · by_cases hs : strict = false ∨ eo ty t (i / 1024) % 8 = 0
    · by_cases hr : readM ty t i ≤ eo ty t (nblkM t) ∨ ∃ h, g.bits = some h
      · rw [rankMpe32_ok hx hlen hi hi2 hs hr, rankMpe32_ok hy hlen hi hi2 hs hr]
      · have hg : g.bits = none := by
          cases hg : g.bits with
          | none => rfl
          | some h => exact absurd (Or.inr ⟨h, hg⟩) hr
        have hr' : eo ty t (nblkM t) < readM ty t i := Nat.lt_of_not_le fun h => hr (Or.inl h)
        rw [rankMpe32_uninit hx hlen hi hi2 hs hg hc hr', rankMpe32_uninit hy hlen hi hi2 hs hg hc hr']
    · have hst : strict = true := by
        cases strict with
        | true => rfl
        | false => exact absurd (Or.inl rfl) hs
      have hs' : eo ty t (i / 1024) % 8 ≠ 0 := fun h => hs (Or.inr h)
      rw [hst, rankMpe32_mis hx hlen hi hi2 hs' hc, rankMpe32_mis hy hlen hi hi2 hs' hc]

theorem mpe_load32 (hx : MpeOK32 ty t f g g aB aR x) (hlen : t.len ≤ 2 ^ 32 - 128) (hroom : Room32 ty t) (bB bR : Nat) :
    (∀ F, Mpe.load32 bB bR (x.file32 ++ F) = ok (x.back32 bB bR, F)) ∧
      ∀ k, k < x.file32.length → Mpe.load32 bB bR (x.file32.take k) = abort := by
  have hnb := nblkM_lt32 hlen
  unfold Room32 at hroom
  have ht : x.sel.textLen < W32 := by show x.textLen < W32; rw [hx.tl]; simp only [W32]; omega
  have hs : x.sel.selLen + 32 < W32 := by show x.ranksLen + 32 < W32; rw [hx.rl]; simp only [W32]; omega
  have hb : x.sel.bitsLen + 128 < W32 := by show x.bitsLen + 128 < W32; rw [hx.bl]; simp only [W32]; omega
  refine ⟨fun F => ?_, fun k hk => ?_⟩
  · rw [Mpe.load_sel32]
    unfold Mpe.file32
    rw [S32.load_ok ht (hx.fits hlen) hs hb]
    rfl
  · rw [Mpe.load_sel32]
    unfold Mpe.file32
    rw [S32.load_cut ht (hx.fits hlen) hs (by omega) bR bB k (by rw [← S32.file_length]; exact hk)]
    rfl

/-- The word after the ranks is not there. -/
theorem rankMpe32_lost {h : Junk} (hx : MpeOK32 ty t f g h aB aR x) (hN : nblkM t % 16 = 15)
    (hg : h.ranks = none) (strict : Bool) : ∃ e, rankMpe32 ty strict x (1024 * nblkM t) = ub e := by
  have hrl := hx.rlen
  obtain ⟨b, hb, hf⟩ := hx.sup (nblkM t / 16) (by omega)
  have h1 := rank_first32 hx (Nat.le_refl _) hb hf
  have hs' : 1024 * nblkM t / 1024 = nblkM t := by omega
  unfold rankMpe32
  simp only [hs']
  rw [uget_ok (a := b.f 0) (i := 18 * (nblkM t / 16)) (by omega) (hf 0 (by omega)), ok_bind, hb.b0, h1, ok_bind,
    if_pos hN]
  obtain ⟨e, he⟩ := uget_none (v := x.ranks) (i := 18 * (nblkM t / 16) + 18) (by rw [hx.rn _ (by omega), hg]; rfl)
  rw [he]
  exact ⟨e, rfl⟩

theorem mpe_save32 (hx : MpeOK32 ty t f g g aB aR x) (F : File) : x.save32 F = ok (F ++ x.file32) := by
  have h1 := hx.rl
  have h2 := hx.bl
  have h3 := hx.rlen
  have h4 := hx.blen
  rw [Mpe.save_sel32]
  exact S32.save_ok (x := x.sel) (by show x.ranksLen ≤ x.ranks.len; omega) (by show x.bitsLen ≤ x.bits.len; omega) F

end MRS.Mran
