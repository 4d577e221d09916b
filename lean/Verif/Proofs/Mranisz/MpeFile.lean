import Verif.Model.Mranisz.MpeFile
import Verif.Proofs.Mranisz.FileSel
import Verif.Proofs.Mranisz.MpeLink

/-! # The `RankMPE64` objects that `load` makes -/

set_option autoImplicit false

namespace MRS.Mran
open Outcome Spec

variable {ty : MpeType} {t : Vec Byte} {f : Nat → Byte} {g : Junk} {aB aR : Nat} {x : Mpe}

/-- The same members in the other class. -/
def Mpe.sel (x : Mpe) : Select := ⟨x.ranks, x.ranksLen, x.bits, x.bitsLen, x.textLen⟩

def Select.mpe (x : Select) : Mpe := ⟨x.sel, x.selLen, x.bits, x.bitsLen, x.textLen⟩

/-- The bytes of the file. -/
def Mpe.file (x : Mpe) : File := x.sel.file

/-- The object that `load` makes. -/
def Mpe.back (x : Mpe) (bB bR : Nat) : Mpe := (x.sel.back bR bB).mpe

theorem Mpe.save_sel (x : Mpe) (F : File) : x.save F = x.sel.save F := rfl

theorem Mpe.load_sel (bB bR : Nat) (F : File) :
    Mpe.load bB bR F = (do
      let p ← Select.load bR bB F
      ok (p.1.mpe, p.2)) := by
  unfold Mpe.load Select.load
  cases freadHead F with
  | ok p =>
    rw [ok_bind, ok_bind]
    simp only []
    cases loadWords bR p.2 with
    | ok q =>
      rw [ok_bind, ok_bind]
      cases freadHead q.2.2 with
      | ok r =>
        rw [ok_bind, ok_bind]
        by_cases h : r.1 > 0
        · rw [if_pos h, if_pos h]
          cases fread1 (fresh (r.1 + roomBytes bB)) r.1 r.2 <;> rfl
        · rw [if_neg h, if_neg h]; rfl
      | ub e => rfl
      | abort => rfl
    | ub e => rfl
    | abort => rfl
  | ub e => rfl
  | abort => rfl

theorem MpeOK.fits (hx : MpeOK ty t f g g aB aR x) (hlen : t.len < 2 ^ 60) : Fits x.ranks x.ranksLen := by
  have hle := nblkM_le t
  rw [hx.rl]
  refine ⟨by simp only [W64]; omega, fun i hi v hv => ?_⟩
  obtain ⟨b, hb, hf⟩ := hx.sup (i / 10) (by omega)
  have h1 := hf (i % 10) (Nat.mod_lt _ (by decide))
  rw [show 10 * (i / 10) + i % 10 = i by omega, hv] at h1
  injection h1 with h1
  rw [h1]
  have hj : i % 10 < 10 := Nat.mod_lt _ (by decide)
  generalize i % 10 = j at hj
  rcases (show j = 0 ∨ (1 ≤ j ∧ j < 5) ∨ j = 5 ∨ j = 6 ∨ (7 ≤ j ∧ j < 10) by omega) with h | h | h | h | h
  · rw [h, hb.b0]
    unfold tvM
    have := T_le t (1024 * (16 * (i / 10)))
    simp only [W64]
    split <;> omega
  · rw [show j = j - 1 + 1 by omega, hb.mid _ (by omega)]
    exact acc_lt _ _
  · rw [h, hb.off]
    have := eo_le ty t (min (16 * (i / 10)) (nblkM t - 1))
    unfold oM
    simp only [W64]
    omega
  · rw [h, hb.o1]
    exact Nat.mod_lt _ (by decide)
  · rw [show j = j - 6 + 6 by omega, hb.offs _ (by omega) (by omega)]
    exact acc_lt _ _

theorem MpeOK.back (hx : MpeOK ty t f g g aB aR x) (bB bR : Nat) :
    MpeOK ty t f g ⟨none, none, none⟩ bB bR (x.back bB bR) := by
  have hrl := hx.rl
  have hbl := hx.bl
  have er : (x.back bB bR).ranks = ⟨x.ranksLen + room bR, fun i => if i < x.ranksLen then x.ranks.f i else none⟩ :=
    if_neg (by show ¬ x.ranksLen = 0; omega)
  have eb : (x.back bB bR).bits = ⟨x.bitsLen + roomBytes bB, fun i => if i < x.bitsLen then x.bits.f i else none⟩ :=
    if_neg (by show ¬ x.bitsLen = 0; omega)
  refine ⟨hrl, hbl, hx.tl, by rw [er, ← hrl], by rw [eb, ← hbl], ?_, ?_, ?_, ?_, ?_⟩
  · intro k hk
    obtain ⟨b, h1, h2⟩ := hx.sup k hk
    refine ⟨b, h1, fun j hj => ?_⟩
    rw [er, ← h2 j hj]
    exact if_pos (by omega)
  · intro y hy
    rw [er]
    exact if_neg (by omega)
  · intro k hk hh
    refine (hx.st k hk hh).congr (fun y hy2 => ?_)
    have h1 := eo_mono ty t (show k + 1 ≤ nblkM t by omega)
    rw [eo_succ, if_neg hh] at h1
    rw [eb]
    exact if_pos (by unfold sl at h1; omega)
  · intro y h1 h2
    rw [eb, ← hx.rest y h1 h2]
    exact if_pos (by omega)
  · intro y hy
    rw [eb]
    exact if_neg (by omega)

/-- The answer depends on the text and on memory, not on the object. -/
theorem rankMpe_same {h h' : Junk} {bB bR : Nat} {y : Mpe} (hx : MpeOK ty t f g h aB aR x)
    (hy : MpeOK ty t f g h' bB bR y) (hlen : t.len < 2 ^ 60) (strict : Bool) {i : Nat} (hi : i < 1024 * nblkM t) :
    rankMpe ty strict y i = rankMpe ty strict x i := by
  by_cases hc : (T t (1024 * (i / 1024 + 1)) - T t (1024 * (i / 1024))) % 1024 = 0
  · have h1 := T_le t (1024 * (i / 1024 + 1))
    have h2 := nblkM_le t
    have hq : i / 1024 < nblkM t := by omega
    rw [rankMpe_pre hx hlen strict hi, rankMpe_pre hy hlen strict hi,
      sub64_eq (T_mono t (by omega)) (by simp only [W64]; omega), show (1023 : Nat) = 2 ^ 10 - 1 by rfl,
      Nat.and_two_pow_sub_one_eq_mod, if_pos hc, if_pos hc]
  · by_cases hs : strict = false ∨ eo ty t (i / 1024) % 8 = 0
    · by_cases hr : readM ty t i ≤ eo ty t (nblkM t) ∨ ∃ h, g.bits = some h
      · rw [rankMpe_ok hx hlen hi hs hr, rankMpe_ok hy hlen hi hs hr]
      · have hg : g.bits = none := by
          cases hg : g.bits with
          | none => rfl
          | some h => exact absurd (Or.inr ⟨h, hg⟩) hr
        have hr' : eo ty t (nblkM t) < readM ty t i := Nat.lt_of_not_le fun h => hr (Or.inl h)
        rw [rankMpe_uninit hx hlen hi hs hg hc hr', rankMpe_uninit hy hlen hi hs hg hc hr']
    · have hst : strict = true := by
        cases strict with
        | true => rfl
        | false => exact absurd (Or.inl rfl) hs
      have hs' : eo ty t (i / 1024) % 8 ≠ 0 := fun h => hs (Or.inr h)
      rw [hst, rankMpe_mis hx hlen hi hs' hc, rankMpe_mis hy hlen hi hs' hc]

theorem mpe_load (hx : MpeOK ty t f g g aB aR x) (hlen : t.len < 2 ^ 60) (bB bR : Nat) :
    (∀ F, Mpe.load bB bR (x.file ++ F) = ok (x.back bB bR, F)) ∧
      ∀ k, k < x.file.length → Mpe.load bB bR (x.file.take k) = abort := by
  have hle := nblkM_le t
  have heo := eo_le ty t (nblkM t)
  have h := sel_load (x := x.sel) (by show x.textLen < W64; rw [hx.tl]; simp only [W64]; omega) (hx.fits hlen)
    (by show x.bitsLen < W64; rw [hx.bl]; simp only [W64]; omega) bR bB
  refine ⟨fun F => ?_, fun k hk => ?_⟩
  · rw [Mpe.load_sel]
    unfold Mpe.file
    rw [h.1 F]
    rfl
  · rw [Mpe.load_sel]
    unfold Mpe.file
    rw [h.2 k hk]
    rfl

/-- The word after the ranks is not there. -/
theorem rankMpe_lost {h : Junk} (hx : MpeOK ty t f g h aB aR x) (hlen : t.len < 2 ^ 60) (hN : nblkM t % 16 = 15)
    (hg : h.ranks = none) (strict : Bool) : ∃ e, rankMpe ty strict x (1024 * nblkM t) = ub e := by
  have hrl := hx.rlen
  obtain ⟨b, hb, hf⟩ := hx.sup (nblkM t / 16) (by omega)
  have h1 := rank_first hx hlen (Nat.le_refl _) hb hf
  have hs' : 1024 * nblkM t / 1024 = nblkM t := by omega
  unfold rankMpe
  simp only [hs']
  rw [uget_ok (a := b.f 0) (i := 10 * (nblkM t / 16)) (by omega) (hf 0 (by omega)), ok_bind, hb.b0, h1, ok_bind,
    if_pos hN]
  obtain ⟨e, he⟩ := uget_none (v := x.ranks) (i := 10 * (nblkM t / 16) + 10) (by rw [hx.rn _ (by omega), hg]; rfl)
  rw [he]
  exact ⟨e, rfl⟩

theorem mpe_save (hx : MpeOK ty t f g g aB aR x) (F : File) : x.save F = ok (F ++ x.file) := by
  have h1 := hx.rl
  have h2 := hx.bl
  have h3 := hx.rlen
  have h4 := hx.blen
  rw [Mpe.save_sel]
  exact Select.save_ok (x := x.sel) (by show x.ranksLen ≤ x.ranks.len; omega) (by show x.bitsLen ≤ x.bits.len; omega) F

end MRS.Mran
