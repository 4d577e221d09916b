import Verif.Proofs.Mranisz.SelMpeLoop
import Verif.Proofs.Mranisz.SelBch
import Verif.Proofs.Mranisz.MpePlace

/-! # Compressed select with pairs left out: `build` -/

set_option autoImplicit false

namespace MRS.Mran
open Outcome Spec Poppy

variable {ty : MpeType} {t : Vec Byte} {L TH : Nat}

/-- Offsets of the temporary array: those of the padding are those of the last block. -/
def oS (ty : MpeType) (t : Vec Byte) (L TH k : Nat) : Nat := offS ty t L TH (min k (nbk t L - 1))

/-- What the third loop and the two loops after it leave. -/
structure EncDone (ty : MpeType) (t : Vec Byte) (L TH N : Nat) (out0 fl : Vec (Option Byte)) (s : EncS) : Prop where
  slen : s.sel.len = 32 * N
  ev : ∀ k, k < 16 * N → s.sel.f (2 * k) = some (hv t L k)
  od : ∀ k, k < 16 * N → s.sel.f (2 * k + 1) = some (oS ty t L TH k)
  blen : s.out.len = out0.len
  room : offS ty t L TH (nbk t L) ≤ out0.len
  data : ∀ k, k < nbk t L → DataS ty t L TH k s.out
  keeps : Keeps out0 s.out
  flag : fl.f (nbk t L - 1) ≠ none

theorem encPad {v : Vec (Option Nat)} {N c : Nat} {o : Nat} (hv : v.len = 32 * N) (hc : c < 16 * N)
    (ho : v.f (2 * c + 1) = some o) :
    ∃ w, forN ((32 * N - 2 * (c + 1)) / 2) (fun k (v : Vec (Option Nat)) => do
        let o ← uget v (2 * c + 1)
        v.set (2 * (c + 1) + 1 + 2 * k) (some o)) v = ok w ∧ w.len = 32 * N ∧
      (∀ k, w.f (2 * k) = v.f (2 * k)) ∧ (∀ k, k ≤ c → w.f (2 * k + 1) = v.f (2 * k + 1)) ∧
      ∀ k, c < k → k < 16 * N → w.f (2 * k + 1) = some o := by
  obtain ⟨w, e, h1, h2, h3, h4⟩ := forN_inv (body := fun k (v : Vec (Option Nat)) => do
        let o ← uget v (2 * c + 1)
        v.set (2 * (c + 1) + 1 + 2 * k) (some o))
    (fun j w => w.len = 32 * N ∧ (∀ k, w.f (2 * k) = v.f (2 * k)) ∧
      (∀ k, k ≤ c → w.f (2 * k + 1) = v.f (2 * k + 1)) ∧ ∀ k, c < k → k < c + 1 + j → w.f (2 * k + 1) = some o)
    ((32 * N - 2 * (c + 1)) / 2) v ⟨hv, fun _ => rfl, fun _ _ => rfl, by intro k a b; omega⟩
    (by
      intro j w hj ⟨a1, a2, a3, a4⟩
      rw [uget_ok (by omega) ((a3 c (Nat.le_refl _)).trans ho), ok_bind, Vec.set_ok _ (by omega)]
      refine ⟨_, rfl, a1, ?_, ?_, ?_⟩
      · intro k
        show (if 2 * k = 2 * (c + 1) + 1 + 2 * j then _ else _) = _
        rw [if_neg (by omega), a2]
      · intro k hk
        show (if 2 * k + 1 = 2 * (c + 1) + 1 + 2 * j then _ else _) = _
        rw [if_neg (by omega), a3 k hk]
      · intro k hk1 hk2
        show (if 2 * k + 1 = 2 * (c + 1) + 1 + 2 * j then _ else _) = _
        by_cases hkj : k = c + 1 + j
        · rw [if_pos (by omega)]
        · rw [if_neg (by omega), a4 k hk1 (by omega)])
  exact ⟨w, e, h1, h2, h3, fun k a b => h4 k a (by omega)⟩

theorem encInc {v : Vec (Option Nat)} {SL : Nat} (hL : 1 ≤ L) (hlen : t.len < 2 ^ 60) (hSL : 2 * nbk t L + 2 ≤ SL)
    (hv : v.len = SL) (ev : ∀ k, k ≤ nbk t L → v.f (2 * k) = some (en t L k - 1)) :
    ∃ w, forN ((2 * nbk t L + 2) / 2 - 1) (fun k (v : Vec (Option Nat)) => do
        let x ← uget v (2 + 2 * k)
        v.set (2 + 2 * k) (some (add64 x 1))) v = ok w ∧ w.len = SL ∧
      (∀ k, k ≤ nbk t L → w.f (2 * k) = some (en t L k)) ∧ (∀ k, nbk t L < k → w.f (2 * k) = v.f (2 * k)) ∧
      ∀ k, w.f (2 * k + 1) = v.f (2 * k + 1) := by
  obtain ⟨w, e, h1, h2, h3, h4⟩ := forN_inv
    (body := fun k (v : Vec (Option Nat)) => do
      let x ← uget v (2 + 2 * k)
      v.set (2 + 2 * k) (some (add64 x 1)))
    (fun j w => w.len = SL ∧ (∀ k, k ≤ nbk t L → w.f (2 * k) = some (if k ≤ j then en t L k else en t L k - 1)) ∧
      (∀ k, nbk t L < k → w.f (2 * k) = v.f (2 * k)) ∧ ∀ k, w.f (2 * k + 1) = v.f (2 * k + 1))
    ((2 * nbk t L + 2) / 2 - 1) v
    ⟨hv, by
      intro k hk
      rw [ev k hk]
      by_cases hk0 : k ≤ 0
      · rw [if_pos hk0, show k = 0 by omega]; rfl
      · rw [if_neg hk0], fun _ _ => rfl, fun _ => rfl⟩
    (by
      intro j v' hj ⟨v1, v2, v3, v4⟩
      have hx := v2 (j + 1) (by omega)
      rw [if_neg (by omega)] at hx
      have hpos := en_lt (t := t) (L := L) (m := j) hL (by omega)
      have hle := en_le (t := t) (L := L) (m := j + 1) hL (by omega)
      have ha : add64 (en t L (j + 1) - 1) 1 = en t L (j + 1) := by
        unfold add64
        rw [Nat.mod_eq_of_lt (by simp only [W64]; omega)]
        omega
      rw [uget_ok (i := 2 + 2 * j) (a := en t L (j + 1) - 1) (by omega)
        (by rw [show 2 + 2 * j = 2 * (j + 1) by omega]; exact hx), ok_bind, Vec.set_ok _ (by omega)]
      refine ⟨_, rfl, v1, ?_, ?_, ?_⟩
      · intro k hk
        show (if 2 * k = 2 + 2 * j then _ else _) = _
        by_cases hkj : k = j + 1
        · rw [if_pos (by omega), if_pos (by omega), hkj, ha]
        · rw [if_neg (by omega), v2 k hk]
          by_cases hk' : k ≤ j
          · rw [if_pos hk', if_pos (by omega)]
          · rw [if_neg hk', if_neg (by omega)]
      · intro k hk
        show (if 2 * k = 2 + 2 * j then _ else _) = _
        rw [if_neg (by omega), v3 k hk]
      · intro k
        show (if 2 * k + 1 = 2 + 2 * j then _ else _) = _
        rw [if_neg (by omega), v4 k])
  refine ⟨w, e, h1, fun k hk => ?_, h3, h4⟩
  rw [h2 k hk, if_pos (by omega)]

theorem nbk_small (hL : 1 ≤ L) (hlen : t.len < 2 ^ 60) : 2 * nbk t L + 2 < W64 := by
  have := tot_le t
  have : nbk t L ≤ tot t := by
    unfold nbk
    have := Nat.div_add_mod (tot t) L
    have := Nat.div_le_self (tot t) L
    by_cases hr : tot t % L > 0
    · rw [if_pos hr]
      have : tot t / L * 1 ≤ L * (tot t / L) := by rw [Nat.mul_comm]; exact Nat.mul_le_mul_right _ hL
      omega
    · rw [if_neg hr]; omega
  simp only [W64]; omega

theorem encodeS_ok {N : Nat} {out0 fl : Vec (Option Byte)} {v : Vec (Option Nat)} (hL : 1 ≤ L) (hlen : t.len < 2 ^ 60)
    (hn : 0 < nbk t L) (hN : nbk t L < 16 * N) (hvl : v.len = 32 * N)
    (hev : ∀ m, m ≤ nbk t L → v.f (2 * m) = some (en t L m - 1) ∧ v.f (2 * m + 1) = some 0)
    (hz : ∀ y, 2 * nbk t L + 2 ≤ y → y < 32 * N → v.f y = some 0) (hfl : FlagsOK ty t L TH fl)
    (hroom : 1 < nbk t L ∨ sparse t L TH 0 = false ∨ 0 < tot t / L → offS ty t L TH (nbk t L) ≤ out0.len) :
    (∃ s, encodeS L TH t (tot t) (2 * nbk t L + 2) (32 * N) fl out0 v = ok s ∧ EncDone ty t L TH N out0 fl s) ∨
      ∃ f, encodeS L TH t (tot t) (2 * nbk t L + 2) (32 * N) fl out0 v = ub f ∧ FailS ty t L TH out0 fl f := by
  have hE : Evens t L v := ⟨by omega, fun k hk => (hev k hk).1⟩
  obtain ⟨w, ew, hw⟩ := walkStart_ok (TH := TH) hL hlen hn hE
  unfold encodeS
  rw [ew, ok_bind, sub64_eq (by omega) (nbk_small hL hlen), Nat.add_sub_cancel]
  cases hb : fl.f 0 with
  | none =>
    right
    rw [uget_uninit (by rw [hfl.len]; exact hn) hb]
    refine ⟨_, rfl, Or.inr ⟨rfl, ?_⟩⟩
    have : ¬ 1 < nbk t L := fun h => by
      have := hfl.val 0 (by omega)
      rw [hb] at this
      cases this
    rw [show nbk t L - 1 = 0 by omega, hb]
  | some b =>
    rw [uget_ok (by rw [hfl.len]; exact hn) hb, ok_bind]
    rcases encLoop_ok (SL := 32 * N) (out0 := out0) hL hlen hn hE hvl (fun k hk => (hev k hk).2) hfl hroom hb hw with
      ⟨w', s, e, hc, hs⟩ | ⟨f, e, hf⟩
    · left
      rw [e, ok_bind]
      simp only [hc]
      rw [sub64_eq (by omega) (by have := nbk_small hL hlen; omega)]
      have ho := hs.od (nbk t L - 1) (by omega)
      rw [if_pos (by omega)] at ho
      obtain ⟨v1, e1, a1, a2, a3, a4⟩ := encPad (c := nbk t L - 1) hs.slen (by omega) ho
      rw [show 2 * (nbk t L - 1 + 1) = 2 * nbk t L by omega,
        show 2 * (nbk t L - 1) + 1 = 2 * nbk t L - 1 by omega] at e1
      rw [e1, ok_bind]
      obtain ⟨v2, e2, b1, b2, b3, b4⟩ := encInc (SL := 32 * N) hL hlen (by omega) a1
        (fun k hk => (a2 k).trans (hs.ev k hk))
      rw [e2, ok_bind]
      refine ⟨_, rfl, b1, fun k hk => ?_, fun k hk => ?_, hs.blen, hs.room, hs.data, hs.keeps, hs.flag⟩
      · show v2.f (2 * k) = _
        unfold hv
        by_cases hk' : k ≤ nbk t L
        · rw [if_pos hk', b2 k hk']
        · rw [if_neg hk', b3 k (by omega), a2, hs.rest _ (by omega), hz _ (by omega) (by omega)]
      · show v2.f (2 * k + 1) = _
        rw [b4]
        unfold oS
        by_cases hk' : k ≤ nbk t L - 1
        · rw [a3 k hk', hs.od k (by omega), if_pos (by omega), Nat.min_eq_left hk']
        · rw [a4 k (by omega) hk, Nat.min_eq_right (by omega)]
    · right
      rw [e]
      exact ⟨f, rfl, hf⟩

end MRS.Mran
