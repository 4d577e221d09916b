import Verif.Proofs.Release
import Verif.Proofs.History

/-!
# Which debug builds of a bitmap stop at an assertion

A run of `treeBuild` with assertions on that returns has checked every value.
-/

set_option autoImplicit false

namespace MRS
open Outcome Spec

theorem bind_ok_inv {α β : Type} {x : Outcome α} {f : α → Outcome β} {v : β} (h : x >>= f = ok v) :
    ∃ a, x = ok a ∧ f a = ok v := by
  cases x with
  | ok a => exact ⟨a, rfl, h⟩
  | ub e => cases h
  | abort => cases h

/-- Every iteration of a loop that returns has returned. -/
theorem forFrom_iter {σ : Type} {f : Nat → σ → Outcome σ} : ∀ (n a : Nat) (s s' : σ),
    forFrom a n f s = ok s' → ∀ i, a ≤ i → i < a + n → ∃ s1 s2, f i s1 = ok s2 := by
  intro n
  induction n with
  | zero => intro a s s' _ i h1 h2; omega
  | succ n ih =>
    intro a s s' h i h1 h2
    obtain ⟨s1, e1, e2⟩ := bind_ok_inv h
    by_cases hi : i = a
    · exact ⟨s, s1, by rw [hi]; exact e1⟩
    · exact ih (a + 1) s1 s' e2 i (by omega) (by omega)

theorem forN_iter {σ : Type} {f : Nat → σ → Outcome σ} {n : Nat} {s s' : σ}
    (h : forN n f s = ok s') {i : Nat} (hi : i < n) : ∃ s1 s2, f i s1 = ok s2 :=
  forFrom_iter n 0 s s' h i (Nat.zero_le _) (by omega)

theorem massert_true {b : Build} {c : Bool} {u : Unit} (hb : b.ndebug = false)
    (h : massert b c = ok u) : c = true := by
  unfold massert at h
  rw [hb] at h
  cases c
  · cases h
  · rfl

/-- The upper levels do not touch the entry of the leaf level. -/
theorem levelUppers_keep : ∀ (cs : List NodeCfg) (s s' : LevelSt) (j : Nat), s.h ≤ j →
    levelUppers cs s = ok s' → s'.counts.f j = s.counts.f j := by
  intro cs
  induction cs with
  | nil =>
    intro s s' j _ h
    have : s = s' := by injection h
    rw [this]
  | cons c cs ih =>
    intro s s' j hj h
    unfold levelUppers at h
    dsimp only at h
    split at h
    · obtain ⟨s1, e1, e2⟩ := bind_ok_inv h
      unfold levelPush at e1
      dsimp only at e1
      split at e1
      · cases e1
      · obtain ⟨cv, e3, e4⟩ := bind_ok_inv e1
        injection e4 with e4
        rw [ih s1 s' j (by rw [← e4]; show s.h - 1 ≤ j; omega) e2, ← e4]
        show cv.f j = _
        unfold Vec.set at e3
        split at e3
        · injection e3 with e3
          rw [← e3]
          show (if j = s.h - 1 then _ else s.counts.f j) = _
          rw [if_neg (by omega)]
        · cases e3
    · exact ih s s' j hj h

theorem levels_leaf {b : Build} {fam : Family} {H n : Nat} {ls : LevelSt}
    (h : levels b fam H n = ok ls) : ls.counts.f (H - 1) = ceilDiv n fam.leaf.fanout % 2 ^ 32 := by
  unfold levels at h
  obtain ⟨s1, e1, h⟩ := bind_ok_inv h
  obtain ⟨s2, e2, h⟩ := bind_ok_inv h
  obtain ⟨u, _, h⟩ := bind_ok_inv h
  have hs : s2 = ls := by injection h
  rw [← hs]
  unfold levelPush at e1
  dsimp only at e1
  split at e1
  · cases e1
  · obtain ⟨cv, e3, e4⟩ := bind_ok_inv e1
    injection e4 with e4
    rw [levelUppers_keep _ s1 s2 (H - 1) (by rw [← e4]; exact Nat.le_refl _) e2, ← e4]
    show cv.f (H - 1) = _
    unfold Vec.set at e3
    split at e3
    · injection e3 with e3
      rw [← e3]
      show (if H - 1 = H - 1 then _ else _) = _
      rw [if_pos rfl]
    · cases e3

/-- A debug `build` that returns has seen no value above the bound. -/
theorem treeBuild_checked {b : Build} {fam : Family} {H addr n : Nat} {input : Vec Nat} {t t' : Tree}
    (hb : b.ndebug = false) (hf : 0 < fam.leaf.fanout) (hn : ceilDiv n fam.leaf.fanout < 2 ^ 32)
    (h : treeBuild b fam H addr input n t = ok t') : ∀ q, q < n → input.f q ≤ fam.maxVal := by
  intro q hq
  unfold treeBuild at h
  obtain ⟨_, _, h⟩ := bind_ok_inv h
  obtain ⟨ls, els, h⟩ := bind_ok_inv h
  dsimp only at h
  obtain ⟨m, _, h⟩ := bind_ok_inv h
  split at h
  · cases h
  obtain ⟨nodes, enodes, h⟩ := bind_ok_inv h
  obtain ⟨m2, eleaves, _⟩ := bind_ok_inv h
  have hnodes : nodes = ceilDiv n fam.leaf.fanout := by
    unfold Vec.get at enodes
    split at enodes
    · rw [levels_leaf els, Nat.mod_eq_of_lt hn] at enodes
      injection enodes with e; exact e.symm
    · cases enodes
  rw [hnodes] at eleaves
  unfold buildLeaves at eleaves
  obtain ⟨st, eloop, _⟩ := bind_ok_inv eleaves
  have hlt : q / fam.leaf.fanout < ceilDiv n fam.leaf.fanout := by
    rw [Nat.div_lt_iff_lt_mul hf]
    have := ceilDiv_mul_ge (m := n) hf
    rw [Nat.mul_comm] at this
    omega
  obtain ⟨s1, s2, ebody⟩ := forN_iter eloop hlt
  obtain ⟨tmp, efill, _⟩ := bind_ok_inv ebody
  unfold fillLeaf at efill
  have hdm := Nat.div_add_mod q fam.leaf.fanout
  rw [Nat.mul_comm] at hdm
  have hmod := Nat.mod_lt q hf
  obtain ⟨s3, s4, ein⟩ := forN_iter efill (i := q % fam.leaf.fanout) (by omega)
  obtain ⟨val, eval, ein⟩ := bind_ok_inv ein
  obtain ⟨u, eass, _⟩ := bind_ok_inv ein
  have := massert_true hb eass
  rw [decide_eq_true_iff] at this
  unfold Vec.get at eval
  split at eval
  · rw [hdm] at eval
    injection eval with e
    rw [e]; exact this
  · cases eval

/-- Past the end nothing is added. -/
theorem ones_of_le {B : List Bool} {i j : Nat} (h : B.length ≤ i) (h' : i ≤ j) :
    ones B j = ones B i := by
  unfold ones
  rw [List.take_of_length_le h, List.take_of_length_le (by omega)]

theorem fanout_pos (fam : TreeFam) : 128 ≤ fam.family.leaf.fanout := by
  cases fam <;> decide

/-- A debug `build` on an object holding `B` that returns leaves a content without overfull block. -/
theorem bmBuild_checked {c : Config} {addr : Nat} {ws : List Word} {bm bm' : Bitmap} {B : List Bool}
    (hb : c.b.ndebug = false) (h0 : 0 < ws.length)
    (hle : ceilDiv ws.length c.blk.width.words ≤ 2 ^ 24)
    (hl : B.length = 64 * bm.bits.len) (hr : Rep bm.bits.f B)
    (h : bmBuild c addr (Vec.ofList ws) ws.length bm = ok bm') :
    c.DebugOK (rebuilt c.blk.width.bits B ws) := by
  obtain ⟨hn, vals, v, hvl, hv, hf, hvals, e⟩ := bmBuild_eq (c := c) (bm := bm) (addr := addr)
    (input := Vec.ofList ws) (nw := ws.length) h0 (Nat.le_refl _) rfl hle
  rw [e] at h
  obtain ⟨t, et, _⟩ := bind_ok_inv h
  have hfo := fanout_pos c.fam
  have hchk := treeBuild_checked hb (by omega) (by
    refine Nat.lt_of_le_of_lt (m := 2 ^ 24) ?_ (by decide)
    unfold ceilDiv
    apply Nat.lt_succ_iff.1
    rw [Nat.div_lt_iff_lt_mul (by omega)]
    have := Nat.mul_le_mul_left (2 ^ 24 + 1) hfo
    unfold ceilDiv at hle
    have h2 : (2 ^ 24 + 1) * c.fam.family.leaf.fanout
      = 2 ^ 24 * c.fam.family.leaf.fanout + c.fam.family.leaf.fanout := by rw [Nat.succ_mul]
    have h3 : 2 ^ 24 * 128 ≤ 2 ^ 24 * c.fam.family.leaf.fanout := Nat.mul_le_mul_left _ hfo
    rw [h2]
    omega) et
  have hrep := rebuilt_rep (m := c.blk.width.bits) (ws := ws) hl hr
  have hlen : (rebuilt c.blk.width.bits B ws).length =
      64 * (c.blk.width.words * ceilDiv ws.length c.blk.width.words) := by
    rw [rebuilt_length (Width.bits_pos _), Width.bits_eq,
      ceilDiv_scale _ _ (Width.words_pos _), Nat.mul_assoc]
  refine Or.inr fun q => ?_
  by_cases hq : q < ceilDiv ws.length c.blk.width.words
  · have h1 := blkCnt_ones hrep hlen hq
    have h2 := hchk q hq
    rw [hvals q hq, show v.f = _ from funext hf] at h2
    rw [Width.bits_eq] at *
    omega
  · have : (rebuilt c.blk.width.bits B ws).length ≤ c.blk.width.bits * q := by
      rw [hlen, Width.bits_eq, ← Nat.mul_assoc]
      exact Nat.mul_le_mul_left _ (by omega)
    rw [ones_of_le this (Nat.mul_le_mul_left _ (Nat.le_succ q))]
    omega

end MRS
