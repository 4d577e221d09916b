import Verif.Proofs.Mranisz.MpeBuild

/-! # Compressed rank with pairs left out: writing the blocks -/

set_option autoImplicit false

namespace MRS.Mran
open Outcome Spec Poppy

variable {ty : MpeType} {t : Vec Byte}

theorem Enc.put_ok {s : Enc} {x : Byte} (h : s.bc < s.out.len) :
    s.put x = ok { s with out := ⟨s.out.len, fun j => if j = s.bc then some x else s.out.f j⟩, bc := s.bc + 1 } := by
  unfold Enc.put
  rw [Vec.set_ok _ h]
  rfl

/-- The first `p` pairs of the bytes `c` stored in kind `k` from `o` on. -/
structure Kept (k : Nat) (c : Nat → Byte) (o p : Nat) (out : Vec (Option Byte)) : Prop where
  kept : ∀ p', p' < p → dp k c p' = false → ∀ b, b < 2 → out.f (o + 2 * kp k c p' + b) = some (c (2 * p' + b))

theorem kp_lt {k : Nat} {c : Nat → Byte} {a b : Nat} (h : dp k c a = false) (hab : a < b) : kp k c a + 1 ≤ kp k c b := by
  have h1 := kp_succ k c a
  rw [h, if_neg (by simp)] at h1
  have := kp_mono k c (show a + 1 ≤ b by omega)
  omega

/-- Inside a block, after `p` pairs. -/
structure PairInv (k : Nat) (c : Nat → Byte) (o : Nat) (s0 : Enc) (p : Nat) (s : Enc × Word × Word) : Prop where
  ranks : s.1.ranks = s0.ranks
  rc : s.1.rc = s0.rc
  off : s.1.off = s0.off
  len : s.1.out.len = s0.out.len
  bc : s.1.bc = o + 2 * kp k c p
  kept : Kept k c o p s.1.out
  low : ∀ x, x < o → s.1.out.f x = s0.out.f x
  high : ∀ x, o + 2 * kp k c p ≤ x → s.1.out.f x = s0.out.f x
  w1 : s.2.1 = pw (dp k c) p
  w2 : s.2.2 = pw (fp c) p

theorem encPair_ok {k : Nat} (hk : k ≠ 0) {tmp : Vec (Option Byte)} {off : Nat} {c : Nat → Byte}
    (hl : off + 128 ≤ tmp.len) (h : ∀ j, j < 128 → tmp.f (off + j) = some (c j)) {o : Nat} {s0 : Enc}
    (ho : o + 2 * kp k c 64 ≤ s0.out.len) {p : Nat} (hp : p < 64) {s : Enc × Word × Word} (hi : PairInv k c o s0 p s) :
    ∃ s', encPair k tmp off p s = ok s' ∧ PairInv k c o s0 (p + 1) s' := by
  unfold encPair
  rw [uget_ok (by omega) (h (2 * p) (by omega)), ok_bind, Nat.add_assoc,
    uget_ok (by omega) (h (2 * p + 1) (by omega)), ok_bind]
  simp only []
  have hdM : dropped k (c (2 * p)) (c (2 * p + 1)) = dp k c p := by
    unfold dp
    rw [show (k != 0) = true by simp [hk], Bool.true_and]
  have hw2 : (if (c (2 * p) == 255#8 && c (2 * p + 1) == 255#8) = true then s.2.2 + 1#64 <<< (63 - p) else s.2.2) =
      pw (fp c) (p + 1) := by
    rw [hi.w2]; rfl
  rw [hdM, hw2]
  have hm := kp_mono k c (show p + 1 ≤ 64 by omega)
  have hks := kp_succ k c p
  have hlen := hi.len
  have hbc := hi.bc
  cases hdp : dp k c p
  · rw [if_neg (by simp)]
    rw [hdp, if_neg (by simp)] at hks
    rw [Enc.put_ok (by omega), ok_bind, Enc.put_ok (by show s.1.bc + 1 < s.1.out.len; omega), ok_bind]
    refine ⟨_, rfl, hi.ranks, hi.rc, hi.off, hlen, ?_, ⟨?_⟩, ?_, ?_, ?_, rfl⟩
    · show s.1.bc + 1 + 1 = _; omega
    · intro p' hp' hd' b hb
      show (if _ = s.1.bc + 1 then _ else if _ = s.1.bc then _ else _) = _
      by_cases hpp : p' = p
      · subst hpp
        have : b = 0 ∨ b = 1 := by omega
        rcases this with rfl | rfl
        · rw [if_neg (by omega), if_pos (by omega)]; rfl
        · rw [if_pos (by omega)]
      · have := kp_lt hd' (show p' < p by omega)
        rw [if_neg (by omega), if_neg (by omega)]
        exact hi.kept.kept p' (by omega) hd' b hb
    · intro x hx
      show (if _ = s.1.bc + 1 then _ else if _ = s.1.bc then _ else _) = _
      rw [if_neg (by omega), if_neg (by omega), hi.low x hx]
    · intro x hx
      show (if _ = s.1.bc + 1 then _ else if _ = s.1.bc then _ else _) = _
      rw [if_neg (by omega), if_neg (by omega), hi.high x (by omega)]
    · show s.2.1 = _; rw [hi.w1]; rw [pw.eq_2, hdp, if_neg (by simp)]
  · rw [if_pos rfl]
    rw [hdp, if_pos rfl] at hks
    refine ⟨_, rfl, hi.ranks, hi.rc, hi.off, hlen, ?_, ⟨?_⟩, hi.low, ?_, ?_, rfl⟩
    · show s.1.bc = _; omega
    · intro p' hp' hd' b hb
      have hpp : p' ≠ p := fun hpp => by rw [hpp, hdp] at hd'; cases hd'
      exact hi.kept.kept p' (by omega) hd' b hb
    · intro x hx
      exact hi.high x (by omega)
    · show s.2.1 + _ = _; rw [hi.w1]; rw [pw.eq_2, hdp, if_pos rfl]

theorem storeWord_ok {out : Vec (Option Byte)} {p : Nat} {w : Word} (h : p + 8 ≤ out.len) :
    ∃ o, storeWord out p w = ok o ∧ o.len = out.len ∧
      (∀ k, k < 8 → o.f (p + k) = some ((w >>> (8 * k)).setWidth 8)) ∧
      ∀ x, x < p ∨ p + 8 ≤ x → o.f x = out.f x := by
  unfold storeWord
  obtain ⟨o, e, h1, h2, h3⟩ := forN_inv
    (body := fun k (o : Vec (Option Byte)) => o.set (p + k) (some ((w >>> (8 * k)).setWidth 8)))
    (fun k o => o.len = out.len ∧ (∀ k', k' < k → o.f (p + k') = some ((w >>> (8 * k')).setWidth 8)) ∧
      ∀ x, x < p ∨ p + 8 ≤ x → o.f x = out.f x) 8 out
    ⟨rfl, by intro k hk; omega, fun _ _ => rfl⟩
    (by
      intro k o hk ⟨a1, a2, a3⟩
      rw [Vec.set_ok _ (by omega)]
      refine ⟨_, rfl, a1, ?_, ?_⟩
      · intro k' hk'
        show (if p + k' = p + k then _ else _) = _
        by_cases hkk : k' = k
        · rw [if_pos (by omega), hkk]
        · rw [if_neg (by omega), a2 k' (by omega)]
      · intro x hx
        show (if x = p + k then _ else _) = _
        rw [if_neg (by omega), a3 x hx])
  exact ⟨o, e, h1, h2, h3⟩

/-- Bytes `c` stored in kind `k` at `o`. -/
structure StoredAt (k : Nat) (c : Nat → Byte) (o : Nat) (out : Vec (Option Byte)) : Prop where
  h1 : k ≠ 0 → ∀ j, j < 8 → out.f (o + j) = some ((pw (dp k c) 64 >>> (8 * j)).setWidth 8)
  h2 : k = 3 → ∀ j, j < 8 → out.f (o + 8 + j) = some ((pw (fp c) 64 >>> (8 * j)).setWidth 8)
  kept : Kept k c (o + hdM k) 64 out

theorem hd_le (k : Nat) : hdM k ≤ 16 := by unfold hdM; (repeat' split) <;> omega

theorem StoredAt.congr {k : Nat} {c : Nat → Byte} {o : Nat} {out out' : Vec (Option Byte)} (h : StoredAt k c o out)
    (he : ∀ x, x < o + (hdM k + 2 * kp k c 64) → out'.f x = out.f x) : StoredAt k c o out' := by
  refine ⟨fun hk j hj => ?_, fun hk j hj => ?_, ⟨fun p hp hd' b hb => ?_⟩⟩
  · have : 8 ≤ hdM k := by unfold hdM; (repeat' split) <;> omega
    rw [he _ (by omega)]; exact h.h1 hk j hj
  · have : hdM k = 16 := by rw [hk]; rfl
    rw [he _ (by omega)]; exact h.h2 hk j hj
  · have := kp_lt hd' hp
    rw [he _ (by omega)]; exact h.kept.kept p hp hd' b hb

/-- State before block `q`. -/
structure EncInv (ty : MpeType) (t : Vec Byte) (R : Vec (Option Nat)) (out0 : Vec (Option Byte)) (q : Nat)
    (s : Enc) : Prop where
  rlen : s.ranks.len = R.len
  even : ∀ k, s.ranks.f (2 * k) = R.f (2 * k)
  odd : ∀ k, k < q → s.ranks.f (2 * k + 1) = some (eo ty t k)
  rc : s.rc = 2 * q + 1
  off : s.off = 128 * neM t q
  bc : s.bc = eo ty t q
  len : s.out.len = out0.len
  st : ∀ k, k < q → ¬ HomM t k → StoredAt (kd ty t k) (blk t k) (eo ty t k) s.out
  rest : ∀ x, eo ty t q ≤ x → s.out.f x = out0.f x

theorem encBlock_ok {e : Vec (Option Bool)} (he : EmptyM t e) {v : Nat → Nat} {sp : PassM} (hp : PassOKM t v sp)
    {g : Option (Nat → Byte)} {Lf : Nat} {pl : Plan} (hpl : PlanOK ty t g Lf pl) {R : Vec (Option Nat)} (hR : 2 * nblkM t + 2 ≤ R.len)
    {out0 : Vec (Option Byte)} (hout : eo ty t (nblkM t) ≤ out0.len) {q : Nat} (hq : q < nblkM t) {s : Enc}
    (h : EncInv ty t R out0 q s) :
    ∃ s', encBlock e pl.flags sp.bits q s = ok s' ∧ EncInv ty t R out0 (q + 1) s' := by
  unfold encBlock
  have hrl := h.rlen
  have hrc := h.rc
  have hbc := h.bc
  have hol := h.len
  have hoff := h.off
  rw [Vec.set_ok _ (by omega), ok_bind]
  simp only []
  rw [he.get hq, ok_bind]
  generalize hrr : (⟨s.ranks.len, fun j => if j = s.rc then some s.bc else s.ranks.f j⟩ : Vec (Option Nat)) = r'
  have f0 : ∀ k, r'.f (2 * k) = R.f (2 * k) := by
    intro k
    rw [← hrr]
    show (if 2 * k = s.rc then _ else _) = _
    rw [if_neg (by omega), h.even k]
  have f1 : ∀ k, k < q + 1 → r'.f (2 * k + 1) = some (eo ty t k) := by
    intro k hk
    rw [← hrr]
    show (if 2 * k + 1 = s.rc then _ else _) = _
    by_cases hkq : k = q
    · rw [if_pos (by omega), hbc, hkq]
    · rw [if_neg (by omega), h.odd k (by omega)]
  have fl : r'.len = R.len := by rw [← hrr]; exact hrl
  by_cases hh : HomM t q
  · simp only [hh, decide_true, if_true]
    have hne : neM t (q + 1) = neM t q := by rw [neM_succ, if_pos hh]; rfl
    have heo : eo ty t (q + 1) = eo ty t q := by rw [eo_succ, if_pos hh]; rfl
    refine ⟨_, rfl, fl, f0, f1, ?_, by rw [hne]; exact hoff, by rw [heo]; exact hbc, hol, ?_, by rw [heo]; exact h.rest⟩
    · show s.rc + 2 = _; omega
    · intro k hk hn
      have : k ≠ q := fun hkq => hn (hkq ▸ hh)
      exact h.st k (by omega) hn
  · simp only [hh, decide_false, Bool.false_eq_true, if_false]
    have hne : neM t (q + 1) = neM t q + 1 := by rw [neM_succ, if_neg hh]
    have heo : eo ty t (q + 1) = eo ty t q + sl ty t q := by rw [eo_succ, if_neg hh]
    have hlt := neM_lt hh hq
    have hmono := eo_mono ty t (show q + 1 ≤ nblkM t by omega)
    have hsl : sl ty t q = hdM (kd ty t q) + 2 * kp (kd ty t q) (blk t q) 64 := rfl
    have hkl := kd_lt ty t q
    have hbl := hp.blen
    have hw := hp.w q hq hh
    have hge := hpl.ge
    rw [uget_ok (by rw [hpl.len]; omega) (hpl.val q hq), ok_bind, if_neg hh]
    have hkN : (BitVec.ofNat 8 (kd ty t q)).toNat = kd ty t q := by
      rw [BitVec.toNat_ofNat]; omega
    rw [hkN]
    -- what remains is to store the block
    have fin : ∀ out' : Vec (Option Byte), out'.len = s.out.len → StoredAt (kd ty t q) (blk t q) (eo ty t q) out' →
        (∀ x, x < eo ty t q → out'.f x = s.out.f x) → (∀ x, eo ty t (q + 1) ≤ x → out'.f x = s.out.f x) →
        EncInv ty t R out0 (q + 1) ⟨r', out', eo ty t (q + 1), s.rc + 2, s.off + 128⟩ := by
      intro out' l1 l2 l3 l4
      refine ⟨fl, f0, f1, ?_, ?_, rfl, by show out'.len = _; rw [l1, hol], ?_, ?_⟩
      · show s.rc + 2 = _; omega
      · show s.off + 128 = _; omega
      · intro k hk hn
        by_cases hkq : k = q
        · subst hkq; exact l2
        · refine (h.st k (by omega) hn).congr (fun x hx => ?_)
          have : eo ty t (k + 1) = eo ty t k + sl ty t k := by rw [eo_succ, if_neg hn]
          have h1 : sl ty t k = hdM (kd ty t k) + 2 * kp (kd ty t k) (blk t k) 64 := rfl
          have := eo_mono ty t (show k + 1 ≤ q by omega)
          exact l3 x (by omega)
      · intro x hx
        show out'.f x = _
        rw [l4 x hx, h.rest x (by omega)]
    generalize kd ty t q = k at *
    have hk4 : k = 3 ∨ (k = 1 ∨ k = 2) ∨ k = 0 := by omega
    rcases hk4 with rfl | hk12 | rfl
    · rw [if_pos rfl]
      rw [show hdM 3 = 16 from rfl] at hsl
      obtain ⟨⟨s', w1, w2⟩, e', i'⟩ := forN_inv (body := encPair 3 sp.bits s.off)
        (PairInv 3 (blk t q) (eo ty t q + 16) { s with ranks := r', rc := s.rc + 2, bc := s.bc + 16 }) 64
        ({ s with ranks := r', rc := s.rc + 2, bc := s.bc + 16 }, 0#64, 0#64)
        ⟨rfl, rfl, rfl, rfl, by show s.bc + 16 = eo ty t q + 16 + 0; omega, ⟨by intro p' hp'; omega⟩,
          fun _ _ => rfl, fun _ _ => rfl, rfl, rfl⟩
        (by
          intro p s' hp' hi
          exact encPair_ok (by decide) (by omega) (fun j hj => by rw [hoff]; exact hw j hj)
            (by show _ ≤ s.out.len; omega) hp' hi)
      have hlen' : s'.out.len = s.out.len := i'.len
      have hw1 : w1 = pw (dp 3 (blk t q)) 64 := i'.w1
      have hw2 : w2 = pw (fp (blk t q)) 64 := i'.w2
      have hr' : s'.ranks = r' := i'.ranks
      have hrc' : s'.rc = s.rc + 2 := i'.rc
      have hoff' : s'.off = s.off := i'.off
      have hbc' : s'.bc = eo ty t q + 16 + 2 * kp 3 (blk t q) 64 := i'.bc
      rw [e', ok_bind]
      simp only []
      rw [hr', hrc', show s.rc + 2 - 2 = 2 * q + 1 by omega, uget_ok (by omega) (f1 q (by omega)), ok_bind]
      obtain ⟨o1, eo1, a1, a2, a3⟩ := storeWord_ok (out := s'.out) (p := eo ty t q) (w := w1) (by omega)
      obtain ⟨o2, eo2, b1, b2, b3⟩ := storeWord_ok (out := o1) (p := eo ty t q + 8) (w := w2) (by omega)
      rw [eo1, ok_bind, eo2, ok_bind, ok_bind, hoff']
      have hbc2 : s'.bc = eo ty t (q + 1) := by omega
      rw [hbc2]
      refine ⟨_, rfl, fin o2 (by omega) ⟨?_, ?_, ⟨?_⟩⟩ ?_ ?_⟩
      · intro _ j hj
        rw [b3 _ (by omega), a2 j hj, hw1]
      · intro _ j hj
        rw [b2 j hj, hw2]
      · intro p hp' hd' b hb
        rw [show hdM 3 = 16 from rfl, b3 _ (by omega), a3 _ (by omega)]
        exact i'.kept.kept p hp' hd' b hb
      · intro x hx
        rw [b3 _ (by omega), a3 _ (by omega)]
        exact i'.low x (by omega)
      · intro x hx
        rw [b3 _ (by omega), a3 _ (by omega)]
        exact i'.high x (by omega)
    · have hk0 : k ≠ 0 := by omega
      have hk3 : k ≠ 3 := by omega
      have hhd : hdM k = 8 := by unfold hdM; rw [if_neg hk3, if_neg hk0]
      rw [if_neg hk3, if_pos hk12]
      rw [hhd] at hsl
      obtain ⟨⟨s', w1, w2⟩, e', i'⟩ := forN_inv (body := encPair k sp.bits s.off)
        (PairInv k (blk t q) (eo ty t q + 8) { s with ranks := r', rc := s.rc + 2, bc := s.bc + 8 }) 64
        ({ s with ranks := r', rc := s.rc + 2, bc := s.bc + 8 }, 0#64, 0#64)
        ⟨rfl, rfl, rfl, rfl, by show s.bc + 8 = eo ty t q + 8 + 0; omega, ⟨by intro p' hp'; omega⟩,
          fun _ _ => rfl, fun _ _ => rfl, rfl, rfl⟩
        (by
          intro p s' hp' hi
          exact encPair_ok hk0 (by omega) (fun j hj => by rw [hoff]; exact hw j hj)
            (by show _ ≤ s.out.len; omega) hp' hi)
      have hlen' : s'.out.len = s.out.len := i'.len
      have hw1 : w1 = pw (dp k (blk t q)) 64 := i'.w1
      have hr' : s'.ranks = r' := i'.ranks
      have hrc' : s'.rc = s.rc + 2 := i'.rc
      have hoff' : s'.off = s.off := i'.off
      have hbc' : s'.bc = eo ty t q + 8 + 2 * kp k (blk t q) 64 := i'.bc
      rw [e', ok_bind]
      simp only []
      rw [hr', hrc', show s.rc + 2 - 2 = 2 * q + 1 by omega, uget_ok (by omega) (f1 q (by omega)), ok_bind]
      obtain ⟨o1, eo1, a1, a2, a3⟩ := storeWord_ok (out := s'.out) (p := eo ty t q) (w := w1) (by omega)
      rw [eo1, ok_bind, ok_bind, hoff']
      have hbc2 : s'.bc = eo ty t (q + 1) := by omega
      rw [hbc2]
      refine ⟨_, rfl, fin o1 (by omega) ⟨?_, ?_, ⟨?_⟩⟩ ?_ ?_⟩
      · intro _ j hj
        rw [a2 j hj, hw1]
      · intro h3; omega
      · intro p hp' hd' b hb
        rw [hhd, a3 _ (by omega)]
        exact i'.kept.kept p hp' hd' b hb
      · intro x hx
        rw [a3 _ (by omega)]
        exact i'.low x (by omega)
      · intro x hx
        rw [a3 _ (by omega)]
        exact i'.high x (by omega)
    · rw [if_neg (by omega), if_neg (by omega)]
      rw [show hdM 0 = 0 from rfl, kp_zero] at hsl
      obtain ⟨s', e', h1, h2, h3, h4, h5, h6, h7⟩ := forN_inv (body := fun j (s : Enc) => do
          let a ← uget sp.bits (s.off + j)
          s.put a)
        (fun j s' => s'.ranks = r' ∧ s'.rc = s.rc + 2 ∧ s'.off = s.off ∧ s'.out.len = s.out.len ∧
          s'.bc = eo ty t q + j ∧ (∀ j', j' < j → s'.out.f (eo ty t q + j') = some (blk t q j')) ∧
          ∀ x, x < eo ty t q ∨ eo ty t q + j ≤ x → s'.out.f x = s.out.f x) 128
        { s with ranks := r', rc := s.rc + 2 }
        ⟨rfl, rfl, rfl, rfl, hbc, by intro j' hj'; omega, fun _ _ => rfl⟩
        (by
          intro j s' hj ⟨c1, c2, c3, c4, c5, c6, c7⟩
          rw [c3, hoff, uget_ok (by omega) (hw j hj), ok_bind, Enc.put_ok (by omega)]
          refine ⟨_, rfl, c1, c2, by rw [← hoff]; exact c3, c4, ?_, ?_, ?_⟩
          · show s'.bc + 1 = _; omega
          · intro j' hj'
            show (if _ = s'.bc then _ else _) = _
            by_cases hjj : j' = j
            · rw [if_pos (by omega), hjj]
            · rw [if_neg (by omega), c6 j' (by omega)]
          · intro x hx
            show (if x = s'.bc then _ else _) = _
            rw [if_neg (by omega), c7 x (by omega)])
      rw [e', ok_bind, h1, h2, h3, h5]
      rw [show eo ty t q + 128 = eo ty t (q + 1) by omega]
      refine ⟨_, rfl, fin s'.out h4 ⟨fun h => absurd rfl h, fun h => absurd h (by decide), ⟨?_⟩⟩ ?_ ?_⟩
      · intro p hp' hd' b hb
        rw [kp_zero, show hdM 0 = 0 from rfl, show eo ty t q + 0 + 2 * p + b = eo ty t q + (2 * p + b) by omega]
        exact h6 _ (by omega)
      · intro x hx; exact h7 x (by omega)
      · intro x hx; exact h7 x (by omega)

/-- Offset of block `k`; beyond the text that of the last block. -/
def oM (ty : MpeType) (t : Vec Byte) (k : Nat) : Nat := eo ty t (min k (nblkM t - 1))

/-- What the loop leaves. -/
structure EncOK (ty : MpeType) (t : Vec Byte) (v : Nat → Nat) (out0 : Vec (Option Byte)) (s : Enc) : Prop where
  rlen : s.ranks.len = tmpLenM t
  even : ∀ k, 2 * k < tmpLenM t → s.ranks.f (2 * k) = some (v k)
  odd : ∀ k, 2 * k + 1 < tmpLenM t → s.ranks.f (2 * k + 1) = some (oM ty t k)
  len : s.out.len = out0.len
  st : ∀ k, k < nblkM t → ¬ HomM t k → StoredAt (kd ty t k) (blk t k) (eo ty t k) s.out
  rest : ∀ x, eo ty t (nblkM t) ≤ x → s.out.f x = out0.f x

theorem encode_ok {e : Vec (Option Bool)} (he : EmptyM t e) {v : Nat → Nat} {sp : PassM} (hp : PassOKM t v sp)
    {g : Option (Nat → Byte)} {Lf : Nat} {pl : Plan} (hpl : PlanOK ty t g Lf pl) {out0 : Vec (Option Byte)} (hout : eo ty t (nblkM t) ≤ out0.len)
    (hN : 0 < nblkM t) (hlen : t.len < 2 ^ 60) :
    ∃ s, encode t e pl.flags sp.bits out0 sp.ranks = ok s ∧ EncOK ty t v out0 s := by
  have hl := tmpLenM_eq t
  unfold encode
  obtain ⟨s, e1, i⟩ := forN_inv (body := encBlock e pl.flags sp.bits) (EncInv ty t sp.ranks out0) (nblkM t)
    ⟨sp.ranks, out0, 0, 1, 0⟩
    ⟨rfl, fun _ => rfl, by intro k hk; omega, rfl, rfl, rfl, rfl, by intro k hk; omega, fun _ _ => rfl⟩
    (fun q s hq hi => encBlock_ok he hp hpl (by rw [hp.rlen]; omega) hout hq hi)
  have hrc := i.rc
  have hrl : s.ranks.len = tmpLenM t := by rw [i.rlen, hp.rlen]
  have hnl := nblkM_le t
  rw [e1, ok_bind]
  have hsub : sub64 s.rc 2 = 2 * (nblkM t - 1) + 1 := by
    rw [sub64_eq (by omega) (by simp only [W64]; omega)]; omega
  rw [hsub]
  obtain ⟨r, e2, h1, h2, h3⟩ := forN_inv (body := fun k (r : Vec (Option Nat)) => do
      let o ← uget r (2 * (nblkM t - 1) + 1)
      r.set (s.rc + 2 * k) (some o))
    (fun k r => r.len = tmpLenM t ∧ (∀ x, (∀ k', k' < k → x ≠ s.rc + 2 * k') → r.f x = s.ranks.f x) ∧
      ∀ k', k' < k → r.f (s.rc + 2 * k') = some (eo ty t (nblkM t - 1))) ((tmpLenM t - s.rc + 1) / 2) s.ranks
    ⟨hrl, fun _ _ => rfl, by intro k hk; omega⟩
    (by
      intro k r hk ⟨a1, a2, a3⟩
      rw [uget_ok (a := eo ty t (nblkM t - 1)) (by omega) (by
        rw [a2 _ (by intro k' hk'; omega)]; exact i.odd _ (by omega)), ok_bind, Vec.set_ok _ (by omega)]
      refine ⟨_, rfl, a1, ?_, ?_⟩
      · intro x hx
        show (if x = s.rc + 2 * k then _ else _) = _
        rw [if_neg (hx k (by omega)), a2 x (fun k' hk' => hx k' (by omega))]
      · intro k' hk'
        show (if s.rc + 2 * k' = s.rc + 2 * k then _ else _) = _
        by_cases hkk : k' = k
        · rw [if_pos (by omega)]
        · rw [if_neg (by omega), a3 k' (by omega)])
  rw [e2, ok_bind]
  refine ⟨_, rfl, h1, ?_, ?_, i.len, i.st, i.rest⟩
  · intro k hk
    show r.f _ = _
    rw [h2 _ (by intro k' hk'; omega), i.even k, hp.even k hk]
  · intro k hk
    show r.f _ = _
    unfold oM
    by_cases hkn : k < nblkM t
    · rw [h2 _ (by intro k' hk'; omega), i.odd k hkn, show min k (nblkM t - 1) = k by omega]
    · have := h3 (k - nblkM t) (by omega)
      rw [show s.rc + 2 * (k - nblkM t) = 2 * k + 1 by omega] at this
      rw [this, show min k (nblkM t - 1) = nblkM t - 1 by omega]

/-- Without blocks the offset of the last one is read in front of the array. -/
theorem encode_empty {e : Vec (Option Bool)} {v : Nat → Nat} {sp : PassM} (hp : PassOKM t v sp) {fl out0 : Vec (Option Byte)}
    (hN : nblkM t = 0) : encode t e fl sp.bits out0 sp.ranks = ub .oob := by
  have hl := tmpLenM_eq t
  unfold encode
  rw [hN]
  show (do
    let r ← forN ((tmpLenM t - 1 + 1) / 2) (fun k r => do
      let o ← uget r (sub64 1 2)
      r.set (1 + 2 * k) (some o)) sp.ranks
    _) = _
  rw [show (tmpLenM t - 1 + 1) / 2 = 15 + 1 by omega]
  unfold forN forFrom
  have : uget sp.ranks (sub64 1 2) = ub .oob := by
    unfold uget Vec.get
    rw [if_neg (by rw [hp.rlen, hl, hN]; decide)]
    rfl
  simp only [this]
  rfl

end MRS.Mran
