import Verif.Model.TestBlocks
import Verif.Proofs.Tests

/-!
# The repository's tests of the block algorithms: the naive functions
-/

set_option autoImplicit false

namespace MRS.Test
open MRS Outcome Spec

section
variable {B : List Bool} {stop : Nat → Nat → Bool}

/-- Position `q` is the first one from `p` on at which `goto EXIT` is taken. -/
structure First (B : List Bool) (stop : Nat → Nat → Bool) (p q : Nat) : Prop where
  le : p ≤ q
  yes : stop (ones B (q + 1)) q = true
  no : ∀ r, p ≤ r → r < q → stop (ones B (r + 1)) r = false

theorem First.mono {p p' q : Nat} (h : First B stop p q) (h1 : p ≤ p') (h2 : p' ≤ q) :
    First B stop p' q := ⟨h2, h.yes, fun r h3 h4 => h.no r (by omega) h4⟩

theorem naiveBits_eq {f : Nat → Word} {w : Nat} (hr : Rep f B) (hw : 64 * w + 64 ≤ B.length)
    (hN : B.length < W64) {q : Nat} : ∀ (n t : Nat), t + n = 64 → First B stop (64 * w + t) q →
    naiveBits stop n (f w >>> t) (ones B (64 * w + t)) (64 * w + t) =
      if q < 64 * w + 64 then (true, ones B (q + 1), q) else (false, ones B (64 * w + 64), 64 * w + 64) := by
  intro n
  induction n with
  | zero =>
    intro t ht hf
    have : t = 64 := by omega
    subst this
    have := hf.le
    rw [if_neg (by omega)]
    rfl
  | succ n ih =>
    intro t ht hf
    unfold naiveBits
    have hp : 64 * w + t < B.length := by omega
    have hb : B[64 * w + t] = (f w).getLsbD t := by
      rw [hr.get hp]
      unfold fbit
      rw [show (64 * w + t) / 64 = w by omega, show (64 * w + t) % 64 = t by omega]
    have ho : ones B (64 * w + t + 1) = ones B (64 * w + t) + ((f w >>> t) &&& 1#64).toNat := by
      rw [low_bit, ones_succ hp, hb]
    have hle := ones_len B (64 * w + t + 1)
    simp only
    rw [add64_eq (by omega), ← ho]
    have hql := hf.le
    by_cases hq : q = 64 * w + t
    · subst hq
      rw [if_pos hf.yes, if_pos (by omega)]
    · rw [hf.no _ (Nat.le_refl _) (by omega), if_neg Bool.false_ne_true, add64_eq (by omega),
        ← BitVec.shiftRight_add, Nat.add_assoc]
      exact ih (t + 1) (by omega) (hf.mono (by omega) (by omega))

theorem naiveWords_eq {x : Ptr} {W : Nat} (hx : x.base + W ≤ x.v.len)
    (hr : Rep (fun j => x.v.f (x.base + j)) B) (hl : B.length = 64 * W) (hN : B.length < W64) {q : Nat}
    (hq : q < B.length) : ∀ (n w : Nat), w + n = W → First B stop (64 * w) q →
      naiveWords stop x n w (ones B (64 * w)) (64 * w) = ok (ones B (q + 1), q) := by
  intro n
  induction n with
  | zero => intro w hw hf; have := hf.le; omega
  | succ n ih =>
    intro w hw hf
    unfold naiveWords
    have hg : x.at w = ok (x.v.f (x.base + w)) := by
      unfold Ptr.at Vec.get
      rw [if_pos (by omega)]
    have := naiveBits_eq (stop := stop) (f := fun j => x.v.f (x.base + j)) (w := w) hr (by omega) hN 64 0
      (by omega) hf
    simp only [BitVec.ushiftRight_zero, Nat.add_zero] at this
    rw [hg, ok_bind]
    simp only
    rw [this]
    by_cases hc : q < 64 * w + 64
    · rw [if_pos hc, if_pos rfl]
    · rw [if_neg hc, if_neg (by simp)]
      exact ih (w + 1) (by omega) (hf.mono (by omega) (by omega))

theorem naiveRank_eq {x : Ptr} {W : Nat} (b : Build) (hx : x.base + W ≤ x.v.len)
    (hr : Rep (fun j => x.v.f (x.base + j)) B) (hl : B.length = 64 * W) (hN : B.length < W64) {i : Nat}
    (hi : i < B.length) : naiveRank b W x i = ok (Spec.rank B i) := by
  unfold naiveRank
  rw [massert_ok (decide_eq_true (by omega)), ok_bind]
  have := naiveWords_eq (stop := fun _ pos => decide (pos = i)) hx hr hl hN hi W 0 (by omega)
    ⟨by omega, decide_eq_true rfl, fun r _ h => decide_eq_false (by omega)⟩
  have h0 : ones B (64 * 0) = 0 := by simp [Spec.ones]
  rw [h0] at this
  have hle := ones_len B (i + 1)
  rw [this, ok_bind]
  simp only
  rw [massert_ok (decide_eq_true (by omega)), ok_bind]
  rfl

theorem naiveSelect_eq {x : Ptr} {W : Nat} (b : Build) (hx : x.base + W ≤ x.v.len)
    (hr : Rep (fun j => x.v.f (x.base + j)) B) (hl : B.length = 64 * W) (hN : B.length < W64) {k : Nat}
    (hk : k < ones B B.length) : ∃ p, naiveSelect b W x k = ok p ∧ IsSelect B k p := by
  obtain ⟨q, _, hq, hs⟩ := exists_isSelect (B := B) (p := 0) (k := k) (by simp [Spec.ones]) hk (by omega)
  refine ⟨q, ?_, hs⟩
  have hle := ones_len B q
  rw [hs.2] at hle
  have hq1 : ones B (q + 1) = k + 1 := by
    have := hs.1
    rw [List.getElem?_eq_getElem hq] at this
    rw [ones_succ hq, Option.some.inj this, if_pos rfl, hs.2]
  have hw := naiveWords_eq (stop := fun o _ => decide (o = k + 1)) hx hr hl hN hq W 0 (by omega)
    ⟨by omega, decide_eq_true hq1, fun r _ h => decide_eq_false (by
      have := ones_up (B := B) (a := r + 1) (b := q) (by omega)
      rw [hs.2] at this
      omega)⟩
  have h0 : ones B (64 * 0) = 0 := by simp [Spec.ones]
  rw [h0] at hw
  have ht : ∃ t, (if b.ndebug then ok 0 else naiveRank b W x (64 * W - 1)) = ok t ∧
      massert b (decide (k < t)) = ok () := by
    by_cases hb : b.ndebug = true
    · exact ⟨0, if_pos hb, by unfold massert; rw [hb]; rfl⟩
    · refine ⟨_, (if_neg hb).trans (naiveRank_eq b hx hr hl hN (by omega)), massert_ok (decide_eq_true ?_)⟩
      unfold Spec.rank
      rw [show 64 * W - 1 + 1 = B.length by omega]
      exact hk
  obtain ⟨t, e1, e2⟩ := ht
  unfold naiveSelect
  rw [e1, ok_bind, e2, ok_bind]
  simp only
  rw [add64_eq (by omega), hw, ok_bind]
  simp only
  rw [massert_ok (decide_eq_true (by omega)), ok_bind]

end

/-- A loop that compares an answer with an expected value passes exactly if every answer is good. -/
theorem compare_iff (q E : Nat → Outcome Nat) (Good : Nat → Nat → Prop) (n : Nat) : ∀ (a : Nat),
    (∀ i, a ≤ i → i < a + n → ∃ e, E i = ok e ∧ ∀ p, Good i p ↔ p = e) →
    (forFrom a n (fun i (_ : Unit) => do
      let got ← q i
      let e ← E i
      requireMsg (decide (got = e))) () = ok () ↔
      ∀ i, a ≤ i → i < a + n → ∃ p, q i = ok p ∧ Good i p) := by
  induction n with
  | zero => intro a _; exact ⟨fun _ i h1 h2 => absurd h2 (by omega), fun _ => rfl⟩
  | succ n ih =>
    intro a hE
    have ih := ih (a + 1) fun i l1 l2 => hE i (by omega) (by omega)
    obtain ⟨e, he, hg⟩ := hE a (Nat.le_refl a) (by omega)
    show ((do
      let got ← q a
      let e ← E a
      requireMsg (decide (got = e))) >>= fun s' => forFrom (a + 1) n _ s') = ok () ↔ _
    cases eq : q a with
    | ok p =>
      rw [ok_bind, he, ok_bind]
      by_cases hp : p = e
      · have hr : requireMsg (decide (p = e)) = ok () := if_pos (decide_eq_true hp)
        rw [hr, ok_bind, ih]
        constructor
        · intro h i l1 l2
          by_cases hi : i = a
          · subst hi; exact ⟨p, eq, (hg p).2 hp⟩
          · exact h i (by omega) (by omega)
        · intro h i l1 l2
          exact h i (by omega) (by omega)
      · have hr : requireMsg (decide (p = e)) = abort :=
          if_neg (by rw [decide_eq_false hp]; exact Bool.false_ne_true)
        rw [hr]
        constructor
        · intro h; exact absurd h (by intro h; cases h)
        · intro h
          obtain ⟨p', e', hg'⟩ := h a (Nat.le_refl a) (by omega)
          rw [eq] at e'
          cases e'
          exact absurd ((hg p).1 hg') hp
    | ub f =>
      constructor
      · intro h; exact absurd h (by intro h; cases h)
      · intro h
        obtain ⟨p', e', _⟩ := h a (Nat.le_refl a) (by omega)
        rw [eq] at e'; cases e'
    | abort =>
      constructor
      · intro h; exact absurd h (by intro h; cases h)
      · intro h
        obtain ⟨p', e', _⟩ := h a (Nat.le_refl a) (by omega)
        rw [eq] at e'; cases e'

end MRS.Test
