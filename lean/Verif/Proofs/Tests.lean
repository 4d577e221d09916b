import Verif.Model.Tests
import Verif.Proofs.History

/-!
# The repository's test of `mutable_bitmap`: its loops

The values the loops count along the words are the ranks and positions of the specification.
-/

set_option autoImplicit false

namespace MRS.Test
open MRS Outcome Spec

/-- The walk after `p` bits of `len` words. -/
def at' (bits : Vec Word) (p : Nat) : Walk :=
  if p < 64 * bits.len then ⟨64 - p % 64, p / 64, bits.f (p / 64) >>> (p % 64)⟩ else ⟨0, bits.len, 0#64⟩

theorem low_bit (w : Word) (r : Nat) :
    ((w >>> r) &&& 1#64).toNat = if w.getLsbD r then 1 else 0 := by
  have h : ((w >>> r) &&& 1#64).toNat = w.toNat >>> r % 2 := by
    rw [BitVec.toNat_and, BitVec.toNat_ushiftRight]
    exact Nat.and_one_is_mod _
  rw [h]
  have h2 : w.getLsbD r = (w.toNat >>> r % 2 == 1) := by
    show w.toNat.testBit r = _
    rw [Nat.testBit, Nat.one_and_eq_mod_two]
    rcases Nat.mod_two_eq_zero_or_one (w.toNat >>> r) with h | h <;> rw [h] <;> rfl
  rw [h2]
  rcases Nat.mod_two_eq_zero_or_one (w.toNat >>> r) with h | h <;> rw [h] <;> rfl

theorem at'_bit {bits : Vec Word} {p : Nat} (hp : p < 64 * bits.len) :
    ((at' bits p).word &&& 1#64).toNat = if fbit bits.f p then 1 else 0 := by
  unfold at'
  rw [if_pos hp]
  exact low_bit _ _

theorem next_at {bits : Vec Word} {p : Nat} (hp : p < 64 * bits.len) (hN : 64 * bits.len < W64) :
    (at' bits p).next bits = ok (decide (p + 1 = 64 * bits.len), at' bits (p + 1)) := by
  have e : at' bits p = ⟨64 - p % 64, p / 64, bits.f (p / 64) >>> (p % 64)⟩ := if_pos hp
  rw [e]
  unfold Walk.next
  simp only
  rw [sub64_eq (by omega) (by simp only [W64]; omega), ← BitVec.shiftRight_add]
  by_cases h : p % 64 = 63
  · rw [if_pos (by omega), add64_eq (by simp only [W64] at hN ⊢; omega)]
    by_cases h2 : p / 64 + 1 = bits.len
    · rw [if_pos h2, decide_eq_true (by omega)]
      unfold at'
      rw [if_neg (by omega), h, h2]
      congr 4
      apply BitVec.eq_of_toNat_eq
      rw [BitVec.toNat_ushiftRight, Nat.shiftRight_eq_div_pow]
      exact Nat.div_eq_of_lt (bits.f (p / 64)).isLt
    · rw [if_neg h2, decide_eq_false (by omega)]
      unfold Vec.get
      rw [if_pos (by omega)]
      show ok _ = ok _
      unfold at'
      rw [if_pos (by omega), show (p + 1) / 64 = p / 64 + 1 by omega, show (p + 1) % 64 = 0 by omega]
      rfl
  · rw [if_neg (by omega), decide_eq_false (by omega)]
    unfold at'
    rw [if_pos (by omega), show (p + 1) / 64 = p / 64 by omega, show (p + 1) % 64 = p % 64 + 1 by omega,
      Nat.sub_sub]

/-- A loop that computes an expected value, asks for an answer and compares the two passes exactly if
every answer is good, if the expected value is the only good one. -/
theorem check_iff {σ : Type} (W : Nat → σ → Outcome σ) (ex : σ → Nat) (q : Nat → Outcome Nat)
    (P : Nat → σ → Prop) (Good : Nat → Nat → Prop) (n : Nat) : ∀ (a : Nat) (s : σ), P a s →
    (∀ i s, a ≤ i → i < a + n → P i s → ∃ s', W i s = ok s' ∧ P (i + 1) s' ∧
      ∀ p, Good i p ↔ p = ex s') →
    ((∃ s', forFrom a n (fun i s => do
      let s ← W i s
      let got ← q i
      requireMsg (decide (got = ex s))
      ok s) s = ok s') ↔ ∀ i, a ≤ i → i < a + n → ∃ p, q i = ok p ∧ Good i p) := by
  induction n with
  | zero => intro a s _ _; exact ⟨fun _ i h1 h2 => absurd h2 (by omega), fun _ => ⟨s, rfl⟩⟩
  | succ n ih =>
    intro a s hP hW
    obtain ⟨s1, e1, h1, g1⟩ := hW a s (Nat.le_refl a) (by omega) hP
    have ih := ih (a + 1) s1 h1 (fun i s l1 l2 => hW i s (by omega) (by omega))
    show (∃ s', (do
      let s' ← (do
        let s ← W a s
        let got ← q a
        requireMsg (decide (got = ex s))
        ok s)
      forFrom (a + 1) n _ s') = ok s') ↔ _
    rw [e1, ok_bind]
    cases eq : q a with
    | ok p =>
      rw [ok_bind]
      by_cases hp : p = ex s1
      · have hr : requireMsg (decide (p = ex s1)) = ok () := if_pos (decide_eq_true hp)
        rw [hr, ok_bind, ok_bind, ih]
        constructor
        · intro h i l1 l2
          by_cases hi : i = a
          · subst hi; exact ⟨p, eq, (g1 p).2 hp⟩
          · exact h i (by omega) (by omega)
        · intro h i l1 l2
          exact h i (by omega) (by omega)
      · have hr : requireMsg (decide (p = ex s1)) = abort :=
          if_neg (by rw [decide_eq_false hp]; exact Bool.false_ne_true)
        rw [hr]
        constructor
        · rintro ⟨s', h⟩; exact absurd h (by intro h; cases h)
        · intro h
          obtain ⟨p', e', hg⟩ := h a (Nat.le_refl a) (by omega)
          rw [eq] at e'
          cases e'
          exact absurd ((g1 p).1 hg) hp
    | ub f =>
      constructor
      · rintro ⟨s', h⟩; exact absurd h (by intro h; cases h)
      · intro h
        obtain ⟨p', e', _⟩ := h a (Nat.le_refl a) (by omega)
        rw [eq] at e'; cases e'
    | abort =>
      constructor
      · rintro ⟨s', h⟩; exact absurd h (by intro h; cases h)
      · intro h
        obtain ⟨p', e', _⟩ := h a (Nat.le_refl a) (by omega)
        rw [eq] at e'; cases e'

theorem seq_ok_iff {σ : Type} {m : Outcome σ} : (do let _ ← m; ok ()) = ok () ↔ ∃ s, m = ok s := by
  cases m with
  | ok s => exact ⟨fun _ => ⟨s, rfl⟩, fun _ => rfl⟩
  | ub f => exact ⟨fun h => (by cases h), fun ⟨_, h⟩ => (by cases h)⟩
  | abort => exact ⟨fun h => (by cases h), fun ⟨_, h⟩ => (by cases h)⟩

section
variable {bits : Vec Word} {B : List Bool}

theorem fuel_pos (bits : Vec Word) : ∃ n, fuel bits = n + 1 := by
  refine ⟨fuel bits - 1, ?_⟩
  have : 0 < fuel bits := by
    unfold fuel; simp only [W64]; omega
  omega

theorem ones_at (hl : B.length = 64 * bits.len) (hr : Rep bits.f B) {p : Nat} (hp : p < 64 * bits.len) :
    ones B (p + 1) = ones B p + ((at' bits p).word &&& 1#64).toNat := by
  rw [at'_bit hp, ones_succ (by omega), hr.get]

theorem ones_up {B : List Bool} {a b : Nat} (h : a ≤ b) : ones B a ≤ ones B b := by
  obtain ⟨d, rfl⟩ := Nat.exists_eq_add_of_le h
  unfold Spec.ones
  rw [List.take_add, List.count_append]
  omega

theorem bit_zero (hl : B.length = 64 * bits.len) (hr : Rep bits.f B) {p : Nat} (hp : p < B.length)
    (hb : B[p] = false) : ((at' bits p).word &&& 1#64).toNat = 0 := by
  rw [at'_bit (by omega), ← hr.get hp, hb]; rfl

theorem ones_len (B : List Bool) (p : Nat) : ones B p ≤ p := by
  unfold Spec.ones
  have h := List.count_le_length (a := true) (l := B.take p)
  rw [List.length_take] at h
  omega

/-- The loop of the lambda `rank` passes exactly if every answer is the rank. -/
theorem rankPhase_iff (hl : B.length = 64 * bits.len) (hr : Rep bits.f B) (h0 : 0 < bits.len)
    (hN : 64 * bits.len < W64) {n : Nat} (hn : n ≤ B.length) (rank : Nat → Outcome Nat) :
    rankPhase bits n rank = ok () ↔ ∀ i, i < n → rank i = ok (Spec.rank B i) := by
  unfold rankPhase
  rw [show bits.get 0 = ok (bits.f 0) from if_pos h0, ok_bind, seq_ok_iff]
  have h := check_iff (fun i s => rankWhile bits i (fuel bits) s) RankSt.expected rank
    (fun i s => s.walk = at' bits i ∧ s.expected = ones B i ∧ (i < 64 * bits.len → s.pos = i))
    (fun i p => p = Spec.rank B i) n 0 ⟨⟨64, 0, bits.f 0⟩, 0, 0⟩
    ⟨by unfold at'; rw [if_pos (by omega)]; simp, by simp [Spec.ones], fun _ => rfl⟩
    (by
      rintro i ⟨w, pos, ex⟩ _ hi ⟨h1, h2, h3⟩
      have hi' : i < 64 * bits.len := by omega
      replace h3 := (h3 hi').symm
      simp only at h1 h2 h3
      subst h1 h2 h3
      obtain ⟨m, hm⟩ := fuel_pos bits
      have hle := ones_len B (i + 1)
      have ho := ones_at hl hr hi'
      rw [hm]
      unfold rankWhile
      simp only
      rw [next_at hi' hN, ok_bind, add64_eq (by omega), ← ho]
      by_cases he : i + 1 = 64 * bits.len
      · rw [if_pos (decide_eq_true he)]
        exact ⟨_, rfl, ⟨rfl, rfl, fun h => absurd h (by omega)⟩, fun p => Iff.rfl⟩
      · rw [decide_eq_false he, if_neg Bool.false_ne_true, add64_eq (by omega)]
        exact ⟨_, if_pos trivial, ⟨rfl, rfl, fun _ => rfl⟩, fun p => Iff.rfl⟩)
  unfold forN
  rw [h]
  constructor
  · intro h i hi
    obtain ⟨p, e, rfl⟩ := h i (Nat.zero_le i) (by omega)
    exact e
  · intro h i _ hi
    exact ⟨_, h i (by omega), rfl⟩

theorem exists_isSelect {B : List Bool} : ∀ {p k : Nat}, ones B p ≤ k → k < ones B B.length →
    p ≤ B.length → ∃ q, p ≤ q ∧ q < B.length ∧ IsSelect B k q := by
  intro p k h1 h2 h3
  induction hd : B.length - p generalizing p with
  | zero =>
    have : p = B.length := by omega
    subst this
    omega
  | succ d ih =>
    have hp : p < B.length := by omega
    have hs := ones_succ hp
    by_cases hb : B[p] = true
    · rw [hb, if_pos rfl] at hs
      by_cases hk : ones B p = k
      · exact ⟨p, Nat.le_refl p, hp, by rw [List.getElem?_eq_getElem hp, hb], hk⟩
      · obtain ⟨q, l, r⟩ := ih (p := p + 1) (by omega) (by omega) (by omega)
        exact ⟨q, by omega, r⟩
    · rw [if_neg hb] at hs
      obtain ⟨q, l, r⟩ := ih (p := p + 1) (by omega) (by omega) (by omega)
      exact ⟨q, by omega, r⟩

/-- `expected` before the walk looks at bit `p`: `p - 1`, wrapping. -/
def before (p : Nat) : Nat := sub64 p 1

theorem before_succ {p : Nat} (h : p < W64) : add64 (before p) 1 = p := by
  unfold before add64 sub64
  simp only [W64] at h ⊢
  omega

theorem before_zero : before 0 = W64 - 1 := by
  unfold before sub64
  simp only [W64]

theorem before_of {p : Nat} (h : p + 1 < W64) : before (p + 1) = p := by
  unfold before
  rw [sub64_eq (by omega) h]
  omega

/-- The inner loop of `select` stops behind the next one. -/
theorem selectWhile_next (hl : B.length = 64 * bits.len) (hr : Rep bits.f B)
    (hN : 64 * bits.len < W64) {i q : Nat} (hq : q < B.length) (hs : IsSelect B i q) :
    ∀ (d p m : Nat), p + d = q → d < m → ones B p = i →
      selectWhile bits i m ⟨at' bits p, before p, i⟩ = ok ⟨at' bits (q + 1), q, i + 1⟩ := by
  intro d
  have hle := ones_len B q
  rw [hs.2] at hle
  induction d with
  | zero =>
    intro p m e hm ho
    obtain ⟨m, rfl⟩ : ∃ m', m = m' + 1 := ⟨m - 1, by omega⟩
    have : p = q := by omega
    subst this
    have hB : B[p] = true := by
      have := hs.1; rw [List.getElem?_eq_getElem hq] at this; exact Option.some.inj this
    unfold selectWhile
    simp only
    rw [at'_bit (by omega), ← hr.get hq, hB, if_pos rfl, next_at (by omega) hN, ok_bind,
      before_succ (by omega), add64_eq (by omega)]
    by_cases he : p + 1 = 64 * bits.len
    · rw [if_pos (decide_eq_true he)]
    · rw [if_neg (by simpa using he), if_pos rfl]
  | succ d ih =>
    intro p m e hm ho
    obtain ⟨m, rfl⟩ : ∃ m', m = m' + 1 := ⟨m - 1, by omega⟩
    have hp : p < B.length := by omega
    have h1 := ones_succ hp
    have h2 : ones B (p + 1) ≤ i := by
      rw [← hs.2]
      exact ones_up (by omega)
    have hb : B[p] = false := by
      cases hb : B[p] with
      | false => rfl
      | true => rw [hb, if_pos rfl] at h1; omega
    rw [hb] at h1
    unfold selectWhile
    simp only
    rw [bit_zero hl hr hp hb, next_at (by omega) hN, ok_bind, before_succ (by omega),
      add64_eq (by omega), add64_eq (by omega), decide_eq_false (by omega),
      if_neg Bool.false_ne_true, if_neg (by omega)]
    have := ih (p + 1) m (by omega) (by omega) (by simpa [ho] using h1)
    rw [before_of (by omega)] at this
    exact this

theorem init_at (h0 : 0 < bits.len) : (⟨64, 0, bits.f 0⟩ : Walk) = at' bits 0 := by
  unfold at'; rw [if_pos (by omega)]; simp

/-- The invariant of the lambda `select`. -/
structure SelInv (bits : Vec Word) (B : List Bool) (i : Nat) (s : SelectSt) : Prop where
  ex : ∃ p, p ≤ B.length ∧ s = ⟨at' bits p, before p, i⟩ ∧ ones B p = i

theorem selInv_zero (h0 : 0 < bits.len) : SelInv bits B 0 ⟨⟨64, 0, bits.f 0⟩, W64 - 1, 0⟩ :=
  ⟨0, Nat.zero_le _, by rw [init_at h0, before_zero], by simp [Spec.ones]⟩

theorem selInv_step (hl : B.length = 64 * bits.len) (hr : Rep bits.f B)
    (hN : 64 * bits.len < W64) {i : Nat} {s : SelectSt} (hs : SelInv bits B i s)
    (hi : i < ones B B.length) :
    ∃ s', selectWhile bits i (fuel bits) s = ok s' ∧ SelInv bits B (i + 1) s' ∧
      ∀ p, IsSelect B i p ↔ p = s'.expected := by
  obtain ⟨p, hp, rfl, ho⟩ := hs.ex
  obtain ⟨q, hpq, hq, hsel⟩ := exists_isSelect (by omega) hi hp
  have hf : B.length ≤ fuel bits := by
    unfold fuel; simp only [W64] at hN ⊢; omega
  have e := selectWhile_next hl hr hN hq hsel (q - p) p (fuel bits) (by omega) (by omega) ho
  refine ⟨_, e, ⟨q + 1, by omega, ?_, ?_⟩, fun p => ⟨fun h => isSelect_unique h hsel, ?_⟩⟩
  · rw [before_of (by omega)]
  · rw [ones_succ hq]
    have := hsel.1
    rw [List.getElem?_eq_getElem hq] at this
    rw [Option.some.inj this, if_pos rfl, hsel.2]
  · rintro rfl; exact hsel

/-- The loop of the lambda `select` passes exactly if every answer is the position. -/
theorem selectPhase_iff (hl : B.length = 64 * bits.len) (hr : Rep bits.f B) (h0 : 0 < bits.len)
    (hN : 64 * bits.len < W64) {n : Nat} (hn : n ≤ ones B B.length) (select : Nat → Outcome Nat) :
    selectPhase bits n select = ok () ↔ ∀ i, i < n → ∃ p, select i = ok p ∧ IsSelect B i p := by
  unfold selectPhase
  rw [show bits.get 0 = ok (bits.f 0) from if_pos h0, ok_bind, seq_ok_iff]
  have h := check_iff (fun i s => selectWhile bits i (fuel bits) s) SelectSt.expected select
    (SelInv bits B) (IsSelect B) n 0 _ (selInv_zero h0)
    (fun i s _ hi hs => selInv_step hl hr hN hs (by omega))
  unfold forN
  rw [h]
  exact ⟨fun h i hi => h i (Nat.zero_le i) (by omega), fun h i _ hi => h i (by omega)⟩

/-! ## Counting past the last one -/

/-- Behind the end of the words the walk never stops in a regular way: `bits_in_word` has to wrap
around, and then the word behind the end is read. -/
theorem selectWhile_end (hN : bits.len + 1 < W64) (i : Nat) {k : Nat} (hk : k < W64)
    (hi : k ≠ add64 i 1) :
    ∀ (m l e : Nat) (s : SelectSt),
      selectWhile bits i m ⟨⟨l, bits.len, 0#64⟩, e, k⟩ ≠ ok s := by
  intro m
  induction m with
  | zero => intro l e s h; cases h
  | succ m ih =>
    intro l e s
    unfold selectWhile
    simp only
    have h1 : add64 k (0#64 &&& 1#64).toNat = k := by
      show add64 k 0 = k
      exact add64_eq (b := 0) hk
    have h2 : (0#64 : Word) >>> 1 = 0#64 := by decide
    unfold Walk.next
    simp only
    rw [h1, h2, add64_eq hN]
    by_cases hl : sub64 l 1 = 0
    · rw [if_pos hl, if_neg (by omega)]
      unfold Vec.get
      rw [if_neg (by omega)]
      intro h; cases h
    · rw [if_neg hl, ok_bind, if_neg (by simp), if_neg hi]
      exact ih _ _ s

/-- Looking for one more one than there are: the walk ends at the end of the words, or goes wrong. -/
theorem selectWhile_last (hl : B.length = 64 * bits.len) (hr : Rep bits.f B)
    (hN : 64 * bits.len + 1 < W64) (h0 : 0 < bits.len) {k : Nat} (hk : ones B B.length = k) :
    ∀ (d p m : Nat) (s : SelectSt), p + d = B.length → ones B p = k →
      selectWhile bits k m ⟨at' bits p, before p, k⟩ = ok s → ∃ e, s = ⟨at' bits B.length, e, k⟩ := by
  have hle := ones_len B B.length
  have hend : at' bits B.length = ⟨0, bits.len, 0#64⟩ := if_neg (by omega)
  intro d
  induction d with
  | zero =>
    intro p m s e ho h
    have : p = B.length := by omega
    subst this
    rw [hend] at h
    exact absurd h (selectWhile_end (by simp only [W64] at hN ⊢; omega) k (by omega)
      (by rw [add64_eq (by omega)]; omega) m _ _ s)
  | succ d ih =>
    intro p m s e ho h
    cases m with
    | zero => cases h
    | succ m =>
      have hp : p < B.length := by omega
      have h1 := ones_succ hp
      have h2 : ones B (p + 1) ≤ k := by
        rw [← hk]
        exact ones_up (by omega)
      have hb : B[p] = false := by
        cases hb : B[p] with
        | false => rfl
        | true => rw [hb, if_pos rfl] at h1; omega
      rw [hb] at h1
      unfold selectWhile at h
      simp only at h
      rw [bit_zero hl hr hp hb, next_at (by omega) (by omega), ok_bind,
        before_succ (by omega), add64_eq (by omega), add64_eq (by omega)] at h
      by_cases he : p + 1 = 64 * bits.len
      · rw [if_pos (decide_eq_true he)] at h
        injection h with h
        exact ⟨p, by rw [← h, he, hl]; rfl⟩
      · rw [decide_eq_false he, if_neg Bool.false_ne_true, if_neg (by omega)] at h
        have h3 := ih (p + 1) m s (by omega) (by simpa [ho] using h1)
        rw [before_of (by omega)] at h3
        exact h3 h

theorem bind_ok {α β : Type} {m : Outcome α} {f : α → Outcome β} {r : β} (h : (m >>= f) = ok r) :
    ∃ a, m = ok a ∧ f a = ok r := by
  cases m with
  | ok a => exact ⟨a, rfl, h⟩
  | ub f => cases h
  | abort => cases h

theorem forFrom_split {σ : Type} (body : Nat → σ → Outcome σ) (n m : Nat) : ∀ (a : Nat) (s r : σ),
    forFrom a (n + m) body s = ok r →
      ∃ t, forFrom a n body s = ok t ∧ forFrom (a + n) m body t = ok r := by
  induction n with
  | zero => intro a s r h; rw [Nat.zero_add] at h; exact ⟨s, rfl, h⟩
  | succ n ih =>
    intro a s r h
    rw [show n + 1 + m = (n + m) + 1 by omega] at h
    obtain ⟨t, e, h⟩ := bind_ok h
    obtain ⟨u, e2, h2⟩ := ih _ _ _ h
    refine ⟨u, ?_, by rw [show a + (n + 1) = a + 1 + n by omega]; exact h2⟩
    show (body a s >>= fun s' => forFrom (a + 1) n body s') = ok u
    rw [e, ok_bind, e2]

theorem loop_ok {σ : Type} {m : Outcome σ} {ex : σ → Nat} {q : Outcome Nat} {s' : σ}
    (h : (do
      let s ← m
      let got ← q
      requireMsg (decide (got = ex s))
      ok s) = ok s') : m = ok s' := by
  obtain ⟨s, e, h⟩ := bind_ok h
  obtain ⟨g, _, h⟩ := bind_ok h
  obtain ⟨_, _, h⟩ := bind_ok h
  injection h with h
  rw [e, h]

theorem forFrom_succ_ok {σ : Type} {body : Nat → σ → Outcome σ} {a n : Nat} {s r : σ}
    (h : forFrom a (n + 1) body s = ok r) : ∃ t, body a s = ok t ∧ forFrom (a + 1) n body t = ok r :=
  bind_ok h

/-- With two ones more than there are, the loop of the lambda `select` never passes, whatever
`select` answers. -/
theorem selectPhase_over (hl : B.length = 64 * bits.len) (hr : Rep bits.f B) (h0 : 0 < bits.len)
    (hN : 64 * bits.len + 1 < W64) {n : Nat} (hn : ones B B.length + 2 ≤ n)
    (select : Nat → Outcome Nat) : selectPhase bits n select ≠ ok () := by
  unfold selectPhase
  rw [show bits.get 0 = ok (bits.f 0) from if_pos h0, ok_bind, Ne, seq_ok_iff]
  rintro ⟨r, h⟩
  unfold forN at h
  have hle := ones_len B B.length
  obtain ⟨d, rfl⟩ : ∃ d, n = ones B B.length + (2 + d) := ⟨n - ones B B.length - 2, by omega⟩
  obtain ⟨t, e1, h⟩ := forFrom_split _ _ _ _ _ _ h
  have hinv : SelInv bits B (ones B B.length) t := by
    suffices ∀ (m a : Nat) (s : SelectSt), SelInv bits B a s → a + m ≤ ones B B.length →
        forFrom a m (fun i s => do
          let s ← selectWhile bits i (fuel bits) s
          let got ← select i
          requireMsg (decide (got = s.expected))
          ok s) s = ok t → SelInv bits B (a + m) t by
      have := this _ 0 _ (selInv_zero h0) (by omega) e1
      rwa [Nat.zero_add] at this
    intro m
    induction m with
    | zero => intro a s hs _ h; injection h with h; rw [← h]; exact hs
    | succ m ih =>
      intro a s hs hm h
      obtain ⟨s1, e, h⟩ := forFrom_succ_ok h
      replace e := loop_ok (ex := SelectSt.expected) e
      obtain ⟨s2, e2, hs2, _⟩ := selInv_step hl hr (by omega) hs (by omega)
      rw [e2] at e
      injection e with e
      rw [show a + (m + 1) = a + 1 + m by omega]
      exact ih _ _ (by rw [← e]; exact hs2) (by omega) h
  obtain ⟨p, hp, rfl, ho⟩ := hinv.ex
  rw [Nat.zero_add, show 2 + d = (1 + d) + 1 by omega] at h
  obtain ⟨s1, e, h⟩ := forFrom_succ_ok h
  replace e := loop_ok (ex := SelectSt.expected) e
  obtain ⟨x, hx⟩ := selectWhile_last hl hr hN h0 rfl (B.length - p) p _ s1 (by omega) ho e
  rw [hx, show 1 + d = d + 1 by omega] at h
  obtain ⟨s3, e, _⟩ := forFrom_succ_ok h
  replace e := loop_ok (ex := SelectSt.expected) e
  rw [show at' bits B.length = ⟨0, bits.len, 0#64⟩ from if_neg (by omega)] at e
  exact selectWhile_end (by simp only [W64] at hN ⊢; omega) _ (by omega)
    (by rw [add64_eq (by simp only [W64] at hN ⊢; omega)]; omega) _ _ _ _ e

end

/-! ## The flips -/

/-- The positions the test flips in a bitmap of `N` bits. -/
def flipsAt (seed : Word) (N : Nat) : List Nat :=
  (List.range numFlips).map fun i => (smNth seed i).toNat % N

theorem flips_len (is : List Nat) : ∀ (B : List Bool), (flips B is).length = B.length := by
  induction is with
  | nil => intro B; rfl
  | cons j js ih => intro B; show (flips (Spec.flip B j) js).length = _; rw [ih, flip_length]

theorem flipLoop_ok {c : Config} {B : List Bool} {body : Nat → Bitmap → Outcome Bitmap} {f : Nat → Nat}
    (hf : ∀ i, f i < B.length)
    (hb : ∀ i bm, bmSize bm = B.length → body i bm = bmFlip c bm (f i)) (n : Nat) :
    ∀ {bm : Bitmap}, Alive c bm B →
      ∃ bm', forN n body bm = ok bm' ∧ Alive c bm' (flips B ((List.range n).map f)) := by
  intro bm h
  refine forN_inv (fun i bm => Alive c bm (flips B ((List.range i).map f))) n bm h ?_
  intro i bm1 _ h1
  have hs : bmSize bm1 = B.length := by rw [h1.size, flips_len]
  obtain ⟨bm2, e, h2⟩ := h1.flip (i := f i) (by rw [flips_len]; exact hf i)
  refine ⟨bm2, by rw [hb i bm1 hs]; exact e, ?_⟩
  have e2 : flips B ((List.range (i + 1)).map f) = Spec.flip (flips B ((List.range i).map f)) (f i) := by
    unfold flips
    rw [List.range_succ, List.map_append, List.foldl_append]
    rfl
  rw [e2]
  exact h2

theorem flipPhase_ok {c : Config} {bm : Bitmap} {B : List Bool} (h : Alive c bm B) (hB : 0 < B.length)
    (seed : Word) : ∃ bm', flipPhase c seed bm = ok bm' ∧
      Alive c bm' (flips B (flipsAt seed B.length)) := by
  unfold flipPhase flipsAt
  exact flipLoop_ok (f := fun i => (smNth seed i).toNat % B.length) (fun i => Nat.mod_lt _ hB)
    (fun i bm hs => by rw [hs]) numFlips h

end MRS.Test
