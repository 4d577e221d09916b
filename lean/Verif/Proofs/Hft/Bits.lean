import Verif.Proofs.Hft.Fenwick
import Verif.Proofs.Mem
import Verif.Model.Hft.Trees

/-! # Bit fields in byte memory -/

set_option autoImplicit false

namespace MRS.Hft
open Outcome

/-- Bit `q` of a byte array. -/
def bitAt (m : Mem) (q : Nat) : Bool := (m.byte (q / 8)).testBit (q % 8)

/-- The `len` bits from `p` on hold `f`. -/
def Fld (m : Mem) (p len f : Nat) : Prop := f < 2 ^ len ∧ ∀ j, j < len → f.testBit j = bitAt m (p + j)

theorem pow256 (w : Nat) : 256 ^ w = 2 ^ (8 * w) := by
  rw [Nat.pow_mul]

theorem rd_testBit (m : Mem) (off : Nat) : ∀ (w j : Nat), j < 8 * w →
    (rd m off w).testBit j = bitAt m (8 * off + j)
  | 0, j, h => by omega
  | w + 1, j, h => by
    unfold rd
    have hlt := rd_lt m off w
    rw [pow256] at hlt
    have e : rd m off w + m.byte (off + w) % 256 * 256 ^ w
        = 2 ^ (8 * w) * (m.byte (off + w) % 256) + rd m off w := by
      rw [pow256, Nat.mul_comm]; omega
    rw [e, Nat.testBit_two_pow_mul_add _ hlt]
    by_cases hj : j < 8 * w
    · rw [if_pos hj, rd_testBit m off w j hj]
    · rw [if_neg hj]
      have e2 : (8 * off + j) / 8 = off + w := by omega
      have e3 : (8 * off + j) % 8 = j - 8 * w := by omega
      rw [bitAt, e2, e3, show 256 = 2 ^ 8 from rfl, Nat.testBit_mod_two_pow]
      simp only [show j - 8 * w < 8 by omega, decide_true, Bool.true_and]

theorem bitAt_wr (m : Mem) (off w v q : Nat) : bitAt (wr m off w v) q =
    if 8 * off ≤ q ∧ q < 8 * (off + w) then v.testBit (q - 8 * off) else bitAt m q := by
  unfold bitAt wr
  simp only
  by_cases h : 8 * off ≤ q ∧ q < 8 * (off + w)
  · rw [if_pos h, if_pos (by omega), show 256 = 2 ^ 8 from rfl, Nat.testBit_mod_two_pow,
      ← Nat.pow_mul, Nat.testBit_div_two_pow]
    simp only [show q % 8 < 8 by omega, decide_true, Bool.true_and]
    congr 1
    omega
  · rw [if_neg h, if_neg (by omega)]

theorem Fld.unique {m : Mem} {p len f g : Nat} (h1 : Fld m p len f) (h2 : Fld m p len g) : f = g := by
  apply Nat.eq_of_testBit_eq
  intro j
  by_cases hj : j < len
  · rw [h1.2 j hj, h2.2 j hj]
  · have hp : 2 ^ len ≤ 2 ^ j := Nat.pow_le_pow_right (by decide) (by omega)
    rw [Nat.testBit_lt_two_pow (Nat.lt_of_lt_of_le h1.1 hp),
      Nat.testBit_lt_two_pow (Nat.lt_of_lt_of_le h2.1 hp)]

/-- A field inside the 64-bit word at `off`. -/
theorem fld_word {m : Mem} {off frm len f : Nat} (hf : Fld m (8 * off + frm) len f)
    (h : frm + len ≤ 64) : rd m off 8 / 2 ^ frm % 2 ^ len = f := by
  apply Nat.eq_of_testBit_eq
  intro j
  rw [Nat.testBit_mod_two_pow, Nat.testBit_div_two_pow]
  by_cases hj : j < len
  · rw [hf.2 j hj, rd_testBit m off 8 (j + frm) (by omega)]
    simp only [hj, decide_true, Bool.true_and]
    congr 1; omega
  · have hp : 2 ^ len ≤ 2 ^ j := Nat.pow_le_pow_right (by decide) (by omega)
    rw [Nat.testBit_lt_two_pow (Nat.lt_of_lt_of_le hf.1 hp)]
    simp [hj]

theorem fld_whole {m : Mem} {off w f : Nat} (hf : Fld m (8 * off) (8 * w) f) : rd m off w = f := by
  apply Nat.eq_of_testBit_eq
  intro j
  by_cases hj : j < 8 * w
  · rw [hf.2 j hj, rd_testBit m off w j hj]
  · have hp : 2 ^ (8 * w) ≤ 2 ^ j := Nat.pow_le_pow_right (by decide) (by omega)
    have := rd_lt m off w
    rw [pow256] at this
    rw [Nat.testBit_lt_two_pow (Nat.lt_of_lt_of_le hf.1 hp),
      Nat.testBit_lt_two_pow (Nat.lt_of_lt_of_le this hp)]

/-- Replacing one field of a word: the other bits of memory stay. -/
theorem wr_field {m : Mem} {off frm len word' f' : Nat} (h : frm + len ≤ 64) (hf' : f' < 2 ^ len)
    (h1 : word' % 2 ^ frm = rd m off 8 % 2 ^ frm) (h2 : word' / 2 ^ frm % 2 ^ len = f')
    (h3 : word' / 2 ^ (frm + len) = rd m off 8 / 2 ^ (frm + len)) :
    Fld (wr m off 8 word') (8 * off + frm) len f' ∧
    ∀ q, q < 8 * off + frm ∨ 8 * off + frm + len ≤ q → bitAt (wr m off 8 word') q = bitAt m q := by
  constructor
  · refine ⟨hf', fun j hj => ?_⟩
    rw [bitAt_wr, if_pos (by omega), ← h2, Nat.testBit_mod_two_pow, Nat.testBit_div_two_pow]
    simp only [hj, decide_true, Bool.true_and]
    congr 1; omega
  · intro q hq
    rw [bitAt_wr]
    by_cases hin : 8 * off ≤ q ∧ q < 8 * (off + 8)
    · rw [if_pos hin]
      have hr : bitAt m q = (rd m off 8).testBit (q - 8 * off) := by
        rw [rd_testBit m off 8 _ (by omega)]; congr 1; omega
      rw [hr]
      by_cases hc : q < 8 * off + frm
      · have e1 := congrArg (fun x => x.testBit (q - 8 * off)) h1
        simp only [Nat.testBit_mod_two_pow] at e1
        simpa [show q - 8 * off < frm by omega] using e1
      · have e1 := congrArg (fun x => x.testBit (q - 8 * off - (frm + len))) h3
        simp only [Nat.testBit_div_two_pow] at e1
        rwa [Nat.sub_add_cancel (by omega)] at e1
    · rw [if_neg hin]

theorem wr_whole {m : Mem} {off w f' : Nat} :
    Fld (wr m off w f') (8 * off) (8 * w) (f' % 256 ^ w) ∧
    ∀ q, q < 8 * off ∨ 8 * off + 8 * w ≤ q → bitAt (wr m off w f') q = bitAt m q := by
  constructor
  · rw [pow256]
    refine ⟨Nat.mod_lt _ (Nat.two_pow_pos _), fun j hj => ?_⟩
    rw [bitAt_wr, if_pos (by omega), Nat.testBit_mod_two_pow]
    simp only [hj, decide_true, Bool.true_and]
    congr 1; omega
  · intro q hq
    rw [bitAt_wr, if_neg (by omega)]

theorem Fld.congr {m m' : Mem} {p len f : Nat} (h : Fld m p len f)
    (hb : ∀ q, p ≤ q → q < p + len → bitAt m' q = bitAt m q) : Fld m' p len f :=
  ⟨h.1, fun j hj => by rw [h.2 j hj, hb _ (by omega) (by omega)]⟩

/-- Adding to a field of a word by adding to the word. -/
theorem add_field_arith {word frm len f x : Nat} (hw : word < 2 ^ 64) (h : frm + len ≤ 64)
    (hf : word / 2 ^ frm % 2 ^ len = f) (hn : (f + x) % 2 ^ 64 < 2 ^ len) :
    ∃ word', (word + x * 2 ^ frm % 2 ^ 64) % 2 ^ 64 = word' ∧ word' % 2 ^ frm = word % 2 ^ frm ∧
      word' / 2 ^ frm % 2 ^ len = (f + x) % 2 ^ 64 ∧
      word' / 2 ^ (frm + len) = word / 2 ^ (frm + len) := by
  have pf := Nat.two_pow_pos frm
  have pl := Nat.two_pow_pos len
  refine ⟨_, rfl, ?_⟩
  -- word = a + 2^frm * (f + 2^len * b)
  have ha : word % 2 ^ frm < 2 ^ frm := Nat.mod_lt _ pf
  have hb : word / 2 ^ frm / 2 ^ len = word / 2 ^ (frm + len) := by
    rw [Nat.div_div_eq_div_mul, Nat.pow_add]
  have e1 := Nat.mod_add_div word (2 ^ frm)
  have e2 := Nat.mod_add_div (word / 2 ^ frm) (2 ^ len)
  rw [hf, hb] at e2
  generalize hA : word % 2 ^ frm = a at *
  generalize hB : word / 2 ^ (frm + len) = b at *
  generalize hF' : (f + x) % 2 ^ 64 = f' at *
  have hfx : f + x = f' + 2 ^ 64 * ((f + x) / 2 ^ 64) := by
    have := Nat.mod_add_div (f + x) (2 ^ 64); omega
  generalize (f + x) / 2 ^ 64 = c at hfx
  have hblt : b < 2 ^ (64 - (frm + len)) := by
    rw [← hB]
    apply Nat.div_lt_of_lt_mul
    rw [← Nat.pow_add]
    have : frm + len + (64 - (frm + len)) = 64 := by omega
    rw [this]; exact hw
  -- the new word
  have hnew : (word + x * 2 ^ frm % 2 ^ 64) % 2 ^ 64 = a + 2 ^ frm * (f' + 2 ^ len * b) := by
    have hlt : a + 2 ^ frm * (f' + 2 ^ len * b) < 2 ^ 64 := by
      have s1 : f' + 2 ^ len * b + 1 ≤ 2 ^ (64 - frm) := by
        have t1 : 2 ^ len * (b + 1) ≤ 2 ^ len * 2 ^ (64 - (frm + len)) := Nat.mul_le_mul_left _ hblt
        rw [← Nat.pow_add, show len + (64 - (frm + len)) = 64 - frm by omega, Nat.mul_add,
          Nat.mul_one] at t1
        omega
      have s2 : 2 ^ frm * (f' + 2 ^ len * b + 1) ≤ 2 ^ frm * 2 ^ (64 - frm) :=
        Nat.mul_le_mul_left _ s1
      rw [← Nat.pow_add, show frm + (64 - frm) = 64 by omega, Nat.mul_add, Nat.mul_one] at s2
      omega
    rw [Nat.add_mod_mod]
    have e3 : word + x * 2 ^ frm = a + 2 ^ frm * (f' + 2 ^ len * b) + 2 ^ 64 * (2 ^ frm * c) := by
      rw [← e1, ← e2]
      have : 2 ^ frm * (f + x) = 2 ^ frm * (f' + 2 ^ 64 * c) := by rw [hfx]
      rw [Nat.mul_add, Nat.mul_add] at this
      rw [Nat.mul_add, Nat.mul_add]
      have e4 : x * 2 ^ frm = 2 ^ frm * x := Nat.mul_comm _ _
      have e5 : 2 ^ 64 * (2 ^ frm * c) = 2 ^ frm * (2 ^ 64 * c) := Nat.mul_left_comm _ _ _
      omega
    rw [e3, Nat.add_mul_mod_self_left, Nat.mod_eq_of_lt hlt]
  rw [hnew]
  have d1 : (a + 2 ^ frm * (f' + 2 ^ len * b)) / 2 ^ frm = f' + 2 ^ len * b := by
    rw [Nat.add_mul_div_left _ _ pf, Nat.div_eq_of_lt ha, Nat.zero_add]
  refine ⟨?_, ?_, ?_⟩
  · rw [Nat.add_mul_mod_self_left, Nat.mod_eq_of_lt ha]
  · rw [d1, Nat.add_mul_mod_self_left, Nat.mod_eq_of_lt hn]
  · rw [Nat.pow_add, ← Nat.div_div_eq_div_mul, d1, Nat.add_mul_div_left _ _ pl,
      Nat.div_eq_of_lt hn, Nat.zero_add]

/-- Adding `x` to a field inside the word at `off`. -/
theorem inc_field {m : Mem} {off frm len f x : Nat} (hf : Fld m (8 * off + frm) len f)
    (h : frm + len ≤ 64) (hn : add64 f x < 2 ^ len) :
    Fld (wr m off 8 (add64 (rd m off 8) (x * 2 ^ frm % W64))) (8 * off + frm) len (add64 f x) ∧
    ∀ q, q < 8 * off + frm ∨ 8 * off + frm + len ≤ q →
      bitAt (wr m off 8 (add64 (rd m off 8) (x * 2 ^ frm % W64))) q = bitAt m q := by
  have hw : rd m off 8 < 2 ^ 64 := rd_lt m off 8
  obtain ⟨word', e, h1, h2, h3⟩ := add_field_arith hw h (fld_word hf h) hn
  have e' : add64 (rd m off 8) (x * 2 ^ frm % W64) = word' := e
  rw [e']
  exact wr_field h hn h1 h2 h3

/-! ## Layouts of bit fields -/

/-- Position and width in bits of the nodes `1 .. n`; distinct nodes do not overlap. -/
structure Slots (n : Nat) (pos wd : Nat → Nat) : Prop where
  disj : ∀ i j, 0 < i → i ≤ n → 0 < j → j ≤ n → i ≠ j →
    pos i + wd i ≤ pos j ∨ pos j + wd j ≤ pos i

/-- Slots laid out one after the other in index order. -/
theorem Slots.of_step {n : Nat} {pos wd : Nat → Nat}
    (h : ∀ i, 0 < i → i ≤ n → pos i + wd i ≤ pos (i + 1)) : Slots n pos wd := by
  have mono : ∀ d i, 0 < i → i + d ≤ n + 1 → pos i ≤ pos (i + d) := by
    intro d
    induction d with
    | zero => intro i _ _; exact Nat.le_refl _
    | succ d ih =>
      intro i h0 h1
      have h2 := ih i h0 (by omega)
      have h3 := h (i + d) (by omega) (by omega)
      have e : i + (d + 1) = i + d + 1 := by omega
      rw [e]; omega
  have lt : ∀ i j, 0 < i → i < j → j ≤ n → pos i + wd i ≤ pos j := by
    intro i j h0 h1 h2
    have h3 := h i h0 (by omega)
    have h4 := mono (j - (i + 1)) (i + 1) (by omega) (by omega)
    rw [show i + 1 + (j - (i + 1)) = j by omega] at h4
    omega
  refine ⟨fun i j hi hin hj hjn hne => ?_⟩
  by_cases hlt : i < j
  · exact Or.inl (lt i j hi hlt hjn)
  · exact Or.inr (lt j i hj (by omega) hin)

/-- `m` holds the node values `v` in the given slots. -/
structure FRep (n N : Nat) (pos wd : Nat → Nat) (m : Mem) (v : Nat → Nat) : Prop where
  size : m.size = N
  addr : m.addr = 4096
  fld : ∀ i, 0 < i → i ≤ n → Fld m (pos i) (wd i) (v i)

theorem FRep.upd {n N : Nat} {pos wd : Nat → Nat} {m m' : Mem} {v : Nat → Nat} {i x : Nat}
    (hS : Slots n pos wd) (h : FRep n N pos wd m v) (h0 : 0 < i) (h1 : i ≤ n)
    (hs : m'.size = m.size) (ha : m'.addr = m.addr) (hf : Fld m' (pos i) (wd i) x)
    (hb : ∀ q, q < pos i ∨ pos i + wd i ≤ q → bitAt m' q = bitAt m q) :
    FRep n N pos wd m' (Hft.upd v i x) := by
  refine ⟨hs.trans h.size, ha.trans h.addr, fun j hj0 hj1 => ?_⟩
  unfold Hft.upd
  by_cases hj : j = i
  · subst hj; rw [if_pos rfl]; exact hf
  · rw [if_neg hj]
    have := hS.disj i j h0 h1 hj0 hj1 (Ne.symm hj)
    exact (h.fld j hj0 hj1).congr (fun q h2 h3 => hb q (by omega))

theorem FRep.zero {n N : Nat} {pos wd : Nat → Nat} : FRep n N pos wd (bytes N) (fun _ => 0) :=
  ⟨rfl, rfl, fun i _ _ => ⟨Nat.two_pow_pos _, fun j _ => by simp [bitAt, bytes]⟩⟩

theorem rd8_ok {m : Mem} {off : Nat} (h : off + 8 ≤ m.size) : rd8 m off = ok (rd m off 8) := by
  unfold rd8; rw [if_pos h]

theorem wr8_ok {m : Mem} {off v : Nat} (h : off + 8 ≤ m.size) : wr8 m off v = ok (wr m off 8 v) := by
  unfold wr8; rw [if_pos h]

/-! ## The byte accessors -/

theorem byteMask_ok {len : Nat} (h : len ≤ 8) : byteMask len = ok (2 ^ (8 * len) - 1) := by
  unfold byteMask; rw [if_pos (by omega), pow256]

theorem byteread_ok {m : Mem} {off len f : Nat} (hs : off + 8 ≤ m.size) (hl : len ≤ 8)
    (hf : Fld m (8 * off) (8 * len) f) : byteread m off len = ok f := by
  have e := fld_word (off := off) (frm := 0) hf (by omega)
  unfold byteread
  rw [rd8_ok hs, ok_bind, byteMask_ok hl, ok_bind, Nat.and_two_pow_sub_one_eq_mod]
  simp at e
  rw [e]

theorem testBit_not64 {x i : Nat} (h : x < W64) : (not64 x).testBit i = (decide (i < 64) && !x.testBit i) := by
  have e : not64 x = 2 ^ 64 - (x + 1) := by unfold not64; simp only [W64] at *; omega
  rw [e, Nat.testBit_two_pow_sub_succ h]

theorem bytewrite_ok {m : Mem} {off len x : Nat} (hs : off + 8 ≤ m.size) (hl : len ≤ 8)
    (hx : x < 2 ^ (8 * len)) :
    ∃ m', bytewrite m off len x = ok m' ∧ m'.size = m.size ∧ m'.addr = m.addr ∧
      Fld m' (8 * off) (8 * len) x ∧
      ∀ q, q < 8 * off ∨ 8 * off + 8 * len ≤ q → bitAt m' q = bitAt m q := by
  unfold bytewrite
  rw [rd8_ok hs, ok_bind, byteMask_ok hl, ok_bind, wr8_ok hs]
  have hmask : 2 ^ (8 * len) - 1 < W64 := by
    have : 2 ^ (8 * len) ≤ 2 ^ 64 := Nat.pow_le_pow_right (by decide) (by omega)
    have := Nat.two_pow_pos (8 * len)
    simp only [W64]; omega
  have hword : rd m off 8 < 2 ^ 64 := rd_lt m off 8
  generalize hW : (rd m off 8 &&& not64 (2 ^ (8 * len) - 1)) ||| (x &&& (2 ^ (8 * len) - 1)) = W
  have hbit : ∀ i, W.testBit i = if i < 8 * len then x.testBit i else (rd m off 8).testBit i := by
    intro i
    rw [← hW, Nat.testBit_or, Nat.testBit_and, Nat.testBit_and, testBit_not64 hmask,
      Nat.testBit_two_pow_sub_one]
    by_cases hi : i < 8 * len
    · simp [hi]
    · by_cases h64 : i < 64
      · simp [hi, h64]
      · have hp : 2 ^ 64 ≤ 2 ^ i := Nat.pow_le_pow_right (by decide) (by omega)
        have : (rd m off 8).testBit i = false := Nat.testBit_lt_two_pow (by omega)
        simp [hi, this]
  have key := wr_field (m := m) (off := off) (frm := 0) (len := 8 * len) (word' := W) (f' := x)
    (by omega) hx (by simp [Nat.mod_one])
    (by
      apply Nat.eq_of_testBit_eq
      intro j
      rw [Nat.testBit_mod_two_pow]
      simp only [Nat.pow_zero, Nat.div_one]
      rw [hbit]
      by_cases hj : j < 8 * len
      · simp [hj]
      · have hp : 2 ^ (8 * len) ≤ 2 ^ j := Nat.pow_le_pow_right (by decide) (by omega)
        rw [Nat.testBit_lt_two_pow (Nat.lt_of_lt_of_le hx hp)]; simp [hj])
    (by
      apply Nat.eq_of_testBit_eq
      intro j
      rw [Nat.testBit_div_two_pow, Nat.testBit_div_two_pow, hbit, if_neg (by omega)])
  exact ⟨_, rfl, rfl, rfl, key.1, key.2⟩

theorem bytewriteInc_ok {m : Mem} {off len f x : Nat} (hs : off + 8 ≤ m.size) (hl : len ≤ 8)
    (hf : Fld m (8 * off) (8 * len) f) (hx : x < W64) (hn : add64 f x < 2 ^ (8 * len)) :
    ∃ m', bytewriteInc m off x = ok m' ∧ m'.size = m.size ∧ m'.addr = m.addr ∧
      Fld m' (8 * off) (8 * len) (add64 f x) ∧
      ∀ q, q < 8 * off ∨ 8 * off + 8 * len ≤ q → bitAt m' q = bitAt m q := by
  unfold bytewriteInc
  rw [rd8_ok hs, ok_bind, wr8_ok hs]
  have key := inc_field (m := m) (off := off) (frm := 0) (len := 8 * len) hf (by omega) hn
  have e : x * 2 ^ 0 % W64 = x := by rw [Nat.pow_zero, Nat.mul_one, Nat.mod_eq_of_lt hx]
  rw [e] at key
  exact ⟨_, rfl, rfl, rfl, key.1, key.2⟩

/-! ## The bit accessors, for fields inside one word -/

theorem shr64_ok {c : Cfg} {x k : Nat} (h : k < 64) : shr64 c x k = ok (x / 2 ^ k) := by
  unfold shr64; rw [if_pos h, Nat.shiftRight_eq_div_pow]

theorem shl64_ok {c : Cfg} {x k : Nat} (h : k < 64) : shl64 c x k = ok (x * 2 ^ k % W64) := by
  unfold shl64; rw [if_pos h, Nat.shiftLeft_eq]

theorem bitread_ok {c : Cfg} {m : Mem} {off frm len f : Nat} (hs : off + 8 ≤ m.size)
    (h0 : 0 < len) (h : frm + len ≤ 64) (hf : Fld m (8 * off + frm) len f) :
    bitread c m off frm len = ok f := by
  unfold bitread
  rw [rd8_ok hs, ok_bind, if_pos h, shr64_ok (by omega), ok_bind, shr64_ok (by omega), ok_bind]
  have e : (W64 - 1) / 2 ^ (64 - len) = 2 ^ len - 1 := by
    have p1 := Nat.two_pow_pos len
    have p2 := Nat.two_pow_pos (64 - len)
    have e3 : (2 : Nat) ^ 64 = 2 ^ len * 2 ^ (64 - len) := by
      rw [← Nat.pow_add]; congr 1; omega
    rw [Nat.div_eq_iff p2, Nat.sub_mul, ← e3, Nat.one_mul]
    have : 2 ^ (64 - len) ≤ 2 ^ 64 := Nat.pow_le_pow_right (by decide) (by omega)
    simp only [W64]
    omega
  rw [e, Nat.and_two_pow_sub_one_eq_mod, fld_word hf h]

theorem bitwriteInc_ok {c : Cfg} {m : Mem} {off frm len f x : Nat} (hs : off + 8 ≤ m.size)
    (hc : c.strictShift = false ∨ 0 < frm)
    (h0 : 0 < len) (h : frm + len ≤ 64) (hf : Fld m (8 * off + frm) len f) (hn : add64 f x < 2 ^ len) :
    ∃ m', bitwriteInc c m off frm len x = ok m' ∧ m'.size = m.size ∧ m'.addr = m.addr ∧
      Fld m' (8 * off + frm) len (add64 f x) ∧
      ∀ q, q < 8 * off + frm ∨ 8 * off + frm + len ≤ q → bitAt m' q = bitAt m q := by
  unfold bitwriteInc
  rw [rd8_ok hs, ok_bind, shr64_ok (by omega), ok_bind]
  have e : ∃ k, shr64 c (add64 (rd m off 8 / 2 ^ frm) x) (64 - frm) = ok k := by
    by_cases hfr : 0 < frm
    · exact ⟨_, shr64_ok (by omega)⟩
    · unfold shr64
      rw [if_neg (by omega)]
      rcases hc with hc | hc
      · rw [hc]; exact ⟨_, rfl⟩
      · omega
  obtain ⟨k, hk⟩ := e
  simp only [hk, ok_bind]
  rw [if_pos (Or.inl h), shl64_ok (by omega), ok_bind, wr8_ok hs]
  have key := inc_field (m := m) (off := off) (frm := frm) (len := len) hf h hn
  exact ⟨_, rfl, rfl, rfl, key.1, key.2⟩

end MRS.Hft
