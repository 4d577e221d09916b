import Verif.Proofs.Hft.ClassF

/-! # BitF: every node lies inside one 64-bit word of the memory -/

set_option autoImplicit false

namespace MRS.Hft
open Outcome

theorem popcount_step : ∀ (f i : Nat), 0 < i → i < 2 ^ f →
    popcount f i + ctzFuel f i = popcount f (i - 1) + 1
  | 0, i, h0, h1 => by simp at h1; omega
  | f + 1, i, h0, h1 => by
    unfold popcount ctzFuel
    rw [Nat.pow_succ] at h1
    by_cases hi : i % 2 = 1
    · rw [if_pos hi, show (i - 1) / 2 = i / 2 by omega]; omega
    · have ih := popcount_step f (i / 2) (by omega) (by omega)
      rw [if_neg hi, show (i - 1) / 2 = i / 2 - 1 by omega]
      omega

theorem popcount_bits : ∀ (k f x : Nat), x < 2 ^ k → popcount f x ≤ k
  | k, 0, x, _ => by simp [popcount]
  | 0, f + 1, x, h => by
    have : x = 0 := by simp at h; omega
    subst this
    unfold popcount
    have := popcount_bits 0 f 0 (by simp)
    simpa using this
  | k + 1, f + 1, x, h => by
    unfold popcount
    rw [Nat.pow_succ] at h
    have := popcount_bits k f (x / 2) (by omega)
    omega

theorem popcount_lt : ∀ (k f x : Nat), x + 1 < 2 ^ (k + 1) → popcount f x ≤ k
  | k, 0, x, _ => by simp [popcount]
  | 0, f + 1, x, h => by
    have : x = 0 := by simp at h; omega
    subst this
    exact popcount_bits 0 (f + 1) 0 (by simp)
  | k + 1, f + 1, x, h => by
    unfold popcount
    rw [Nat.pow_succ] at h
    by_cases hx : x % 2 = 1
    · have := popcount_lt k f (x / 2) (by omega)
      omega
    · have := popcount_bits (k + 1) f (x / 2) (by omega)
      omega

theorem popcount_pos : ∀ (f x : Nat), 0 < x → x < 2 ^ f → 0 < popcount f x
  | 0, x, h0, h1 => by simp at h1; omega
  | f + 1, x, h0, h1 => by
    unfold popcount
    rw [Nat.pow_succ] at h1
    by_cases hx : x % 2 = 1
    · omega
    · have := popcount_pos f (x / 2) (by omega) (by omega)
      omega

theorem popcount_le : ∀ (f x : Nat), popcount f x ≤ x
  | 0, x => by simp [popcount]
  | f + 1, x => by
    unfold popcount
    have := popcount_le f (x / 2)
    omega

/-- What `BitF` needs: `static_assert` line 20 and the root in 63 bits. -/
structure FitBitF (c : Cfg) (n : Nat) : Prop where
  pos : 1 ≤ c.bs
  le : c.bs ≤ 55
  fit : 0 < n → c.bs + Nat.log2 n ≤ 63
  size : n < 2 ^ 48

/-- First bit of node `i`. -/
def bpos (c : Cfg) (i : Nat) : Nat := bitFPos c (i - 1)

/-- Bits of node `i`. -/
def bwd (c : Cfg) (i : Nat) : Nat := c.bs + tz i

theorem bitF_step {c : Cfg} {n i : Nat} (hc : FitBitF c n) (h0 : 0 < i) (h1 : i ≤ n) :
    bpos c i + bwd c i ≤ bpos c (i + 1) := by
  have hsz := hc.size
  have ps := popcount_step 64 i h0 (by omega)
  have hl := popcount_le 64 (i - 1)
  have hl' := popcount_le 64 i
  unfold bpos bwd bitFPos bitFHoles tz
  simp only [Nat.add_sub_cancel, Nat.shiftRight_eq_div_pow]
  obtain ⟨j, rfl⟩ : ∃ j, i = j + 1 := ⟨i - 1, by omega⟩
  simp only [Nat.add_sub_cancel] at *
  have e1 : (c.bs + 1) * (j + 1) = c.bs * j + c.bs + j + 1 := by
    rw [Nat.add_mul, Nat.mul_add]; omega
  have e2 : (c.bs + 1) * j = c.bs * j + j := by rw [Nat.add_mul, Nat.one_mul]
  rw [e1, e2]
  have e3 : j / 2 ^ 14 ≤ (j + 1) / 2 ^ 14 := Nat.div_le_div_right (by omega)
  omega

theorem bitF_slots {c : Cfg} {n : Nat} (hc : FitBitF c n) : Slots n (bpos c) (bwd c) :=
  Slots.of_step fun _ h0 h1 => bitF_step hc h0 h1

theorem bitF_mono {c : Cfg} {n : Nat} (hc : FitBitF c n) : ∀ d i, 0 < i → i + d ≤ n + 1 →
    bpos c i ≤ bpos c (i + d)
  | 0, i, _, _ => Nat.le_refl _
  | d + 1, i, h0, h1 => by
    have h2 := bitF_mono hc d i h0 (by omega)
    have h3 := bitF_step hc (i := i + d) (by omega) (by omega)
    have e : i + (d + 1) = i + d + 1 := by omega
    rw [e]; omega

theorem bitF_end {c : Cfg} {n i : Nat} (hc : FitBitF c n) (h0 : 0 < i) (h1 : i ≤ n) :
    bpos c i + bwd c i ≤ bitFPos c n := by
  have h2 := bitF_step hc h0 h1
  have := bitF_mono hc (n + 1 - (i + 1)) (i + 1) (by omega) (by omega)
  rw [show i + 1 + (n + 1 - (i + 1)) = n + 1 by omega] at this
  have e : bpos c (n + 1) = bitFPos c n := by unfold bpos; rw [Nat.add_sub_cancel]
  omega

/-- Facts about the counts of ones at node `i`. -/
theorem bitF_pop {c : Cfg} {n i : Nat} (hc : FitBitF c n) (h0 : 0 < i) (h1 : i ≤ n) :
    ∃ p q, popcount 64 (i - 1) = p ∧ popcount 64 i = q ∧ q + tz i = p + 1 ∧ 0 < q ∧
      p ≤ Nat.log2 n ∧ p ≤ i - 1 := by
  have hsz := hc.size
  refine ⟨_, _, rfl, rfl, popcount_step 64 i h0 (by omega), popcount_pos 64 i h0 (by omega), ?_,
    popcount_le 64 (i - 1)⟩
  apply popcount_lt
  have := lt_log2_succ (n := n)
  omega

/-- In the aligned case the node ends inside the word. -/
theorem bitF_aligned {c : Cfg} {n i : Nat} (hc : FitBitF c n) (h0 : 0 < i) (h1 : i ≤ n)
    (hal : ((c.bs + 1) * (i - 1) + (c.bs + 1)) % 64 = 0) :
    bpos c i % 64 + bwd c i ≤ 64 ∧ 8 * (bpos c i / 64) + 8 ≤ (bitFPos c n + 56 + 7) / 8 := by
  obtain ⟨p, q, e1, e2, hs, hq, hp, hpi⟩ := bitF_pop hc h0 h1
  have hend := bitF_end hc h0 h1
  have hfit := hc.fit (by omega)
  have hb := hc.pos
  have hlog : Nat.log2 n < 48 := (Nat.log2_lt (by omega)).2 hc.size
  have hpos : bpos c i = (c.bs + 1) * (i - 1) - p + (1 + (i - 1) / 2 ^ 14 * 64) := by
    unfold bpos bitFPos bitFHoles; rw [e1, Nat.shiftRight_eq_div_pow]
  have hge : i - 1 ≤ (c.bs + 1) * (i - 1) := Nat.le_mul_of_pos_left _ (by omega)
  generalize (c.bs + 1) * (i - 1) = A at *
  generalize (i - 1) / 2 ^ 14 = B at *
  unfold bwd at *
  have hm : bpos c i % 64 = 64 - c.bs - p := by omega
  constructor
  · omega
  · omega

theorem bitF_arith {bs t p q A B D lg pos : Nat} (hpos : pos = A - p + (1 + B * 64)) (hA : p ≤ A)
    (e8 : A + (bs + 1) = 8 * D) (hs : q + t = p + 1) (hq : 0 < q) (hp : p ≤ lg)
    (hfit : bs + lg ≤ 63) : pos % 8 + (bs + t) ≤ 64 := by
  omega

/-- In the other case the node ends inside the eight bytes read. -/
theorem bitF_bytes {c : Cfg} {n i : Nat} (hc : FitBitF c n) (h0 : 0 < i) (h1 : i ≤ n) :
    bpos c i % 8 + bwd c i ≤ 64 ∧ bpos c i / 8 + 8 ≤ (bitFPos c n + 56 + 7) / 8 := by
  obtain ⟨p, q, e1, e2, hs, hq, hp, hpi⟩ := bitF_pop hc h0 h1
  have hend := bitF_end hc h0 h1
  have hfit := hc.fit (by omega)
  have hb := hc.pos
  have hle := hc.le
  have hpos : bpos c i = (c.bs + 1) * (i - 1) - p + (1 + (i - 1) / 2 ^ 14 * 64) := by
    unfold bpos bitFPos bitFHoles; rw [e1, Nat.shiftRight_eq_div_pow]
  have hge : i - 1 ≤ (c.bs + 1) * (i - 1) := Nat.le_mul_of_pos_left _ (by omega)
  constructor
  · by_cases h57 : bwd c i ≤ 57
    · omega
    · have h3 : 3 ≤ tz i := by unfold bwd at h57; omega
      have hW : i < W64 := by have := hc.size; simp only [W64]; omega
      obtain ⟨d, hd⟩ := (dvd_iff_tz (M := 3) h0 hW).2 h3
      have e8 : (c.bs + 1) * (i - 1) + (c.bs + 1) = 8 * ((c.bs + 1) * d) := by
        obtain ⟨j, rfl⟩ : ∃ j, i = j + 1 := ⟨i - 1, by omega⟩
        rw [Nat.add_sub_cancel, ← Nat.mul_succ, Nat.succ_eq_add_one, hd]
        exact Nat.mul_left_comm _ _ _
      exact bitF_arith hpos (by omega) e8 hs hq hp hfit
  · unfold bwd at hend
    omega

/-- The representation relation of `BitF`. -/
abbrev bitFRep (c : Cfg) (n : Nat) : Mem → (Nat → Nat) → Prop :=
  FRep n ((bitFPos c n + 56 + 7) / 8) (bpos c) (bwd c)

theorem bitF_get {c : Cfg} {n : Nat} (hc : FitBitF c n) {t : Mem} {v : Nat → Nat} {i : Nat}
    (h : bitFRep c n t v) (h0 : 0 < i) (h1 : i ≤ n) : bitFGet c t i = ok (v i) := by
  have hl : bwd c i < 64 := by
    have ht := tz_le_log2 h0 h1 (by have := hc.size; simp only [W64]; omega)
    have hf := hc.fit (by omega)
    unfold bwd; omega
  have hf := h.fld i h0 h1
  unfold bitFGet
  rw [rho_ok h0, ok_bind, shl64_ok (k := c.bs + tz i) hl, ok_bind]
  have hp64 : 2 ^ (c.bs + tz i) < W64 := Nat.pow_lt_pow_right (by decide) (n := 64) hl
  have em : sub64 (1 * 2 ^ (c.bs + tz i) % W64) 1 = 2 ^ bwd c i - 1 := by
    rw [Nat.one_mul, Nat.mod_eq_of_lt hp64, sub64_eq (Nat.two_pow_pos _) hp64]; rfl
  have eb : bitFPos c (i - 1) = bpos c i := rfl
  simp only [em, eb]
  by_cases hal : ((c.bs + 1) * (i - 1) + (c.bs + 1)) % 64 = 0
  · rw [if_pos hal]
    obtain ⟨w1, w2⟩ := bitF_aligned hc h0 h1 hal
    rw [rd8_ok (by rw [h.size]; exact w2), ok_bind, Nat.and_two_pow_sub_one_eq_mod,
      Nat.shiftRight_eq_div_pow]
    rw [fld_word (off := 8 * (bpos c i / 64)) (by
      rw [show 8 * (8 * (bpos c i / 64)) + bpos c i % 64 = bpos c i by omega]; exact hf) w1]
  · rw [if_neg hal]
    obtain ⟨w1, w2⟩ := bitF_bytes hc h0 h1
    rw [rd8_ok (by rw [h.size]; exact w2), ok_bind, Nat.and_two_pow_sub_one_eq_mod,
      Nat.shiftRight_eq_div_pow]
    rw [fld_word (off := bpos c i / 8) (by
      rw [show 8 * (bpos c i / 8) + bpos c i % 8 = bpos c i by omega]; exact hf) w1]

theorem bitF_inc {c : Cfg} {n : Nat} (hc : FitBitF c n) {t : Mem} {v : Nat → Nat} {i x : Nat}
    (h : bitFRep c n t v) (h0 : 0 < i) (h1 : i ≤ n) (hx : add64 (v i) x < 2 ^ bwd c i) :
    ∃ t', bitFInc c t i x = ok t' ∧ bitFRep c n t' (upd v i (add64 (v i) x)) := by
  have hf := h.fld i h0 h1
  unfold bitFInc
  have eb : bitFPos c (i - 1) = bpos c i := rfl
  simp only [eb]
  by_cases hal : ((c.bs + 1) * (i - 1) + (c.bs + 1)) % 64 = 0
  · rw [if_pos hal]
    obtain ⟨w1, w2⟩ := bitF_aligned hc h0 h1 hal
    have e : 8 * (8 * (bpos c i / 64)) + bpos c i % 64 = bpos c i := by omega
    have k := inc_field (m := t) (off := 8 * (bpos c i / 64)) (frm := bpos c i % 64) (by rw [e]; exact hf)
      w1 hx
    rw [e] at k
    refine ⟨_, ?_, h.upd (bitF_slots hc) h0 h1 ?_ ?_ k.1 k.2⟩
    · rw [rd8_ok (by rw [h.size]; exact w2), ok_bind, wr8_ok (by rw [h.size]; exact w2),
        Nat.shiftLeft_eq]
    · rfl
    · rfl
  · rw [if_neg hal]
    obtain ⟨w1, w2⟩ := bitF_bytes hc h0 h1
    have e : 8 * (bpos c i / 8) + bpos c i % 8 = bpos c i := by omega
    have k := inc_field (m := t) (off := bpos c i / 8) (frm := bpos c i % 8) (by rw [e]; exact hf) w1 hx
    rw [e] at k
    refine ⟨_, ?_, h.upd (bitF_slots hc) h0 h1 ?_ ?_ k.1 k.2⟩
    · rw [rd8_ok (by rw [h.size]; exact w2), ok_bind, wr8_ok (by rw [h.size]; exact w2),
        Nat.shiftLeft_eq]
    · rfl
    · rfl

theorem bitF_sound {c : Cfg} {n : Nat} (hc : FitBitF c n) :
    Sound n (bwd c) (bitFRep c n) (bitFGet c) (bitFInc c) :=
  ⟨bitF_get hc, fun h h0 h1 _ hn => bitF_inc hc h h0 h1 hn⟩

theorem bitF_build {c : Cfg} {n : Nat} {seq : Vec Nat} {P : Nat → Int} (hc : FitBitF c n)
    (hseq : n ≤ seq.len) (hP : ∀ i, i < n → u64 (P (i + 1) - P i) = seq.f i)
    (hw : ∀ i κ, 0 < i → i ≤ n → u64 (stage P κ i) < 2 ^ bwd c i) :
    ∃ t, bitFBuild c seq n = ok ⟨n, t⟩ ∧ Holds n (bitFRep c n) t P := by
  unfold bitFBuild
  obtain ⟨t, e, h⟩ := buildF_ok (n := n) (w := bwd c) (R := bitFRep c n)
    (seq := seq) (leaf := fun j v t => bitFInc c t j v)
    (acc := fun idx r t => do
      let right ← bitFGet c t r
      bitFInc c t idx right) (P := P) (t0 := bytes ((bitFPos c n + 56 + 7) / 8))
    (fun {t v i x} h h0 h1 hv hx hW => by
      have := bitF_inc hc h h0 h1 (x := x) (by rw [hv]; unfold add64; rw [Nat.zero_add, Nat.mod_eq_of_lt hW]; exact hx)
      rw [hv] at this
      unfold add64 at this
      rw [Nat.zero_add, Nat.mod_eq_of_lt hW] at this
      exact this)
    (fun {t v i r} h hr h0 h1 hx => by
      rw [bitF_get hc h h0 (by omega), ok_bind]
      exact bitF_inc hc h (by omega) h1 hx)
    (by have := hc.size; omega) hseq hP hw FRep.zero
  rw [Nat.shiftRight_eq_div_pow]
  have e' := e
  rw [show (8 : Nat) = 2 ^ 3 from rfl] at e'
  rw [e', ok_bind]
  exact ⟨t, rfl, h⟩

end MRS.Hft
