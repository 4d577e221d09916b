import Verif.SpecPoppy
import Verif.Proofs.Poppy.Query
import Verif.Props.Words

/-!
# Properties of `poppy` (include/poppy, src/perf_immutable_bitmap.cpp), C58-C61

`ws` are the words handed to `BitmapPoppy(bits, nbits)`; `g1`, `g2`, `g3` are the contents of the
freshly allocated arrays (arbitrary).
-/

set_option autoImplicit false

namespace MRS.Props
open MRS.Poppy Outcome Spec Spec.Poppy

/-! ## The specification's bits and the model's -/

theorem msbBits_length (ws : List Word) : (msbBits ws).length = 64 * ws.length := by
  induction ws with
  | nil => rfl
  | cons w ws ih =>
    unfold msbBits at *
    rw [List.flatMap_cons, List.length_append, ih]
    simp
    omega

theorem msbBits_get (ws : List Word) : ∀ i, i < 64 * ws.length →
    (msbBits ws)[i]? = some (gbit (Vec.ofList ws) i) := by
  induction ws with
  | nil => intro i hi; simp at hi
  | cons w ws ih =>
    intro i hi
    unfold msbBits at *
    rw [List.flatMap_cons]
    by_cases h : i < 64
    · rw [List.getElem?_append_left (by simpa using h)]
      unfold gbit Vec.ofList
      rw [Nat.div_eq_of_lt h, Nat.mod_eq_of_lt h]
      simp [h]
    · rw [List.getElem?_append_right (by simp; omega)]
      simp only [List.length_map, List.length_range]
      rw [ih (i - 64) (by rw [List.length_cons] at hi; omega)]
      unfold gbit Vec.ofList
      have e1 : (i - 64) % 64 = i % 64 := by omega
      have e2 : i / 64 = (i - 64) / 64 + 1 := by omega
      rw [e1, e2]
      simp

theorem msb_ones (ws : List Word) : ∀ p, p ≤ 64 * ws.length →
    ones (msbBits ws) p = G (Vec.ofList ws) p
  | 0, _ => by rw [G_zero]; rfl
  | p + 1, h => by
    have hl : p < (msbBits ws).length := by rw [msbBits_length]; omega
    have hg := msbBits_get ws p (by omega)
    rw [List.getElem?_eq_getElem hl] at hg
    injection hg with hg
    rw [ones_succ hl, msb_ones ws p (by omega), G_succ, hg]
    cases gbit (Vec.ofList ws) p <;> rfl

theorem vec_len (ws : List Word) : (Vec.ofList ws).len = ws.length := rfl

variable {ws : List Word} {n : Nat}

theorem supers_eq (n : Nat) : supers n = l1Count n := rfl

theorem E_spec (n i : Nat) : 2048 * E n i = min (2 ^ 32 * i) (n / 2048 * 2048) := by
  unfold E l2Count
  omega

theorem F_spec {n i : Nat} (hi : i < l1Count n) :
    2 ^ 32 * i + 512 * F n i = min (2 ^ 32 * (i + 1)) (n / 512 * 512) ∧
      2 ^ 32 * i = min (2 ^ 32 * i) (n / 512 * 512) := by
  unfold F blockCount
  unfold l1Count at hi
  omega

theorem superOnes_seen (hb : n ≤ 64 * ws.length) (i : Nat) :
    superOnes (msbBits ws) n 2048 i = c1 (Vec.ofList ws) n i := by
  unfold superOnes c1
  rw [msb_ones _ _ (by omega), msb_ones _ _ (by omega), E_spec, E_spec]

theorem superOnes_scanned (hb : n ≤ 64 * ws.length) {i : Nat} (hi : i < l1Count n) :
    superOnes (msbBits ws) n 512 i =
      G (Vec.ofList ws) (2 ^ 32 * i + 512 * F n i) - G (Vec.ofList ws) (2 ^ 32 * i) := by
  unfold superOnes
  obtain ⟨h1, h2⟩ := F_spec hi
  rw [msb_ones _ _ (by omega), msb_ones _ _ (by omega), ← h1, ← h2]

theorem fits_iff (h : 2048 ≤ n) (hb : n ≤ 64 * ws.length) :
    SamplesFit (msbBits ws) n ↔ AllFit (Vec.ofList ws) n := by
  have key : ∀ i, i < l1Count n → c1 (Vec.ofList ws) n i ≤ 2 ^ 32 - 8192 →
      alloc (Vec.ofList ws) n i = (c1 (Vec.ofList ws) n i + 8191) / 8192 := by
    intro i _ hc
    unfold alloc
    generalize c1 (Vec.ofList ws) n i = c at *
    omega
  constructor
  · intro hf i hi
    obtain ⟨h1, h2⟩ := hf i hi
    rw [superOnes_seen hb] at h1 h2
    rw [superOnes_scanned hb hi] at h2
    unfold LocFits need
    rw [key i hi h1]
    exact h2
  · intro hf i hi
    have h1 := c1_le h hi (hf i hi)
    have h2 := hf i hi
    unfold LocFits need at h2
    rw [key i hi h1] at h2
    rw [superOnes_seen hb, superOnes_scanned hb hi]
    exact ⟨h1, h2⟩

theorem answered_eq (n : Nat) : answered n = covered n := by
  unfold covered
  rw [E_spec]
  unfold answered l1Count
  split <;> omega

/-- Bitmaps of whole lines of 2048 bits, shorter than `2^32 - 8192` bits: the samples fit. -/
theorem samplesFit_small (hn : n ≤ 2 ^ 32 - 8192) (hm : n % 2048 < 512) (B : List Bool) :
    SamplesFit B n := by
  intro i hi
  have h0 : i = 0 := by unfold supers at hi; omega
  subst h0
  unfold superOnes
  have hle : ones B (min (2 ^ 32 * (0 + 1)) (n / 2048 * 2048)) ≤ n := by
    unfold ones
    have h1 := List.count_le_length (a := true) (l := B.take (min (2 ^ 32 * (0 + 1)) (n / 2048 * 2048)))
    rw [List.length_take] at h1
    omega
  have e : min (2 ^ 32 * (0 + 1)) (n / 512 * 512) = min (2 ^ 32 * (0 + 1)) (n / 2048 * 2048) := by omega
  rw [e, show min (2 ^ 32 * 0) (n / 512 * 512) = min (2 ^ 32 * 0) (n / 2048 * 2048) by omega]
  exact ⟨by omega, Nat.le_refl _⟩

/-! ## C58: construction and rank -/

/-- **C58, construction.**  `BitmapPoppy(bits, nbits)` ends without undefined behaviour exactly when
there is one whole line of 2048 bits and the samples of every superblock fit. -/
theorem C58_construct_iff (g1 g2 : Nat → Nat) (g3 : Nat → Nat → Nat) (hn : n < 2 ^ 48)
    (hb : n ≤ 64 * ws.length) :
    (∃ o, new g1 g2 g3 (Vec.ofList ws) n = ok o) ↔ 2048 ≤ n ∧ SamplesFit (msbBits ws) n := by
  constructor
  · rintro ⟨o, e⟩
    have h : 2048 ≤ n := by
      apply Classical.byContradiction
      intro h
      rw [new_short _ g1 g2 g3 (by omega)] at e
      exact absurd e (by simp)
    refine ⟨h, (fits_iff h hb).2 fun i hi => ?_⟩
    apply Classical.byContradiction
    intro hf
    rw [new_oob g1 g2 g3 h hn (by rw [vec_len]; exact hb) ⟨i, hi, hf⟩] at e
    exact absurd e (by simp)
  · rintro ⟨h, hf⟩
    obtain ⟨o, e, -⟩ := new_ok g1 g2 g3 h hn (by rw [vec_len]; exact hb) ((fits_iff h hb).1 hf)
    exact ⟨o, e⟩

/-- Short bitmaps: the constructor writes past an empty array. -/
theorem C58_short (g1 g2 : Nat → Nat) (g3 : Nat → Nat → Nat) (h : n < 2048) :
    new g1 g2 g3 (Vec.ofList ws) n = ub .oob := new_short _ g1 g2 g3 h

/-- A superblock with more than `2^32 - 8192` ones: the constructor writes past an empty array. -/
theorem C58_dense (g1 g2 : Nat → Nat) (g3 : Nat → Nat → Nat) (hn : n < 2 ^ 48) (h : 2048 ≤ n)
    (hb : n ≤ 64 * ws.length) (hd : ∃ i, i < supers n ∧ 2 ^ 32 - 8192 < superOnes (msbBits ws) n 2048 i) :
    new g1 g2 g3 (Vec.ofList ws) n = ub .oob := by
  obtain ⟨i, hi, hd⟩ := hd
  refine new_oob g1 g2 g3 h hn (by rw [vec_len]; exact hb) ⟨i, hi, fun hf => ?_⟩
  have := c1_le h hi hf
  rw [superOnes_seen hb] at hd
  omega

/-- **C58, partial.**  On every object that could be constructed, `rank(pos)` is the number of ones
before `pos`, for `pos` in the whole superblocks (bitmaps under `2^32` bits: in the whole lines of 2048
bits).  Missing: the other positions up to `nbits`, see `C58_rank_ub`. -/
theorem C58_rank_partial {g1 g2 : Nat → Nat} {g3 : Nat → Nat → Nat} {b : Build} {o : Obj} {pos : Nat}
    (hn : n < 2 ^ 48) (hb : n ≤ 64 * ws.length) (e : new g1 g2 g3 (Vec.ofList ws) n = ok o)
    (hp : pos < answered n) : o.rank b pos = ok (ones (msbBits ws) pos) := by
  obtain ⟨h, hf⟩ := (C58_construct_iff g1 g2 g3 hn hb).1 ⟨o, e⟩
  have hf := (fits_iff h hb).1 hf
  obtain ⟨o', e', ho⟩ := new_ok g1 g2 g3 h hn (by rw [vec_len]; exact hb) hf
  rw [e] at e'
  injection e' with e'
  subst e'
  rw [answered_eq] at hp
  have := covered_le n
  rw [rank_ok h hn (by rw [vec_len]; exact hb) hf ho hp, msb_ones _ _ (by omega)]

/-- **C58, negation.**  Every other position, `nbits` included, reads past a table. -/
theorem C58_rank_ub {g1 g2 : Nat → Nat} {g3 : Nat → Nat → Nat} {b : Build} {o : Obj} {pos : Nat}
    (hn : n < 2 ^ 48) (hb : n ≤ 64 * ws.length) (e : new g1 g2 g3 (Vec.ofList ws) n = ok o)
    (hp : answered n ≤ pos) (hq : pos ≤ n) : o.rank b pos = ub .oob := by
  obtain ⟨h, hf⟩ := (C58_construct_iff g1 g2 g3 hn hb).1 ⟨o, e⟩
  have hf := (fits_iff h hb).1 hf
  obtain ⟨o', e', ho⟩ := new_ok g1 g2 g3 h hn (by rw [vec_len]; exact hb) hf
  rw [e] at e'
  injection e' with e'
  subst e'
  rw [answered_eq] at hp
  exact rank_oob ho hp (Or.inr hq)

/-- The adapter of the benchmark asks for the ones up to and including a position: the last position
is undefined behaviour on every bitmap. -/
theorem C58_adapter_last {g1 g2 : Nat → Nat} {g3 : Nat → Nat → Nat} {b : Build} {o : Obj}
    (hn : 64 * ws.length < 2 ^ 48) (e : wrapBuild g1 g2 g3 ws = ok o) :
    wrapRank b o (64 * ws.length - 1) = ub .oob := by
  unfold wrapBuild at e
  rw [Nat.mul_comm] at e
  have h := ((C58_construct_iff g1 g2 g3 hn (Nat.le_refl _)).1 ⟨o, e⟩).1
  unfold wrapRank
  rw [add64_eq (by simp only [W64]; omega), show 64 * ws.length - 1 + 1 = 64 * ws.length by omega]
  exact C58_rank_ub hn (Nat.le_refl _) e (by unfold answered; split <;> omega) (Nat.le_refl _)

/-- The adapter at the positions it can answer: ones up to and including `i`. -/
theorem C58_adapter_partial {g1 g2 : Nat → Nat} {g3 : Nat → Nat → Nat} {b : Build} {o : Obj} {i : Nat}
    (hn : 64 * ws.length < 2 ^ 48) (e : wrapBuild g1 g2 g3 ws = ok o) (hi : i + 1 < answered (64 * ws.length)) :
    wrapRank b o i = ok (Spec.rank (msbBits ws) i) := by
  unfold wrapBuild at e
  rw [Nat.mul_comm] at e
  have : answered (64 * ws.length) ≤ 64 * ws.length := by unfold answered; split <;> omega
  unfold wrapRank
  rw [add64_eq (by simp only [W64]; omega)]
  exact C58_rank_partial hn (Nat.le_refl _) e hi

/-- `pCount_`, the number of ones, and `size()`. -/
theorem C58_count {g1 g2 : Nat → Nat} {g3 : Nat → Nat → Nat} {o : Obj}
    (hn : n < 2 ^ 48) (hb : n ≤ 64 * ws.length) (e : new g1 g2 g3 (Vec.ofList ws) n = ok o) :
    o.pCount = ones (msbBits ws) (answered n) ∧ o.size = n := by
  obtain ⟨h, hf⟩ := (C58_construct_iff g1 g2 g3 hn hb).1 ⟨o, e⟩
  have hf := (fits_iff h hb).1 hf
  obtain ⟨o', e', ho⟩ := new_ok g1 g2 g3 h hn (by rw [vec_len]; exact hb) hf
  rw [e] at e'
  injection e' with e'
  subst e'
  have := covered_le n
  rw [answered_eq, msb_ones _ _ (by omega), ho.pCount, acc_eq h hf _ (Nat.le_refl _)]
  exact ⟨rfl, ho.onbits⟩

/-! ## C59: select -/

theorem msb_select {k p : Nat} (h : IsSelect (msbBits ws) k p) :
    p < 64 * ws.length ∧ gbit (Vec.ofList ws) p = true ∧ G (Vec.ofList ws) p = k := by
  obtain ⟨h1, h2⟩ := h
  have hl : p < 64 * ws.length := by
    rw [← msbBits_length]
    exact (List.getElem?_eq_some_iff.1 h1).1
  rw [msbBits_get ws p hl] at h1
  injection h1 with h1
  exact ⟨hl, h1, by rw [← msb_ones ws p (by omega)]; exact h2⟩

theorem word_total (ws : List Word) (W : Nat) :
    wcnt ((Vec.ofList ws).f W) 64 = ones (bitsOf [(ws.getD W 0#64)]) 64 := by
  rw [word_ones _ (Nat.le_refl _)]
  rfl

/-- What `select` hands back: with `W` the word of the wanted one and `k` its number in that word,
counted from 1, the word's one number `k` counted from 0 at the least significant end. -/
def answer (w : Word) (W k : Nat) (r : Outcome Nat) : Prop :=
  (k < wordOnes w → ∃ t, IsSelect (bitsOf [w]) k t ∧ r = ok (64 * W + t)) ∧
  (k = wordOnes w → k < 64 → r = ok (64 * W + 64)) ∧ (k = 64 → r = ub .shift)

theorem wordOnes_eq (w : Word) : wordOnes w = wcnt w 64 := by
  rw [← word_ones w (Nat.le_refl _)]
  unfold wordOnes ones bitsOf
  simp only [List.flatMap_cons, List.flatMap_nil, List.append_nil]
  rw [List.take_of_length_le (by simp)]

/-- **C59, what the code does.**  `p` is the position of one number `r` (from 1) in the first
superblock; the bitmap's length is at most `2^32` or at least `2^33`.  `select(r)` finds the right word
and then counts from the wrong end of the word and from the wrong number. -/
theorem C59_actual {g1 g2 : Nat → Nat} {g3 : Nat → Nat → Nat} {b : Build} {o : Obj} {r p : Nat}
    (hn : n < 2 ^ 48) (hb : n ≤ 64 * ws.length) (hs : n ≤ 2 ^ 32 ∨ 2 ^ 33 ≤ n)
    (e : new g1 g2 g3 (Vec.ofList ws) n = ok o) (hr : 1 ≤ r)
    (hp : IsSelect (msbBits ws) (r - 1) p) (hp1 : p < 2 ^ 32) (hp2 : p < answered n) :
    answer (ws.getD (p / 64) 0#64) (p / 64) (r - ones (msbBits ws) (64 * (p / 64))) (o.select b r) := by
  obtain ⟨h, hf⟩ := (C58_construct_iff g1 g2 g3 hn hb).1 ⟨o, e⟩
  have hf := (fits_iff h hb).1 hf
  obtain ⟨o', e', ho⟩ := new_ok g1 g2 g3 h hn (by rw [vec_len]; exact hb) hf
  rw [e] at e'
  injection e' with e'
  subst e'
  obtain ⟨hl, hg, hc⟩ := msb_select hp
  have hG : G (Vec.ofList ws) (p + 1) = r := by rw [G_succ, hg, hc]; show r - 1 + 1 = r; omega
  have hE : p + 1 ≤ 2048 * E n 1 := by
    rw [E_spec]
    unfold answered at hp2
    split at hp2 <;> omega
  obtain ⟨W, hW, h1, h2, es⟩ := select_eq (b := b) h hn (by rw [vec_len]; exact hb) hf ho hs hr
    (by rw [← hG]; exact G_mono _ hE)
  have hWp : W = p / 64 := by
    rcases Nat.lt_trichotomy W (p / 64) with hlt | heq | hgt
    · have := G_mono (Vec.ofList ws) (show 64 * (W + 1) ≤ p by omega)
      omega
    · exact heq
    · have := G_mono (Vec.ofList ws) (show p + 1 ≤ 64 * W by omega)
      omega
  subst hWp
  rw [es, msb_ones _ _ (by omega)]
  have hw : (Vec.ofList ws).f (p / 64) = ws.getD (p / 64) 0#64 := rfl
  rw [hw]
  have ha := word_add (Vec.ofList ws) (p / 64)
  rw [hw, popcnt_eq] at ha
  generalize ws.getD (p / 64) 0#64 = w at *
  refine ⟨fun hk => ?_, fun hk hk2 => ?_, fun hk => ?_⟩
  · rw [wordOnes_eq] at hk
    obtain ⟨t, et, ht⟩ := select64_in hk
    exact ⟨t, word_select ht, by rw [et]; rfl⟩
  · rw [select64_past (by rw [hk, wordOnes_eq]; exact Nat.le_refl _) hk2]; rfl
  · rw [select64_shift (by omega)]; rfl

/-- **C59, negation.**  Whenever the wanted one is the last of its word, the answer is wrong or
undefined. -/
theorem C59_wrong {g1 g2 : Nat → Nat} {g3 : Nat → Nat → Nat} {b : Build} {o : Obj} {r p : Nat}
    (hn : n < 2 ^ 48) (hb : n ≤ 64 * ws.length) (hs : n ≤ 2 ^ 32 ∨ 2 ^ 33 ≤ n)
    (e : new g1 g2 g3 (Vec.ofList ws) n = ok o) (hr : 1 ≤ r)
    (hp : IsSelect (msbBits ws) (r - 1) p) (hp1 : p < 2 ^ 32) (hp2 : p < answered n)
    (hlast : r = ones (msbBits ws) (64 * (p / 64 + 1))) : o.select b r ≠ ok p := by
  obtain ⟨-, h2, h3⟩ := C59_actual (b := b) hn hb hs e hr hp hp1 hp2
  obtain ⟨hl, hg, hc⟩ := msb_select hp
  have ha := word_add (Vec.ofList ws) (p / 64)
  have hw : (Vec.ofList ws).f (p / 64) = ws.getD (p / 64) 0#64 := rfl
  rw [hw, popcnt_eq, ← wordOnes_eq] at ha
  rw [msb_ones _ _ (by omega)] at hlast h2 h3
  have hle : wordOnes (ws.getD (p / 64) 0#64) ≤ 64 := by rw [wordOnes_eq]; exact ncnt_le _ _
  by_cases hk : r - G (Vec.ofList ws) (64 * (p / 64)) = 64
  · rw [h3 hk]; simp
  · rw [h2 (by omega) (by omega)]
    intro hx
    injection hx with hx
    omega

/-- The adapter counts ranks from 0 and hands them on counted from 1: the same errors. -/
theorem C59_adapter_wrong {g1 g2 : Nat → Nat} {g3 : Nat → Nat → Nat} {b : Build} {o : Obj} {k p : Nat}
    (hn : 64 * ws.length ≤ 2 ^ 32) (e : wrapBuild g1 g2 g3 ws = ok o)
    (hp : IsSelect (msbBits ws) k p) (hp2 : p < answered (64 * ws.length))
    (hlast : k + 1 = ones (msbBits ws) (64 * (p / 64 + 1))) : wrapSelect b o k ≠ ok p := by
  unfold wrapBuild at e
  rw [Nat.mul_comm] at e
  obtain ⟨hl, hg, hc⟩ := msb_select hp
  have hk : k ≤ p := by rw [← hc]; exact G_le _ _
  unfold wrapSelect
  rw [add64_eq (by simp only [W64]; omega)]
  exact C59_wrong (by omega) (Nat.le_refl _) (Or.inl hn) e (by omega) hp (by omega) hp2 hlast

/-- `select(0)` runs off the table of superblocks. -/
theorem C59_zero {g1 g2 : Nat → Nat} {g3 : Nat → Nat → Nat} {b : Build} {o : Obj}
    (hn : n < 2 ^ 48) (hb : n ≤ 64 * ws.length) (e : new g1 g2 g3 (Vec.ofList ws) n = ok o) :
    o.select b 0 = ub .oob := by
  obtain ⟨h, hf⟩ := (C58_construct_iff g1 g2 g3 hn hb).1 ⟨o, e⟩
  have hf := (fits_iff h hb).1 hf
  obtain ⟨o', e', ho⟩ := new_ok g1 g2 g3 h hn (by rw [vec_len]; exact hb) hf
  rw [e] at e'
  injection e' with e'
  subst e'
  exact select_zero ho

/-- **C59, partial.**  `select(r)` is right exactly when one number `k` of the word from the most
significant end (from 1) is at the place, among the 64 of the word, of one number `k` from the least
significant end (from 0).  Missing: all other ranks, where the answer is wrong; superblocks after the
first; lengths between `2^32` and `2^33`. -/
theorem C59_partial {g1 g2 : Nat → Nat} {g3 : Nat → Nat → Nat} {b : Build} {o : Obj} {r p : Nat}
    (hn : n < 2 ^ 48) (hb : n ≤ 64 * ws.length) (hs : n ≤ 2 ^ 32 ∨ 2 ^ 33 ≤ n)
    (e : new g1 g2 g3 (Vec.ofList ws) n = ok o) (hr : 1 ≤ r)
    (hp : IsSelect (msbBits ws) (r - 1) p) (hp1 : p < 2 ^ 32) (hp2 : p < answered n) :
    o.select b r = ok p ↔
      IsSelect (bitsOf [ws.getD (p / 64) 0#64]) (r - ones (msbBits ws) (64 * (p / 64))) (p % 64) := by
  obtain ⟨h1, h2, h3⟩ := C59_actual (b := b) hn hb hs e hr hp hp1 hp2
  obtain ⟨hl, hg, hc⟩ := msb_select hp
  have ha := word_add (Vec.ofList ws) (p / 64)
  have hw : (Vec.ofList ws).f (p / 64) = ws.getD (p / 64) 0#64 := rfl
  rw [hw, popcnt_eq, ← wordOnes_eq] at ha
  rw [msb_ones _ _ (by omega)] at h1 h2 h3 ⊢
  have hm := G_mono (Vec.ofList ws) (show p + 1 ≤ 64 * (p / 64 + 1) by omega)
  rw [G_succ, hg, hc] at hm
  have hm : r - 1 + 1 ≤ G (Vec.ofList ws) (64 * (p / 64 + 1)) := hm
  have hm0 := G_mono (Vec.ofList ws) (show 64 * (p / 64) ≤ p by omega)
  generalize hw' : ws.getD (p / 64) 0#64 = w at *
  have hle : wordOnes w ≤ 64 := by rw [wordOnes_eq]; exact ncnt_le _ _
  have hsel : ∀ {k t}, IsSelect (bitsOf [w]) k t → k < wordOnes w := by
    intro k t ht
    have hlt : t < 64 := by
      have := (List.getElem?_eq_some_iff.1 ht.1).1
      rw [bitsOf_length] at this
      simpa using this
    have h5 : ones (bitsOf [w]) (t + 1) = k + 1 := by
      have hl5 : t < (bitsOf [w]).length := by rw [bitsOf_length]; simpa using hlt
      rw [ones_succ hl5, ht.2]
      have := ht.1
      rw [List.getElem?_eq_getElem hl5] at this
      injection this with this
      rw [this]; rfl
    rw [word_ones _ (by omega)] at h5
    have h6 := wcnt_mono w (show t + 1 ≤ 64 by omega)
    rw [wordOnes_eq]
    omega
  constructor
  · intro he
    by_cases hk : r - G (Vec.ofList ws) (64 * (p / 64)) < wordOnes w
    · obtain ⟨t, ht, et⟩ := h1 hk
      rw [he] at et
      injection et with et
      have : p % 64 = t := by omega
      rw [this]; exact ht
    · by_cases hk2 : r - G (Vec.ofList ws) (64 * (p / 64)) = 64
      · rw [h3 hk2] at he; exact absurd he (by simp)
      · rw [h2 (by omega) (by omega)] at he
        injection he with he
        omega
  · intro ht
    obtain ⟨t, ht2, et⟩ := h1 (hsel ht)
    have : t = p % 64 := isSelect_unique ht2 ht
    rw [et]
    congr 1
    omega

/-! ## C60: select in a word -/

theorem msel_select {w : Word} {k q : Nat} (h : MSel w k q) : IsSelect (msbBits [w]) k q := by
  have hq : q < 64 * [w].length := by simpa using h.lt
  have e : gbit (Vec.ofList [w]) q = w.getLsbD (63 - q) := by
    unfold gbit Vec.ofList
    rw [Nat.div_eq_of_lt h.lt, Nat.mod_eq_of_lt h.lt]
    rfl
  refine ⟨by rw [msbBits_get _ _ hq, e, h.bit], ?_⟩
  rw [msb_ones _ _ (by omega)]
  have := G_word (Vec.ofList [w]) 0 (Nat.le_of_lt h.lt)
  rw [Nat.mul_zero, G_zero, Nat.zero_add] at this
  rw [this]
  rw [Nat.zero_add]
  exact h.cnt

/-- **C60.**  `select64_naive` and `select64_popcount_search` give the place, from the most significant
end, of one number `k` counted from 1. -/
theorem C60_msb {w : Word} {k : Nat} (h1 : 1 ≤ k) (h2 : k ≤ wordOnes w) :
    ∃ q : Nat, IsSelect (msbBits [w]) (k - 1) q ∧ select64Naive w k = (q : Int) ∧
      select64PopcountSearch w k = (q : Int) := by
  rw [wordOnes_eq] at h2
  obtain ⟨q, e, hq⟩ := select64Naive_ok h1 h2
  obtain ⟨q', e', hq'⟩ := select64PopcountSearch_ok h1 h2
  have : q' = q := isSelect_unique (msel_select hq') (msel_select hq)
  subst this
  exact ⟨q', msel_select hq, e, e'⟩

/-- **C60.**  `select64_pdep_tzcnt` (what `select64` calls) and `select64_broadword` give the place, from
the least significant end, of one number `k` counted from 0. -/
theorem C60_lsb {w : Word} {k : Nat} (h : k < wordOnes w) :
    ∃ q : Nat, IsSelect (bitsOf [w]) k q ∧ select64PdepTzcnt w k = ok q ∧ select64 w k = ok q ∧
      select64Broadword w k = ok (q : Int) := by
  rw [wordOnes_eq] at h
  obtain ⟨q, e, hq⟩ := select64_in h
  obtain ⟨q', e', hq'⟩ := select64Broadword_ok h
  have : q' = q := isSelect_unique (word_select hq') (word_select hq)
  subst this
  exact ⟨q', word_select hq, e, e, e'⟩

/-- `suxpopcount` is the number of ones. -/
theorem C60_popcount (w : Word) : suxpopcount w = wordOnes w := by
  rw [suxpopcount_eq, wordOnes_eq]

/-- The two families never agree on the last one of a word: `select64_pdep_tzcnt` answers 64 or is
undefined. -/
theorem C60_disagree {w : Word} (q : Int) (hq : select64Naive w (wordOnes w) = q) (h : 1 ≤ wordOnes w) :
    ∀ p, select64 w (wordOnes w) = ok p → (p : Int) ≠ q := by
  obtain ⟨q', hs, e, -⟩ := C60_msb h (Nat.le_refl _)
  rw [e] at hq
  subst hq
  have hlt : q' < 64 := by
    have := (List.getElem?_eq_some_iff.1 hs.1).1
    rw [msbBits_length] at this
    simpa using this
  intro p hp
  rw [wordOnes_eq] at hp
  have hle : wcnt w 64 ≤ 64 := ncnt_le _ _
  by_cases hk : wcnt w 64 = 64
  · rw [select64_shift (by omega)] at hp; exact absurd hp (by simp)
  · rw [select64_past (Nat.le_refl _) (by omega)] at hp
    injection hp with hp
    omega

/-! ## C61: bytes -/

/-- **C61.**  `bytes()`: tables, samples and counters; the adapter adds the bitmap. -/
theorem C61_bytes {g1 g2 : Nat → Nat} {g3 : Nat → Nat → Nat} {o : Obj}
    (hn : n < 2 ^ 48) (hb : n ≤ 64 * ws.length) (e : new g1 g2 g3 (Vec.ofList ws) n = ok o) :
    o.bytes = ok (40 + 8 * (n / 2048) + 12 * supers n +
      4 * psum (fun i => (superOnes (msbBits ws) n 512 i + 8191) / 8192) (supers n)) := by
  obtain ⟨h, hf⟩ := (C58_construct_iff g1 g2 g3 hn hb).1 ⟨o, e⟩
  have hf := (fits_iff h hb).1 hf
  obtain ⟨o', e', ho⟩ := new_ok g1 g2 g3 h hn (by rw [vec_len]; exact hb) hf
  rw [e] at e'
  injection e' with e'
  subst e'
  rw [bytes_ok hn ho, supers_eq]
  have : psum (fun i => (superOnes (msbBits ws) n 512 i + 8191) / 8192) (l1Count n) =
      psum (fun i => need (Vec.ofList ws) (2 ^ 32 * i) (512 * F n i)) (l1Count n) := by
    apply psum_congr
    intro i hi
    rw [superOnes_scanned hb hi]
    rfl
  rw [this]
  rfl

/-- The adapter adds the words of the bitmap. -/
theorem C61_adapter {g1 g2 : Nat → Nat} {g3 : Nat → Nat → Nat} {o : Obj}
    (hn : 64 * ws.length < 2 ^ 48) (e : wrapBuild g1 g2 g3 ws = ok o) :
    wrapBytes o = ok (ws.length * 8 + (40 + 8 * (64 * ws.length / 2048) + 12 * supers (64 * ws.length) +
      4 * psum (fun i => (superOnes (msbBits ws) (64 * ws.length) 512 i + 8191) / 8192)
        (supers (64 * ws.length)))) := by
  unfold wrapBuild at e
  rw [Nat.mul_comm] at e
  have hbits : o.bits = Vec.ofList ws := by
    obtain ⟨h, hf⟩ := (C58_construct_iff g1 g2 g3 hn (Nat.le_refl _)).1 ⟨o, e⟩
    obtain ⟨o', e', ho⟩ := new_ok g1 g2 g3 h hn (by rw [vec_len]; exact Nat.le_refl _)
      ((fits_iff h (Nat.le_refl _)).1 hf)
    rw [e] at e'
    injection e' with e'
    rw [e']
    exact ho.obits
  unfold wrapBytes
  rw [C61_bytes hn (Nat.le_refl _) e, ok_bind, hbits, vec_len]

/-! ## Examples -/

/-- 4096 bits: 62 empty words between one word with its top two bits set and one with its lowest. -/
def sample : List Word := 0xC000000000000000#64 :: (List.replicate 62 0#64 ++ [1#64])

theorem sample_built (g1 g2 : Nat → Nat) (g3 : Nat → Nat → Nat) :
    ∃ o, new g1 g2 g3 (Vec.ofList sample) 4096 = ok o :=
  (C58_construct_iff g1 g2 g3 (by decide) (by decide)).2
    ⟨by decide, samplesFit_small (by decide) (by decide) _⟩

/-- C58: the sample has three ones, two of them before position 64; position 4096 is undefined. -/
example (g1 g2 : Nat → Nat) (g3 : Nat → Nat → Nat) (b : Build) :
    ∃ o, new g1 g2 g3 (Vec.ofList sample) 4096 = ok o ∧ o.rank b 1 = ok 1 ∧ o.rank b 4095 = ok 2 ∧
      o.rank b 4096 = ub .oob ∧ o.pCount = 3 ∧ o.bytes = ok 72 := by
  obtain ⟨o, e⟩ := sample_built g1 g2 g3
  refine ⟨o, e, ?_, ?_, ?_, ?_, ?_⟩
  · rw [C58_rank_partial (by decide) (by decide) e (by decide)]; decide +kernel
  · rw [C58_rank_partial (by decide) (by decide) e (by decide)]; decide +kernel
  · exact C58_rank_ub (by decide) (by decide) e (by decide) (by decide)
  · rw [(C58_count (by decide) (by decide) e).1]; decide +kernel
  · rw [C61_bytes (by decide) (by decide) e]; decide +kernel

/-- C58, adapter and short bitmaps. -/
example (g1 g2 : Nat → Nat) (g3 : Nat → Nat → Nat) (b : Build) :
    (∃ o, wrapBuild g1 g2 g3 sample = ok o ∧ wrapRank b o 4095 = ub .oob ∧ wrapRank b o 4094 = ok 2 ∧
        wrapSelect b o 2 ≠ ok 4095 ∧ wrapBytes o = ok 584) ∧
      wrapBuild g1 g2 g3 (sample.take 31) = ub .oob := by
  refine ⟨?_, ?_⟩
  · obtain ⟨o, e⟩ := sample_built g1 g2 g3
    refine ⟨o, e, C58_adapter_last (ws := sample) (by decide) e, ?_, ?_, ?_⟩
    · rw [C58_adapter_partial (ws := sample) (by decide) e (by decide)]; decide +kernel
    · exact C59_adapter_wrong (ws := sample) (by decide) e ⟨by decide +kernel, by decide +kernel⟩
        (by decide) (by decide +kernel)
    · rw [C61_adapter (ws := sample) (by decide) e]; decide +kernel
  · exact C58_short g1 g2 g3 (by decide)

theorem msbBits_full (m : Nat) :
    msbBits (List.replicate m 0xFFFFFFFFFFFFFFFF#64) = List.replicate (64 * m) true := by
  induction m with
  | zero => rfl
  | succ m ih =>
    rw [List.replicate_succ, Nat.mul_succ, Nat.add_comm, ← List.replicate_append_replicate, ← ih]
    unfold msbBits
    rw [List.flatMap_cons]
    congr 1

theorem superOnes_full {m : Nat} (h : 2 ^ 32 ≤ 64 * m) {n : Nat} (hn : n = 2 ^ 32) :
    superOnes (msbBits (List.replicate m 0xFFFFFFFFFFFFFFFF#64)) n 2048 0 = 2 ^ 32 := by
  rw [msbBits_full]
  unfold superOnes ones
  rw [List.take_replicate, List.count_replicate_self, List.take_replicate, List.count_replicate_self]
  omega

/-- C58, dense: a full superblock. -/
example (g1 g2 : Nat → Nat) (g3 : Nat → Nat → Nat) {m : Nat} (h : m = 2 ^ 26) :
    new g1 g2 g3 (Vec.ofList (List.replicate m 0xFFFFFFFFFFFFFFFF#64)) (2 ^ 32) = ub .oob :=
  C58_dense g1 g2 g3 (by omega) (by omega) (by rw [List.length_replicate]; omega)
    ⟨0, by unfold supers; omega, by rw [superOnes_full (by omega) rfl]; omega⟩

/-- C59: one number 1 of the sample is at position 0; the answer is 63.  Number 2 is at position 1, the
last of its word; the answer is 64.  Number 3 is at 4095; the answer is 4096. -/
example (g1 g2 : Nat → Nat) (g3 : Nat → Nat → Nat) (b : Build) :
    ∃ o, new g1 g2 g3 (Vec.ofList sample) 4096 = ok o ∧ o.select b 0 = ub .oob ∧
      IsSelect (msbBits sample) 0 0 ∧ o.select b 1 = ok 63 ∧
      IsSelect (msbBits sample) 1 1 ∧ o.select b 2 = ok 64 ∧
      IsSelect (msbBits sample) 2 4095 ∧ o.select b 3 = ok 4096 := by
  obtain ⟨o, e⟩ := sample_built g1 g2 g3
  have h0 : IsSelect (msbBits sample) 0 0 := ⟨by decide +kernel, by decide +kernel⟩
  have h1 : IsSelect (msbBits sample) 1 1 := ⟨by decide +kernel, by decide +kernel⟩
  have h2 : IsSelect (msbBits sample) 2 4095 := ⟨by decide +kernel, by decide +kernel⟩
  refine ⟨o, e, C59_zero (by decide) (by decide) e, h0, ?_, h1, ?_, h2, ?_⟩
  · obtain ⟨h, -, -⟩ := C59_actual (b := b) (r := 1) (by decide) (by decide) (by decide) e (by decide) h0
      (by decide) (by decide)
    obtain ⟨t, ht, et⟩ := h (by decide +kernel)
    have h63 : IsSelect (bitsOf [(sample.getD (0 / 64) 0#64)])
        (1 - ones (msbBits sample) (64 * (0 / 64))) 63 := ⟨by decide +kernel, by decide +kernel⟩
    rw [et, isSelect_unique ht h63]
  · obtain ⟨-, h, -⟩ := C59_actual (b := b) (r := 2) (by decide) (by decide) (by decide) e (by decide) h1
      (by decide) (by decide)
    exact h (by decide +kernel) (by decide +kernel)
  · obtain ⟨-, h, -⟩ := C59_actual (b := b) (r := 3) (by decide) (by decide) (by decide) e (by decide) h2
      (by decide) (by decide)
    exact h (by decide +kernel) (by decide +kernel)

/-- C59: the hypotheses of `C59_wrong`, on the sample. -/
example (g1 g2 : Nat → Nat) (g3 : Nat → Nat → Nat) (b : Build) :
    ∃ o, new g1 g2 g3 (Vec.ofList sample) 4096 = ok o ∧ o.select b 3 ≠ ok 4095 := by
  obtain ⟨o, e⟩ := sample_built g1 g2 g3
  exact ⟨o, e, C59_wrong (by decide) (by decide) (by decide) e (by decide)
    ⟨by decide +kernel, by decide +kernel⟩ (by decide) (by decide) (by decide +kernel)⟩

/-- C59: a word for which the answer happens to be right, bits 5, 10 and 53 (from the least significant
end): one number 1 from the top is at place 10, so is one number 1 counted from 0 from the bottom. -/
example (g1 g2 : Nat → Nat) (g3 : Nat → Nat → Nat) (b : Build) :
    ∃ o, new g1 g2 g3 (Vec.ofList (0x0020000000000420#64 :: List.replicate 31 0#64)) 2048 = ok o ∧
      o.select b 1 = ok 10 := by
  obtain ⟨o, e⟩ := (C58_construct_iff (ws := 0x0020000000000420#64 :: List.replicate 31 0#64) (n := 2048)
    g1 g2 g3 (by decide) (by decide)).2 ⟨by decide, samplesFit_small (by decide) (by decide) _⟩
  exact ⟨o, e, (C59_partial (p := 10) (by decide) (by decide) (by decide) e (by decide)
    ⟨by decide +kernel, by decide +kernel⟩ (by decide) (by decide)).2 ⟨by decide +kernel, by decide +kernel⟩⟩

/-- C60. -/
example : select64Naive 0x8000000000000001#64 2 = 63 ∧ select64PopcountSearch 0x8000000000000001#64 2 = 63 ∧
    select64 0x8000000000000001#64 1 = ok 63 ∧ select64Broadword 0x8000000000000001#64 1 = ok 63 ∧
    select64 0x8000000000000001#64 2 = ok 64 ∧ suxpopcount 0x8000000000000001#64 = 2 := by
  decide +kernel

example : 1 ≤ wordOnes 0x8000000000000001#64 ∧ 1 < wordOnes 0x8000000000000001#64 ∧
    2 ≤ wordOnes 0x8000000000000001#64 := by decide +kernel

end MRS.Props
