import Verif.Props.Poppy
import Verif.Proofs.Poppy.Later

/-!
# Poppy: `select` after the first superblock

C59 of `properties.jsonl`, for ranks behind the first `2^32` bits.  `select` reads the counters of the first
superblock for every superblock, so it looks in a block that has nothing to do with the wanted one.
-/

set_option autoImplicit false

namespace MRS.Props
open Outcome MRS.Poppy Spec Spec.Poppy

variable {ws : List Word} {n : Nat} {g1 g2 : Nat → Nat} {g3 : Nat → Nat → Nat} {b : Build} {o : Obj}

/-- Superblock `i` comes after the first one and its counters are the last ones of the table, or others
follow. -/
def Later (n i : Nat) : Prop :=
  1 ≤ i ∧ (i + 1 < n / 2 ^ 32 ∨ i + 1 = n / 2 ^ 32 ∧ n % 2 ^ 32 < 2048)

theorem later_facts (hn : n < 2 ^ 48) (hb : n ≤ 64 * ws.length)
    (e : new g1 g2 g3 (Vec.ofList ws) n = ok o) :
    2048 ≤ n ∧ AllFit (Vec.ofList ws) n ∧ Holds (Vec.ofList ws) n o := by
  obtain ⟨h, hf⟩ := (C58_construct_iff g1 g2 g3 hn hb).1 ⟨o, e⟩
  have hf := (fits_iff h hb).1 hf
  obtain ⟨o', e', ho⟩ := new_ok g1 g2 g3 h hn (by rw [vec_len]; exact hb) hf
  rw [e] at e'
  have := Outcome.ok.inj e'
  subst this
  exact ⟨h, hf, ho⟩

theorem select_bounds {r p i : Nat} (hr : 1 ≤ r) (hp : IsSelect (msbBits ws) (r - 1) p)
    (h1 : 2 ^ 32 * i ≤ p) (h2 : p < 2 ^ 32 * (i + 1)) :
    G (Vec.ofList ws) (2 ^ 32 * i) < r ∧ r ≤ G (Vec.ofList ws) (2 ^ 32 * (i + 1)) ∧ p < 64 * ws.length := by
  obtain ⟨hl, hg, hc⟩ := msb_select hp
  have hG : G (Vec.ofList ws) (p + 1) = r := by rw [G_succ, hg, hc]; show r - 1 + 1 = r; omega
  have m1 := G_mono (Vec.ofList ws) h1
  have m2 := G_mono (Vec.ofList ws) (show p + 1 ≤ 2 ^ 32 * (i + 1) by omega)
  refine ⟨by omega, by omega, hl⟩

/-- **C59, later superblocks.**  The wanted one, at `p` in superblock `i`, is number `r'` of its superblock, and
the first superblock has fewer ones: any answer is in the last block of the superblock, one before it or one
after it. -/
theorem C59_later_few {r p q i : Nat} (hn : n < 2 ^ 48) (hb : n ≤ 64 * ws.length)
    (e : new g1 g2 g3 (Vec.ofList ws) n = ok o) (hi : Later n i) (hr : 1 ≤ r)
    (hp : IsSelect (msbBits ws) (r - 1) p) (h1 : 2 ^ 32 * i ≤ p) (h2 : p < 2 ^ 32 * (i + 1))
    (hm : ones (msbBits ws) (2 ^ 32) < r - ones (msbBits ws) (2 ^ 32 * i)) (eq : o.select b r = ok q) :
    2 ^ 32 * (i + 1) ≤ q + 513 ∧ q ≤ 2 ^ 32 * (i + 1) := by
  obtain ⟨h, hf, ho⟩ := later_facts hn hb e
  obtain ⟨hr1, hr2, hl⟩ := select_bounds hr hp h1 h2
  obtain ⟨hi1, hi2⟩ := hi
  rw [msb_ones _ _ (by omega), msb_ones _ _ (by omega)] at hm
  exact select_later h hn hf ho hi1 hi2 hr1 hr2 hm eq

/-- **C59, negation for later superblocks.**  Such a one anywhere else is never found. -/
theorem C59_later_wrong {r p i : Nat} (hn : n < 2 ^ 48) (hb : n ≤ 64 * ws.length)
    (e : new g1 g2 g3 (Vec.ofList ws) n = ok o) (hi : Later n i) (hr : 1 ≤ r)
    (hp : IsSelect (msbBits ws) (r - 1) p) (h1 : 2 ^ 32 * i ≤ p) (h2 : p + 513 < 2 ^ 32 * (i + 1))
    (hm : ones (msbBits ws) (2 ^ 32) < r - ones (msbBits ws) (2 ^ 32 * i)) : o.select b r ≠ ok p := by
  intro eq
  have := C59_later_few hn hb e hi hr hp h1 (by omega) hm eq
  omega

theorem sample_loc {i k s : Nat} (hs : s < 2 ^ 32) (hi : 2 ^ 32 * i ≤ 64 * ws.length)
    (h : IsSelect (msbBits ws) (ones (msbBits ws) (2 ^ 32 * i) + 8192 * k) (2 ^ 32 * i + s)) :
    LocOK (Vec.ofList ws) (2 ^ 32 * i) k s := by
  obtain ⟨hl, hg, hc⟩ := msb_select h
  rw [msb_ones _ _ hi] at hc
  exact ⟨hs, hg, hc⟩

/-- **C59, later superblocks.**  `s` is where the samples say to start in superblock `i` (the one with a
number, from 0, that is a multiple of 8192), and the first superblock has fewer than `r'` ones before that
line and its one number `r'` at `p0`: any answer is in the block that is in superblock `i` where the block of
`p0` is in the first one, one before it or one after it. -/
theorem C59_later_first {r p q i s p0 : Nat} (hn : n < 2 ^ 48) (hb : n ≤ 64 * ws.length)
    (e : new g1 g2 g3 (Vec.ofList ws) n = ok o) (hi : Later n i) (hr : 1 ≤ r)
    (hp : IsSelect (msbBits ws) (r - 1) p) (h1 : 2 ^ 32 * i ≤ p) (h2 : p < 2 ^ 32 * (i + 1))
    (hs : s < 2 ^ 32)
    (hsel : IsSelect (msbBits ws) (ones (msbBits ws) (2 ^ 32 * i) +
      8192 * ((r - ones (msbBits ws) (2 ^ 32 * i) - 1) / 8192)) (2 ^ 32 * i + s))
    (hlt : ones (msbBits ws) (2048 * (s / 2048)) < r - ones (msbBits ws) (2 ^ 32 * i))
    (hp0 : p0 < 2 ^ 32) (hsel0 : IsSelect (msbBits ws) (r - ones (msbBits ws) (2 ^ 32 * i) - 1) p0)
    (eq : o.select b r = ok q) :
    2 ^ 32 * i + 512 * (p0 / 512) ≤ q + 1 ∧ q ≤ 2 ^ 32 * i + 512 * (p0 / 512 + 1) := by
  obtain ⟨h, hf, ho⟩ := later_facts hn hb e
  obtain ⟨hr1, hr2, hl⟩ := select_bounds hr hp h1 h2
  obtain ⟨hi1, hi2⟩ := hi
  have hloc := sample_loc hs (by omega) hsel
  rw [msb_ones _ _ (by omega)] at hloc hsel0
  rw [msb_ones _ _ (by omega), msb_ones _ _ (by omega)] at hlt
  obtain ⟨-, hg0, hc0⟩ := msb_select hsel0
  have hG : G (Vec.ofList ws) (p0 + 1) = r - G (Vec.ofList ws) (2 ^ 32 * i) := by
    rw [G_succ, hg0, hc0]
    show _ - 1 + 1 = _
    omega
  exact select_later_same h hn hf ho hi1 hi2 hr1 hr2 hloc hlt hp0 (by omega) (by omega) eq

/-- **C59, later superblocks.**  The first superblock has more than `r'` ones before the line where the
samples say to start in superblock `i`, and at most about `2^31` more: `select` shifts by a negative number. -/
theorem C59_later_shift {r p i s : Nat} (hn : n < 2 ^ 48) (hb : n ≤ 64 * ws.length)
    (e : new g1 g2 g3 (Vec.ofList ws) n = ok o) (hi : Later n i) (hi3 : i < 32) (hr : 1 ≤ r)
    (hp : IsSelect (msbBits ws) (r - 1) p) (h1 : 2 ^ 32 * i ≤ p) (h2 : p < 2 ^ 32 * (i + 1))
    (hs : s < 2 ^ 32)
    (hsel : IsSelect (msbBits ws) (ones (msbBits ws) (2 ^ 32 * i) +
      8192 * ((r - ones (msbBits ws) (2 ^ 32 * i) - 1) / 8192)) (2 ^ 32 * i + s))
    (hgt : r - ones (msbBits ws) (2 ^ 32 * i) < ones (msbBits ws) (2048 * (s / 2048)))
    (hd : ones (msbBits ws) (2048 * (s / 2048)) ≤
      r - ones (msbBits ws) (2 ^ 32 * i) + (2 ^ 31 - 1536)) :
    o.select b r = ub .shift := by
  obtain ⟨h, hf, ho⟩ := later_facts hn hb e
  obtain ⟨hr1, hr2, hl⟩ := select_bounds hr hp h1 h2
  obtain ⟨hi1, hi2⟩ := hi
  have hloc := sample_loc hs (by omega) hsel
  rw [msb_ones _ _ (by omega)] at hloc
  rw [msb_ones _ (2 ^ 32 * i) (by omega), msb_ones _ _ (by omega)] at hgt hd
  exact select_later_shift h hn (by rw [vec_len]; exact hb) hf ho hi1 hi3 hi2 hr1 hr2 hloc hgt hd

/-! ## Bitmaps of `2^33` bits -/

/-- `u` words with one one each at the end, `v` empty words, `w` words with one one each. -/
def threeParts (u v w : Nat) : List Word :=
  List.replicate u 1#64 ++ (List.replicate v 0#64 ++ List.replicate w 1#64)

theorem three_len (u v w : Nat) : (threeParts u v w).length = u + (v + w) := by
  unfold threeParts
  simp only [List.length_append, List.length_replicate]

theorem three_get (u v w x : Nat) (hx : x < u + (v + w)) : (Vec.ofList (threeParts u v w)).f x =
    if x < u ∨ u + v ≤ x then 1#64 else 0#64 := by
  show (threeParts u v w).getD x 0#64 = _
  rw [List.getD_eq_getElem?_getD]
  unfold threeParts
  by_cases h1 : x < u
  · rw [if_pos (Or.inl h1), List.getElem?_append_left (by rw [List.length_replicate]; exact h1),
      List.getElem?_replicate, if_pos h1]
    rfl
  · rw [List.getElem?_append_right (by rw [List.length_replicate]; omega), List.length_replicate]
    by_cases h2 : u + v ≤ x
    · rw [if_pos (Or.inr h2), List.getElem?_append_right (by rw [List.length_replicate]; omega),
        List.length_replicate, List.getElem?_replicate, if_pos (by omega)]
      rfl
    · rw [if_neg (by omega), List.getElem?_append_left (by rw [List.length_replicate]; omega),
        List.getElem?_replicate, if_pos (by omega)]
      rfl

theorem three_G (u v w : Nat) : ∀ x, x ≤ u + (v + w) →
    G (Vec.ofList (threeParts u v w)) (64 * x) = min x u + (x - (u + v))
  | 0, _ => by
    rw [Nat.mul_zero, G_zero]
    omega
  | x + 1, hx => by
    rw [← word_add, three_G u v w x (by omega), three_get u v w x (by omega)]
    by_cases h : x < u ∨ u + v ≤ x
    · rw [if_pos h, show popcnt (1#64) = 1 by decide +kernel]
      omega
    · rw [if_neg h, show popcnt (0#64) = 0 by decide +kernel]
      omega

theorem three_select {u v w x : Nat} (hx : x < u + (v + w)) (h : x < u ∨ u + v ≤ x) :
    IsSelect (msbBits (threeParts u v w)) (min x u + (x - (u + v))) (64 * x + 63) := by
  have hl := three_len u v w
  refine ⟨?_, ?_⟩
  · rw [msbBits_get _ _ (by omega)]
    unfold gbit
    rw [show (64 * x + 63) / 64 = x by omega, show 63 - (64 * x + 63) % 64 = 0 by omega, three_get u v w x hx,
      if_pos h]
    rfl
  · rw [msb_ones _ _ (by omega), G_word _ _ (by omega), three_G u v w x (by omega), three_get u v w x hx,
      if_pos h, show mcnt (1#64) 63 = 0 by decide +kernel]
    rfl

theorem three_ones {u v w x : Nat} (hx : x ≤ u + (v + w)) :
    ones (msbBits (threeParts u v w)) (64 * x) = min x u + (x - (u + v)) := by
  rw [msb_ones _ _ (by rw [three_len]; omega), three_G u v w x hx]

theorem three_built {u v w : Nat} (h : 64 * (u + (v + w)) = 2 ^ 33) :
    ∃ o, new g1 g2 g3 (Vec.ofList (threeParts u v w)) (2 ^ 33) = ok o := by
  refine (C58_construct_iff g1 g2 g3 (by omega) (by rw [three_len]; omega)).2 ⟨by omega, ?_⟩
  intro i hi
  have hi : i < 2 := by unfold supers at hi; omega
  have h1 : ∀ m, m = 2048 ∨ m = 512 → superOnes (msbBits (threeParts u v w)) (2 ^ 33) m i ≤ 2 ^ 26 ∧
      superOnes (msbBits (threeParts u v w)) (2 ^ 33) m i =
        ones (msbBits (threeParts u v w)) (64 * (67108864 * (i + 1))) -
        ones (msbBits (threeParts u v w)) (64 * (67108864 * i)) := by
    intro m hm
    have hdiv : 2 ^ 33 / m * m = 2 ^ 33 := by rcases hm with rfl | rfl <;> omega
    have e1 : superOnes (msbBits (threeParts u v w)) (2 ^ 33) m i =
        ones (msbBits (threeParts u v w)) (64 * (67108864 * (i + 1))) -
        ones (msbBits (threeParts u v w)) (64 * (67108864 * i)) := by
      unfold superOnes
      rw [hdiv, show min (2 ^ 32 * (i + 1)) (2 ^ 33) = 64 * (67108864 * (i + 1)) by omega,
        show min (2 ^ 32 * i) (2 ^ 33) = 64 * (67108864 * i) by omega]
    refine ⟨?_, e1⟩
    rw [e1, three_ones (by omega), three_ones (by omega)]
    omega
  obtain ⟨a1, a2⟩ := h1 2048 (Or.inl rfl)
  obtain ⟨b1, b2⟩ := h1 512 (Or.inr rfl)
  rw [a2, b2]
  rw [a2] at a1
  exact ⟨by omega, Nat.le_refl _⟩

theorem later_one : Later (2 ^ 33) 1 := ⟨by omega, Or.inr ⟨by omega, by omega⟩⟩

/-- An empty superblock, then one one per word: the first one is in the first word of the second superblock,
and `select(1)` does not find it. -/
example : ∃ o, new g1 g2 g3 (Vec.ofList (threeParts 0 67108864 67108864)) (2 ^ 33) = ok o ∧
    o.select b 1 ≠ ok (2 ^ 32 + 63) := by
  obtain ⟨u, hu⟩ : ∃ u, u = 67108864 := ⟨_, rfl⟩
  rw [← hu]
  obtain ⟨o, eo⟩ := three_built (g1 := g1) (g2 := g2) (g3 := g3) (u := 0) (v := u) (w := u) (by omega)
  refine ⟨o, eo, ?_⟩
  have hsel := three_select (u := 0) (v := u) (w := u) (x := u) (by omega) (by omega)
  rw [show min u 0 + (u - (0 + u)) = 1 - 1 by omega, show 64 * u + 63 = 2 ^ 32 + 63 by omega] at hsel
  refine C59_later_wrong (by omega) (by rw [three_len]; omega) eo later_one (by omega) hsel (by omega)
    (by omega) ?_
  rw [show (2 : Nat) ^ 32 * 1 = 2 ^ 32 by omega, show (2 : Nat) ^ 32 = 64 * u by omega,
    three_ones (by omega)]
  omega

/-- One one per word in the first superblock and in the second half of the second one. -/
example : ∃ o, new g1 g2 g3 (Vec.ofList (threeParts 67108864 33554432 33554432)) (2 ^ 33) = ok o ∧
    IsSelect (msbBits (threeParts 67108864 33554432 33554432)) (67108865 - 1) (2 ^ 32 + 2 ^ 31 + 63) ∧
    o.select b 67108865 = ub .shift := by
  obtain ⟨u, hu⟩ : ∃ u, u = 33554432 := ⟨_, rfl⟩
  rw [show 67108864 = 2 * u by omega, show 67108865 = 2 * u + 1 by omega, ← hu]
  obtain ⟨o, eo⟩ := three_built (g1 := g1) (g2 := g2) (g3 := g3) (u := 2 * u) (v := u) (w := u) (by omega)
  have hsel := three_select (u := 2 * u) (v := u) (w := u) (x := 3 * u) (by omega) (by omega)
  rw [show min (3 * u) (2 * u) + (3 * u - (2 * u + u)) = 2 * u + 1 - 1 by omega,
    show 64 * (3 * u) + 63 = 2 ^ 32 + 2 ^ 31 + 63 by omega] at hsel
  have ho : ones (msbBits (threeParts (2 * u) u u)) (2 ^ 32 * 1) = 2 * u := by
    rw [show (2 : Nat) ^ 32 * 1 = 64 * (2 * u) by omega, three_ones (by omega)]
    omega
  have ho2 : ones (msbBits (threeParts (2 * u) u u)) (2048 * ((2 ^ 31 + 63) / 2048)) = u := by
    rw [show 2048 * ((2 ^ 31 + 63) / 2048) = 64 * u by omega, three_ones (by omega)]
    omega
  refine ⟨o, eo, hsel, C59_later_shift (s := 2 ^ 31 + 63) (by omega) (by rw [three_len]; omega) eo later_one
    (by omega) (by omega) hsel (by omega) (by omega) (by omega) ?_ ?_ ?_⟩
  · rw [ho, show 2 * u + 8192 * ((2 * u + 1 - 2 * u - 1) / 8192) = 2 * u + 1 - 1 by omega,
      show 2 ^ 32 * 1 + (2 ^ 31 + 63) = 2 ^ 32 + 2 ^ 31 + 63 by omega]
    exact hsel
  · rw [ho, ho2]
    omega
  · rw [ho, ho2]
    omega

/-- One one per word everywhere: the answer for the first one of the second superblock stays in the first
block of that superblock. -/
example : ∃ o, new g1 g2 g3 (Vec.ofList (threeParts 134217728 0 0)) (2 ^ 33) = ok o ∧
    ∀ q, o.select b 67108865 = ok q → 2 ^ 32 ≤ q + 1 ∧ q ≤ 2 ^ 32 + 512 := by
  obtain ⟨u, hu⟩ : ∃ u, u = 67108864 := ⟨_, rfl⟩
  rw [show 134217728 = 2 * u by omega, show 67108865 = u + 1 by omega]
  obtain ⟨o, eo⟩ := three_built (g1 := g1) (g2 := g2) (g3 := g3) (u := 2 * u) (v := 0) (w := 0) (by omega)
  refine ⟨o, eo, fun q eq => ?_⟩
  have hsel := three_select (u := 2 * u) (v := 0) (w := 0) (x := u) (by omega) (by omega)
  rw [show min u (2 * u) + (u - (2 * u + 0)) = u + 1 - 1 by omega,
    show 64 * u + 63 = 2 ^ 32 + 63 by omega] at hsel
  have hsel0 := three_select (u := 2 * u) (v := 0) (w := 0) (x := 0) (by omega) (by omega)
  have ho : ones (msbBits (threeParts (2 * u) 0 0)) (2 ^ 32 * 1) = u := by
    rw [show (2 : Nat) ^ 32 * 1 = 64 * u by omega, three_ones (by omega)]
    omega
  have ho2 : ones (msbBits (threeParts (2 * u) 0 0)) (2048 * (63 / 2048)) = 0 := by
    rw [show 2048 * (63 / 2048) = 64 * 0 by omega, three_ones (by omega)]
    omega
  have := C59_later_first (s := 63) (p0 := 63) (by omega) (by rw [three_len]; omega) eo later_one
    (by omega) hsel (by omega) (by omega) (by omega) (by
      rw [ho, show u + 8192 * ((u + 1 - u - 1) / 8192) = u + 1 - 1 by omega,
        show 2 ^ 32 * 1 + 63 = 2 ^ 32 + 63 by omega]
      exact hsel) (by rw [ho, ho2]; omega) (by omega) (by
      rw [ho, show u + 1 - u - 1 = min 0 (2 * u) + (0 - (2 * u + 0)) by omega]
      exact hsel0) eq
  omega

end MRS.Props
