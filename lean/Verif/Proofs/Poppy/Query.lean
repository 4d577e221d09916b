import Verif.Proofs.Poppy.Build

/-! # Poppy: rank and select -/

set_option autoImplicit false

namespace MRS.Poppy
open Outcome Spec

variable {bits : Vec Word} {nbits : Nat}

/-- All superblocks have room for their samples. -/
def AllFit (bits : Vec Word) (nbits : Nat) : Prop := ∀ i, i < l1Count nbits → LocFits bits nbits i

theorem E_zero (nbits : Nat) : E nbits 0 = 0 := by unfold E; omega

theorem E_le_l2 (nbits i : Nat) : E nbits i ≤ l2Count nbits := Nat.min_le_right _ _
theorem E_le_mul (nbits i : Nat) : E nbits i ≤ i * 2 ^ 21 := Nat.min_le_left _ _

theorem c1_add (bits : Vec Word) (nbits i : Nat) :
    G bits (2048 * E nbits i) + c1 bits nbits i = G bits (2048 * E nbits (i + 1)) := by
  have h : 2048 * E nbits i ≤ 2048 * E nbits (i + 1) :=
    Nat.mul_le_mul_left 2048 (E_mono nbits (Nat.le_succ i))
  have := G_mono bits h
  unfold c1
  omega

theorem F_cover (h : 2048 ≤ nbits) {i : Nat} (hi : i < l1Count nbits) :
    2048 * E nbits (i + 1) ≤ 2 ^ 32 * i + 512 * F nbits i := by
  have e1 := E_le_l2 nbits (i + 1)
  have e2 := E_le_mul nbits (i + 1)
  have e3 := E_lt h hi
  have hb : 4 * l2Count nbits ≤ blockCount nbits := by unfold l2Count blockCount; omega
  unfold F
  generalize E nbits (i + 1) = x at *
  generalize E nbits i = y at *
  generalize l2Count nbits = m at *
  generalize blockCount nbits = nb at *
  omega

/-- A superblock whose samples fit has at most `2^32 - 8192` ones. -/
theorem c1_le (h : 2048 ≤ nbits) {i : Nat} (hi : i < l1Count nbits) (hf : LocFits bits nbits i) :
    c1 bits nbits i ≤ 2 ^ 32 - 8192 := by
  have hc := G_mono bits (F_cover h hi)
  have ha := c1_add bits nbits i
  obtain ⟨e1, -⟩ := E_lt h hi
  rw [show 2048 * E nbits i = 2 ^ 32 * i by rw [e1]; omega] at ha
  have hd := G_diff bits (2 ^ 32 * i) (2048 * E nbits (i + 1) - 2 ^ 32 * i)
  have e2 := E_le_mul nbits (i + 1)
  have e3 := E_mono nbits (Nat.le_succ i)
  rw [show 2 ^ 32 * i + (2048 * E nbits (i + 1) - 2 ^ 32 * i) = 2048 * E nbits (i + 1) by
    have : 2048 * E nbits i = 2 ^ 32 * i := by rw [e1]; omega
    generalize E nbits (i + 1) = x at *
    generalize E nbits i = y at *
    omega] at hd
  unfold LocFits need alloc at hf
  generalize c1 bits nbits i = c at *
  generalize G bits (2 ^ 32 * i) = g0 at *
  generalize G bits (2 ^ 32 * i + 512 * F nbits i) = g1 at *
  generalize G bits (2048 * E nbits (i + 1)) = g2 at *
  generalize E nbits (i + 1) = x at *
  have hc : c ≤ 2 ^ 32 := by omega
  clear hd e2 e3 e1
  omega

theorem acc_eq (h : 2048 ≤ nbits) (hf : AllFit bits nbits) : ∀ i, i ≤ l1Count nbits →
    acc bits nbits i = G bits (2048 * E nbits i)
  | 0, _ => by rw [E_zero, Nat.mul_zero, G_zero]; rfl
  | i + 1, hi => by
    show acc bits nbits i + c1 bits nbits i % 2 ^ 32 = _
    have hc := c1_le h (by omega) (hf i (by omega))
    rw [acc_eq h hf i (by omega), Nat.mod_eq_of_lt (by omega), c1_add]

/-- The bits whose rank can be asked for. -/
def covered (nbits : Nat) : Nat := 2048 * E nbits (l1Count nbits)

theorem covered_le (nbits : Nat) : covered nbits ≤ nbits := by
  have := E_le_l2 nbits (l1Count nbits)
  unfold covered
  unfold l2Count at this
  omega

theorem super_of_pos (h : 2048 ≤ nbits) {pos : Nat} (hp : pos < covered nbits) :
    pos / 2 ^ 32 < l1Count nbits ∧ pos / 2 ^ 11 < l2Count nbits ∧
      2048 * E nbits (pos / 2 ^ 32) = 2 ^ 32 * (pos / 2 ^ 32) ∧
      E nbits (pos / 2 ^ 32) ≤ pos / 2 ^ 11 ∧ pos / 2 ^ 11 < E nbits (pos / 2 ^ 32 + 1) := by
  have e1 := E_le_l2 nbits (l1Count nbits)
  have e2 := E_le_mul nbits (l1Count nbits)
  unfold covered at hp
  have hi : pos / 2 ^ 32 < l1Count nbits := by
    generalize E nbits (l1Count nbits) = x at *
    generalize l1Count nbits = n1 at *
    omega
  have ht : pos / 2 ^ 11 < l2Count nbits := by
    generalize E nbits (l1Count nbits) = x at *
    omega
  obtain ⟨e3, -⟩ := E_lt h hi
  refine ⟨hi, ht, by omega, by omega, ?_⟩
  rw [← E_succ h hi]
  exact Nat.lt_min.2 ⟨by omega, ht⟩

/-- An L2 entry's fields. -/
theorem entry_low {B j : Nat} (hB : B ≤ 2048 * j) (hlt : G bits (2048 * j) - G bits B < 2 ^ 32) :
    entry bits B j % 2 ^ 32 = G bits (2048 * j) - G bits B := by
  have _ := hB
  unfold entry
  have := blk_le bits (4 * j)
  have := blk_le bits (4 * j + 1)
  have := blk_le bits (4 * j + 2)
  generalize G bits (2048 * j) - G bits B = c at *
  generalize blk bits (4 * j) = b0 at *
  generalize blk bits (4 * j + 1) = b1 at *
  generalize blk bits (4 * j + 2) = b2 at *
  omega

theorem entry_hi (B j : Nat) : entry bits B j / 2 ^ 32 =
    blk bits (4 * j) + 2 ^ 10 * blk bits (4 * j + 1) + 2 ^ 20 * blk bits (4 * j + 2) := by
  unfold entry
  generalize G bits (2048 * j) - G bits B = c at *
  generalize blk bits (4 * j) = b0 at *
  generalize blk bits (4 * j + 1) = b1 at *
  generalize blk bits (4 * j + 2) = b2 at *
  omega

theorem field (bits : Vec Word) (j : Nat) {i : Nat} (hi : i < 3) :
    (blk bits (4 * j) + 2 ^ 10 * blk bits (4 * j + 1) + 2 ^ 20 * blk bits (4 * j + 2)) / 1024 ^ i %
      1024 = blk bits (4 * j + i) := by
  have := blk_le bits (4 * j)
  have := blk_le bits (4 * j + 1)
  have := blk_le bits (4 * j + 2)
  rcases (show i = 0 ∨ i = 1 ∨ i = 2 by omega) with rfl | rfl | rfl
  · rw [Nat.pow_zero, Nat.div_one]
    simp only [Nat.add_zero]
    omega
  · rw [Nat.pow_one]
    omega
  · rw [show (1024 : Nat) ^ 2 = 1048576 by decide]
    omega

theorem G_small (bits : Vec Word) {p : Nat} (h : p < 2 ^ 60) : G bits p < 2 ^ 60 :=
  Nat.lt_of_le_of_lt (G_le bits p) h

theorem groups_ok (t : Nat) {g r0 : Nat} (hg : g ≤ 3) (hr : r0 = G bits (2048 * t)) (ht : t < 2 ^ 40) :
    ∃ y, forN g (fun _ (s : Nat × Nat) => ok (add64 s.1 (s.2 % 1024), s.2 / 1024))
      (r0, blk bits (4 * t) + 2 ^ 10 * blk bits (4 * t + 1) + 2 ^ 20 * blk bits (4 * t + 2)) =
        ok (G bits (512 * (4 * t + g)), y) := by
  obtain ⟨s, e, h1, h2⟩ := forN_inv
    (body := fun _ (s : Nat × Nat) => ok (add64 s.1 (s.2 % 1024), s.2 / 1024))
    (fun i (s : Nat × Nat) => s.1 = G bits (512 * (4 * t + i)) ∧
      s.2 = (blk bits (4 * t) + 2 ^ 10 * blk bits (4 * t + 1) + 2 ^ 20 * blk bits (4 * t + 2)) / 1024 ^ i)
    g (r0, blk bits (4 * t) + 2 ^ 10 * blk bits (4 * t + 1) + 2 ^ 20 * blk bits (4 * t + 2))
    ⟨by rw [hr]; simp only [Nat.add_zero]; rw [show 512 * (4 * t) = 2048 * t by omega],
      by rw [Nat.pow_zero, Nat.div_one]⟩
    (by
      rintro i ⟨a, x⟩ hi ⟨h1, h2⟩
      simp only at h1 h2
      subst h1 h2
      refine ⟨_, rfl, ?_, ?_⟩
      · show add64 _ _ = _
        rw [field bits t (by omega)]
        have hb := blk_le bits (4 * t + i)
        have hs := G_small bits (show 512 * (4 * t + i) < 2 ^ 60 by omega)
        rw [add64_eq (by simp only [W64]; omega), blk_add, Nat.add_assoc]
      · show _ / 1024 ^ i / 1024 = _
        rw [Nat.div_div_eq_div_mul, ← Nat.pow_succ])
  obtain ⟨a, y⟩ := s
  simp only at h1
  subst h1
  exact ⟨y, e⟩

theorem rank_ok {b : Build} {o : Obj} (h : 2048 ≤ nbits) (hn : nbits < 2 ^ 48)
    (hb : nbits ≤ 64 * bits.len) (hf : AllFit bits nbits) (ho : Holds bits nbits o) {pos : Nat}
    (hp : pos < covered nbits) : o.rank b pos = ok (G bits pos) := by
  obtain ⟨hi, ht, hE, he1, he2⟩ := super_of_pos h hp
  have hcl := covered_le nbits
  have hlt : G bits (2048 * (pos / 2 ^ 11)) - G bits (2 ^ 32 * (pos / 2 ^ 32)) < 2 ^ 32 := by
    have := c1_le h hi (hf _ hi)
    have h1 := c1_add bits nbits (pos / 2 ^ 32)
    rw [hE] at h1
    have h2 := G_mono bits (show 2048 * (pos / 2 ^ 11) ≤ 2048 * E nbits (pos / 2 ^ 32 + 1) by omega)
    omega
  have hle : 2 ^ 32 * (pos / 2 ^ 32) ≤ 2048 * (pos / 2 ^ 11) := by omega
  have hm := G_mono bits hle
  have hs := G_small bits (show 2048 * (pos / 2 ^ 11) < 2 ^ 60 by omega)
  unfold Obj.rank
  rw [massert_ok (by rw [ho.onbits]; exact decide_eq_true (by omega)), ok_bind]
  simp only []
  rw [Vec.get_ok (by rw [ho.l2len]; exact ht), ok_bind,
    Vec.get_ok (by rw [ho.l1len]; exact hi), ok_bind, ho.l1 _ hi, acc_eq h hf _ (by omega),
    ho.l2 _ _ hi he1 he2, hE, entry_low hle hlt, entry_hi]
  have h0 : add64 (G bits (2 ^ 32 * (pos / 2 ^ 32)))
      (G bits (2048 * (pos / 2 ^ 11)) - G bits (2 ^ 32 * (pos / 2 ^ 32))) =
      G bits (2048 * (pos / 2 ^ 11)) := by
    rw [add64_eq (by simp only [W64]; omega)]; omega
  rw [h0]
  obtain ⟨y, e⟩ := groups_ok (bits := bits) (pos / 2 ^ 11) (g := pos % 2048 / 512) (by omega) rfl
    (by omega)
  rw [e, ok_bind]
  simp only []
  have hq : 512 * (4 * (pos / 2 ^ 11) + pos % 2048 / 512) + pos % 512 = pos := by omega
  generalize hqd : 4 * (pos / 2 ^ 11) + pos % 2048 / 512 = q at *
  rw [ho.obits, show (pos / 2 ^ 11 * 4 + pos % 2048 / 512) * 8 = 8 * q by omega]
  by_cases hz : pos % 512 = 0
  · unfold popcountLinear
    rw [if_pos hz, ok_bind, show 512 * q = pos by omega]
    have hs2 := G_small bits (show pos < 2 ^ 60 by omega)
    rw [add64_eq (by simp only [W64]; omega)]
    rfl
  · rw [popcountLinear_ok (by omega) (by omega) (by omega), ok_bind,
      show 64 * (8 * q) = 512 * q by omega, hq]
    have hs2 := G_small bits (show pos < 2 ^ 60 by omega)
    have hm2 := G_mono bits (show 512 * q ≤ pos by omega)
    rw [add64_eq (by simp only [W64]; omega)]
    congr 1
    omega

theorem rank_oob {b : Build} {o : Obj} (ho : Holds bits nbits o) {pos : Nat}
    (hp : covered nbits ≤ pos) (ha : b.ndebug = true ∨ pos ≤ nbits) : o.rank b pos = ub .oob := by
  unfold Obj.rank
  have hA : massert b (decide (pos ≤ o.nbits)) = ok () := by
    rcases ha with ha | ha
    · unfold massert; rw [ha]; rfl
    · exact massert_ok (by rw [ho.onbits]; exact decide_eq_true ha)
  rw [hA, ok_bind]
  simp only []
  by_cases ht : pos / 2 ^ 11 < l2Count nbits
  · rw [Vec.get_ok (by rw [ho.l2len]; exact ht), ok_bind]
    have hi : ¬ pos / 2 ^ 32 < o.l1.len := by
      rw [ho.l1len]
      unfold covered E at hp
      intro hi
      have h1 : l1Count nbits * 2 ^ 21 < l2Count nbits ∨ l2Count nbits ≤ l1Count nbits * 2 ^ 21 := by
        omega
      rcases h1 with h1 | h1
      · rw [Nat.min_eq_left (by omega)] at hp; omega
      · rw [Nat.min_eq_right h1] at hp; omega
    unfold Vec.get
    rw [if_neg hi]
    rfl
  · unfold Vec.get
    rw [if_neg (by rw [ho.l2len]; exact ht)]
    rfl

/-! ## select -/

theorem l1Find_first {l1 : Vec Nat} {r : Nat} (h0 : l1.f 0 < r) : ∀ i, i < l1.len →
    (∀ j, 1 ≤ j → j ≤ i → r ≤ l1.f j) → l1Find l1 r i = ok (0, r - l1.f 0)
  | 0, hi, _ => by
    unfold l1Find
    rw [Vec.get_ok hi, ok_bind, if_pos h0]
  | i + 1, hi, hj => by
    unfold l1Find
    rw [Vec.get_ok hi, ok_bind, if_neg (by have := hj (i + 1) (by omega) (by omega); omega)]
    exact l1Find_first h0 i (by omega) (fun j h1 h2 => hj j h1 (by omega))

theorem l2Walk_ok {l2 : Vec Nat} {M r : Nat} (hM : M ≤ l2.len)
    (hl : ∀ j, j < M → l2.f j % 2 ^ 32 = G bits (2048 * j)) (hr : r ≤ G bits (2048 * M)) :
    ∀ f i, i < M → M ≤ i + f → G bits (2048 * i) < r →
    ∃ j, l2Walk l2 M r f i = ok j ∧ j < M ∧ G bits (2048 * j) < r ∧ r ≤ G bits (2048 * (j + 1))
  | 0, i, h1, h2, _ => by omega
  | f + 1, i, h1, h2, h3 => by
    rw [l2Walk]
    by_cases hc : i + 1 < M
    · rw [if_pos hc, Vec.get_ok (by omega), ok_bind, hl _ hc]
      by_cases hg : G bits (2048 * (i + 1)) < r
      · rw [if_pos hg]
        exact l2Walk_ok hM hl hr f (i + 1) hc (by omega) hg
      · rw [if_neg hg]
        exact ⟨i, rfl, h1, h3, by omega⟩
    · rw [if_neg hc]
      have : i + 1 = M := by omega
      exact ⟨i, rfl, h1, h3, by rw [this]; exact hr⟩

theorem groupWalk_ok {t r : Nat} (hr2 : r ≤ G bits (2048 * (t + 1))) :
    ∀ f g, f + g = 3 → G bits (512 * (4 * t + g)) < r →
    ∃ g', groupWalk f g (r - G bits (512 * (4 * t + g)))
        ((blk bits (4 * t) + 2 ^ 10 * blk bits (4 * t + 1) + 2 ^ 20 * blk bits (4 * t + 2)) / 1024 ^ g) =
        (g', r - G bits (512 * (4 * t + g'))) ∧ g' ≤ 3 ∧ G bits (512 * (4 * t + g')) < r ∧
        r ≤ G bits (512 * (4 * t + g' + 1))
  | 0, g, hf, h => by
    rw [groupWalk]
    refine ⟨g, rfl, by omega, h, ?_⟩
    rw [show 512 * (4 * t + g + 1) = 2048 * (t + 1) by omega]
    exact hr2
  | f + 1, g, hf, h => by
    rw [groupWalk, field bits t (by omega)]
    have ha := blk_add bits (4 * t + g)
    by_cases hc : r - G bits (512 * (4 * t + g)) > blk bits (4 * t + g)
    · rw [if_pos hc, Nat.div_div_eq_div_mul, ← Nat.pow_succ,
        show r - G bits (512 * (4 * t + g)) - blk bits (4 * t + g) =
          r - G bits (512 * (4 * t + (g + 1))) by
            rw [show 4 * t + (g + 1) = 4 * t + g + 1 by omega]; omega]
      exact groupWalk_ok hr2 f (g + 1) (by omega) (by
        rw [show 4 * t + (g + 1) = 4 * t + g + 1 by omega]; omega)
    · rw [if_neg hc]
      exact ⟨g, rfl, by omega, h, by omega⟩

theorem getI_ok {x : Nat} (h : x < bits.len) : getI bits (x : Int) = ok (bits.f x) := by
  unfold getI
  rw [if_neg (by omega), show ((x : Int)).toNat = x by omega, Vec.get_ok h]

theorem word_add (bits : Vec Word) (w : Nat) :
    G bits (64 * w) + popcnt (bits.f w) = G bits (64 * (w + 1)) := by
  have := G_word bits w (Nat.le_refl 64)
  rw [mcnt_all, ← popcnt_eq] at this
  rw [show 64 * (w + 1) = 64 * w + 64 by omega]
  omega

theorem loop512_ok {q r : Nat} (hl : 8 * q + 8 ≤ bits.len) (hr2 : r ≤ G bits (512 * (q + 1))) :
    ∀ f i, f + i = 7 → G bits (64 * (8 * q + i)) < r →
    ∃ i' p, loop512 bits ((8 * q : Nat) : Int) f i ((r - G bits (64 * (8 * q + i)) : Nat) : Int)
        (popcnt (bits.f (8 * q + i)) : Int) = ok (i', ((r - G bits (64 * (8 * q + i')) : Nat) : Int), p) ∧
      i' ≤ 7 ∧ G bits (64 * (8 * q + i')) < r ∧ r ≤ G bits (64 * (8 * q + i' + 1))
  | 0, i, hf, h => by
    rw [loop512]
    refine ⟨i, _, rfl, by omega, h, ?_⟩
    rw [show 64 * (8 * q + i + 1) = 512 * (q + 1) by omega]
    exact hr2
  | f + 1, i, hf, h => by
    rw [loop512]
    have ha := word_add bits (8 * q + i)
    by_cases hc : ((r - G bits (64 * (8 * q + i)) : Nat) : Int) > (popcnt (bits.f (8 * q + i)) : Int)
    · rw [if_pos hc, show ((8 * q : Nat) : Int) + ((i + 1 : Nat) : Int) = ((8 * q + (i + 1) : Nat) : Int)
        by omega, getI_ok (by omega), ok_bind,
        show ((r - G bits (64 * (8 * q + i)) : Nat) : Int) - (popcnt (bits.f (8 * q + i)) : Int) =
          ((r - G bits (64 * (8 * q + (i + 1))) : Nat) : Int) by
            rw [show 8 * q + (i + 1) = 8 * q + i + 1 by omega]; omega]
      exact loop512_ok hl hr2 f (i + 1) (by omega) (by
        rw [show 8 * q + (i + 1) = 8 * q + i + 1 by omega]; omega)
    · rw [if_neg hc]
      exact ⟨i, _, rfl, by omega, h, by omega⟩

/-- `select512` picks the right word and then asks `select64`. -/
theorem select512_ok {q r : Nat} (hl : 8 * q + 8 ≤ bits.len) (hr1 : G bits (512 * q) < r)
    (hr2 : r ≤ G bits (512 * (q + 1))) :
    ∃ w, w ≤ 7 ∧ G bits (64 * (8 * q + w)) < r ∧ r ≤ G bits (64 * (8 * q + w + 1)) ∧
      select512 bits ((8 * q : Nat) : Int) ((r - G bits (512 * q) : Nat) : Int) =
        (select64 (bits.f (8 * q + w)) ((r - G bits (64 * (8 * q + w)) : Nat) : Int)) >>= fun t =>
          ok ((w * 64 + t : Nat) : Int) := by
  obtain ⟨w, p, e, hw, h1, h2⟩ := loop512_ok hl hr2 7 0 rfl (by
    rw [show 64 * (8 * q + 0) = 512 * q by omega]; exact hr1)
  refine ⟨w, hw, h1, h2, ?_⟩
  rw [show 64 * (8 * q + 0) = 512 * q by omega, Nat.add_zero] at e
  unfold select512
  rw [getI_ok (by omega), ok_bind, e, ok_bind]
  simp only []
  rw [show ((8 * q : Nat) : Int) + ((w : Nat) : Int) = ((8 * q + w : Nat) : Int) by omega,
    getI_ok (by omega), ok_bind]
  have ha := word_add bits (8 * q + w)
  rw [if_neg (by omega)]

theorem toInt32_small {x : Nat} (h : x < 2 ^ 31) : toInt32 x = (x : Int) := by
  unfold toInt32
  rw [Nat.mod_eq_of_lt (by omega), if_pos h]

theorem ofInt64_nat {x : Nat} (h : x < 2 ^ 64) : ofInt64 (x : Int) = x := by
  unfold ofInt64
  omega

theorem select64_le {x : Word} {k : Nat} {t : Nat} (h : select64 x (k : Int) = ok t) : t ≤ 64 := by
  by_cases h1 : k < wcnt x 64
  · obtain ⟨p, e, hp⟩ := select64_in h1
    rw [e] at h
    injection h with h
    have := hp.lt
    omega
  · by_cases h2 : k < 64
    · rw [select64_past (by omega) h2] at h
      injection h with h
      omega
    · rw [select64_shift (by omega)] at h
      exact absurd h (by simp)

/-- `select` in the first superblock. -/
theorem select_eq {b : Build} {o : Obj} (h : 2048 ≤ nbits) (hn : nbits < 2 ^ 48)
    (hb : nbits ≤ 64 * bits.len) (hf : AllFit bits nbits) (ho : Holds bits nbits o)
    (hsz : nbits ≤ 2 ^ 32 ∨ 2 ^ 33 ≤ nbits) {r : Nat} (hr1 : 1 ≤ r)
    (hr2 : r ≤ G bits (2048 * E nbits 1)) :
    ∃ W, W < bits.len ∧ G bits (64 * W) < r ∧ r ≤ G bits (64 * (W + 1)) ∧
      o.select b r = (select64 (bits.f W) ((r - G bits (64 * W) : Nat) : Int)) >>= fun t =>
        ok (64 * W + t) := by
  have hn1 : 0 < l1Count nbits := by unfold l1Count; omega
  have hE1 : E nbits 1 ≤ 2 ^ 21 := by have := E_le_mul nbits 1; omega
  have hE2 := E_le_l2 nbits 1
  have hl2 : 2048 * l2Count nbits ≤ nbits := by unfold l2Count; omega
  have hc0 := c1_le h hn1 (hf 0 hn1)
  have hc := c1_add bits nbits 0
  rw [E_zero, Nat.mul_zero, G_zero, Nat.zero_add, Nat.zero_add] at hc
  have hl1z : o.l1.f 0 = 0 := by
    rw [ho.l1 0 hn1, acc_eq h hf 0 (by omega), E_zero, Nat.mul_zero, G_zero]
  have hfind : l1Find o.l1 r (o.l1.len - 1) = ok (0, r) := by
    have := l1Find_first (l1 := o.l1) (r := r) (by omega) (o.l1.len - 1) (by rw [ho.l1len]; omega) (by
      intro j hj1 hj2
      rw [ho.l1len] at hj2
      rw [ho.l1 j (by omega), acc_eq h hf j (by omega)]
      exact Nat.le_trans hr2 (G_mono bits (Nat.mul_le_mul_left 2048 (E_mono nbits hj1))))
    rw [hl1z, Nat.sub_zero] at this
    exact this
  have hpc : r ≤ o.pCount := by
    rw [ho.pCount, acc_eq h hf _ (Nat.le_refl _)]
    exact Nat.le_trans hr2 (G_mono bits (Nat.mul_le_mul_left 2048 (E_mono nbits (by omega))))
  have hent : ∀ j, j < E nbits 1 → o.l2.f j = entry bits 0 j ∧
      entry bits 0 j % 2 ^ 32 = G bits (2048 * j) := by
    intro j hj
    have h1 := ho.l2 0 j hn1 (by rw [E_zero]; omega) (by rw [Nat.zero_add]; exact hj)
    rw [E_zero, Nat.mul_zero] at h1
    refine ⟨h1, ?_⟩
    have h2 := G_mono bits (show 2048 * j ≤ 2048 * E nbits 1 by omega)
    rw [entry_low (by omega) (by rw [G_zero]; omega), G_zero, Nat.sub_zero]
  -- samples
  have hneed : (r - 1) / 8192 < need bits (2 ^ 32 * 0) (512 * F nbits 0) := by
    have h1 := G_mono bits (F_cover h hn1)
    rw [Nat.zero_add] at h1
    unfold need
    rw [Nat.mul_zero, Nat.zero_add, G_zero, Nat.sub_zero]
    rw [Nat.mul_zero, Nat.zero_add] at h1
    omega
  have hfit := hf 0 hn1
  unfold LocFits at hfit
  have hloc := ho.loc 0 _ hn1 hneed
  generalize hv : (o.loc.f 0).f ((r - 1) / 8192) = v at hloc
  obtain ⟨-, -, hloc⟩ := hloc
  rw [Nat.mul_zero, G_zero, Nat.zero_add, Nat.zero_add] at hloc
  have hvlt : v < 2048 * E nbits 1 := by
    apply Classical.byContradiction
    intro hc
    have := G_mono bits (show 2048 * E nbits 1 ≤ v by omega)
    omega
  have hvlo : G bits (2048 * (v / 2 ^ 11)) < r := by
    have := G_mono bits (show 2048 * (v / 2 ^ 11) ≤ v by omega)
    omega
  have hmax : (if 0 = o.l1.len - 1 then sub64 o.l2.len (0 * 2 ^ 21 % 2 ^ 32) % 2 ^ 32 else 2 ^ 21) =
      E nbits 1 := by
    rw [ho.l1len, ho.l2len]
    unfold E
    by_cases h1 : 0 = l1Count nbits - 1
    · rw [if_pos h1]
      have h2 : l2Count nbits ≤ 2 ^ 21 := by unfold l1Count at h1; unfold l2Count; omega
      rw [show 0 * 2 ^ 21 % 2 ^ 32 = 0 by decide, sub64_eq (by omega) (by simp only [W64]; omega),
        Nat.sub_zero, Nat.mod_eq_of_lt (by omega), Nat.one_mul, Nat.min_eq_right h2]
    · rw [if_neg h1]
      have h2 : 2 ^ 21 ≤ l2Count nbits := by unfold l1Count at h1; unfold l2Count; omega
      rw [Nat.one_mul, Nat.min_eq_left h2]
  obtain ⟨t, et, ht, ht1, ht2⟩ := l2Walk_ok (bits := bits) (l2 := o.l2) (M := E nbits 1) (r := r)
    (by rw [ho.l2len]; exact hE2) (fun j hj => by rw [(hent j hj).1]; exact (hent j hj).2) hr2
    (E nbits 1) (v / 2 ^ 11) (by omega) (by omega) hvlo
  obtain ⟨g, eg, hg, hg1, hg2⟩ := groupWalk_ok (bits := bits) (t := t) (r := r) ht2 3 0 rfl (by
    rw [show 512 * (4 * t + 0) = 2048 * t by omega]; exact ht1)
  rw [Nat.pow_zero, Nat.div_one, show 512 * (4 * t + 0) = 2048 * t by omega] at eg
  have hblk : 512 * (4 * t + g + 1) ≤ 64 * bits.len := by omega
  obtain ⟨w, hw, hw1, hw2, ew⟩ := select512_ok (bits := bits) (q := 4 * t + g) (r := r) (by omega) hg1 hg2
  refine ⟨8 * (4 * t + g) + w, by omega, hw1, hw2, ?_⟩
  have hk : r - G bits (512 * (4 * t + g)) ≤ 512 := by
    have := blk_add bits (4 * t + g)
    have := blk_le bits (4 * t + g)
    omega
  unfold Obj.select
  rw [massert_ok (decide_eq_true hpc), ok_bind, hfind, ok_bind]
  simp only []
  rw [hmax, Vec.get_ok (by rw [ho.loclen]; omega), ok_bind,
    Vec.get_ok (by rw [ho.llen 0 hn1]; omega), ok_bind, hv, et, ok_bind,
    Vec.get_ok (by rw [ho.l2len]; omega), ok_bind, (hent t ht).1, (hent t ht).2, entry_hi,
    sub64_eq (by omega) (by simp only [W64]; omega), eg]
  simp only []
  rw [show ((0 * 2 ^ 21 % 2 ^ 32 + t) * 4 + g) * 8 = 8 * (4 * t + g) by omega,
    toInt32_small (by omega), toInt32_small (by omega), ho.obits, ew]
  generalize hs : select64 (bits.f (8 * (4 * t + g) + w))
    ((r - G bits (64 * (8 * (4 * t + g) + w)) : Nat) : Int) = res
  cases res with
  | ok x =>
    have hx := select64_le hs
    simp only [ok_bind]
    congr 1
    rw [ofInt64_nat (by omega), show t * 2 ^ 11 % 2 ^ 32 = t * 2 ^ 11 by omega,
      show 0 * 2 ^ 32 % W64 = 0 by decide,
      add64_eq (a := 0) (b := t * 2 ^ 11) (by simp only [W64]; omega),
      add64_eq (a := 0 + t * 2 ^ 11) (by simp only [W64]; omega),
      add64_eq (by simp only [W64]; omega)]
    omega
  | ub f => rfl
  | abort => rfl

/-- Rank 0 runs off the L1 table. -/
theorem select_zero {b : Build} {o : Obj} (ho : Holds bits nbits o) : o.select b 0 = ub .oob := by
  have : ∀ i, i < o.l1.len → l1Find o.l1 0 i = ub .oob := by
    intro i
    induction i with
    | zero =>
      intro hi
      unfold l1Find
      rw [Vec.get_ok hi, ok_bind, if_neg (by omega)]
    | succ i ih =>
      intro hi
      unfold l1Find
      rw [Vec.get_ok hi, ok_bind, if_neg (by omega)]
      exact ih (by omega)
  unfold Obj.select
  rw [massert_ok (decide_eq_true (Nat.zero_le _)), ok_bind, this _ (by
    rw [ho.l1len]; unfold l1Count; omega)]
  rfl

/-! ## bytes -/

theorem bytes_ok {o : Obj} (hn : nbits < 2 ^ 48) (ho : Holds bits nbits o) :
    o.bytes = ok (40 + 8 * l2Count nbits + 12 * l1Count nbits +
      4 * psum (fun i => need bits (2 ^ 32 * i) (512 * F nbits i)) (l1Count nbits)) := by
  have hn1 : l1Count nbits ≤ 2 ^ 16 := by unfold l1Count; omega
  unfold Obj.bytes
  simp only []
  rw [ho.l1len, ho.l2len]
  obtain ⟨r, e, hr⟩ := forN_inv (body := fun i r => do
      let c ← o.lc.get i
      ok (r + 4 * c + 4))
    (fun i r => r = 8 + 8 * l2Count nbits + 8 + 8 * l1Count nbits + 8 + 8 + 4 * i +
      4 * psum (fun i => need bits (2 ^ 32 * i) (512 * F nbits i)) i) (l1Count nbits)
    (8 + 8 * l2Count nbits + 8 + 8 * l1Count nbits + 8 + 8) (by rw [psum_zero])
    (by
      intro i r hi hr
      rw [Vec.get_ok (by rw [ho.lclen]; omega), ok_bind, ho.lc i hi]
      refine ⟨_, rfl, ?_⟩
      rw [psum_succ]
      omega)
  rw [e, ok_bind]
  congr 1
  omega

end MRS.Poppy
