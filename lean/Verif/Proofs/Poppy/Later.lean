import Verif.Proofs.Poppy.Query
import Verif.Proofs.Debug

/-! # Poppy: select after the first superblock -/

set_option autoImplicit false

namespace MRS.Poppy
open Outcome Spec

variable {bits : Vec Word} {nbits : Nat}

theorem l1Find_at {l1 : Vec Nat} {r i : Nat} (h0 : l1.f i < r) : ∀ d, i + d < l1.len →
    (∀ j, i < j → j ≤ i + d → r ≤ l1.f j) → l1Find l1 r (i + d) = ok (i, r - l1.f i)
  | 0, hi, _ => by
    rw [Nat.add_zero] at hi ⊢
    cases i with
    | zero =>
      unfold l1Find
      rw [Vec.get_ok hi, ok_bind, if_pos h0]
    | succ i =>
      unfold l1Find
      rw [Vec.get_ok hi, ok_bind, if_pos h0]
  | d + 1, hi, hj => by
    rw [show i + (d + 1) = (i + d) + 1 by omega]
    unfold l1Find
    rw [Vec.get_ok (by omega), ok_bind,
      if_neg (by have := hj (i + d + 1) (by omega) (by omega); omega)]
    exact l1Find_at h0 d (by omega) (fun j h1 h2 => hj j h1 (by omega))

/-- A rank above all counters: the scan ends at the last one. -/
theorem l2Walk_end {l2 : Vec Nat} {M r : Nat} (hM : M ≤ l2.len)
    (hl : ∀ j, j < M → l2.f j % 2 ^ 32 < r) :
    ∀ f i, i < M → M ≤ i + f → l2Walk l2 M r f i = ok (M - 1)
  | 0, i, h1, h2 => by omega
  | f + 1, i, h1, h2 => by
    rw [l2Walk]
    by_cases hc : i + 1 < M
    · rw [if_pos hc, Vec.get_ok (by omega), ok_bind, if_pos (hl _ hc)]
      exact l2Walk_end hM hl f (i + 1) hc (by omega)
    · rw [if_neg hc]
      congr 1
      omega

theorem E_whole {j : Nat} (h : j ≤ nbits / 2 ^ 32) : 2048 * E nbits j = 2 ^ 32 * j := by
  have h2 : j * 2 ^ 21 ≤ l2Count nbits := by unfold l2Count; omega
  unfold E
  rw [Nat.min_eq_left h2]
  omega

theorem groupWalk_end {r x : Nat} (h : x % 1024 + x / 1024 % 1024 + x / 1024 / 1024 % 1024 < r) :
    (groupWalk 3 0 r x).1 = 3 := by
  rw [groupWalk, if_pos (by omega), groupWalk, if_pos (by omega), groupWalk, if_pos (by omega), groupWalk]

theorem loop512_le {x : Int} : ∀ (f i : Nat) (k pop : Int) (z : Nat × Int × Int),
    loop512 bits x f i k pop = ok z → z.1 ≤ i + f
  | 0, i, k, pop, z, h => by
    rw [loop512] at h
    rw [← Outcome.ok.inj h]
    exact Nat.le_refl _
  | f + 1, i, k, pop, z, h => by
    rw [loop512] at h
    by_cases hc : k > pop
    · rw [if_pos hc] at h
      obtain ⟨w, -, h⟩ := bind_ok_inv h
      have := loop512_le f (i + 1) _ _ z h
      omega
    · rw [if_neg hc] at h
      rw [← Outcome.ok.inj h]
      show i ≤ _
      omega

theorem select64_range {x : Word} {k : Int} {t : Nat} (h : select64 x k = ok t) : t ≤ 64 := by
  by_cases h0 : k < 0
  · unfold select64 select64PdepTzcnt at h
    rw [if_pos h0] at h
    exact absurd h (by simp)
  · obtain ⟨m, rfl⟩ := Int.eq_ofNat_of_zero_le (show 0 ≤ k by omega)
    exact select64_le h

/-- Whatever it is asked, `select512` stays in its block, or answers -1, or 512. -/
theorem select512_range {x k z : Int} (h : select512 bits x k = ok z) : -1 ≤ z ∧ z ≤ 512 := by
  unfold select512 at h
  obtain ⟨w, -, h⟩ := bind_ok_inv h
  obtain ⟨⟨i, k', p⟩, e, h⟩ := bind_ok_inv h
  have hi := loop512_le 7 0 _ _ _ e
  simp only [] at hi h
  obtain ⟨w2, -, h⟩ := bind_ok_inv h
  by_cases hc : i = 7 ∧ (popcnt w2 : Int) < k'
  · rw [if_pos hc] at h
    have := Outcome.ok.inj h
    omega
  · rw [if_neg hc] at h
    obtain ⟨t, et, h⟩ := bind_ok_inv h
    have ht := select64_range et
    have := Outcome.ok.inj h
    omega

/-- The end of `select`, after the search for the group. -/
def tail (bits : Vec Word) (off top t : Nat) (gw : Nat × Nat) : Outcome Nat := do
  let z ← select512 bits (toInt32 (((off + t) * 4 + gw.1) * 8)) (toInt32 gw.2)
  ok (add64 (add64 (add64 top (t * 2 ^ 11 % 2 ^ 32)) (gw.1 * 2 ^ 9)) (ofInt64 z))

theorem tail_eq (bits : Vec Word) (off top t : Nat) (gw : Nat × Nat) :
    (match gw with
    | (groupId, rank) => do
      let z ← select512 bits (toInt32 (((off + t) * 4 + groupId) * 8)) (toInt32 rank)
      ok (add64 (add64 (add64 top (t * 2 ^ 11 % 2 ^ 32)) (groupId * 2 ^ 9)) (ofInt64 z))) =
    tail bits off top t gw := by
  cases gw
  rfl

/-- `select` in a later superblock, from the sample `v` on.  The counters read are those of the first
superblock. -/
theorem select_reduce {b : Build} {o : Obj} (h : 2048 ≤ nbits) (hn : nbits < 2 ^ 48)
    (hf : AllFit bits nbits) (ho : Holds bits nbits o)
    {i r : Nat} (hi : 1 ≤ i) (hi2 : i + 1 < nbits / 2 ^ 32 ∨ i + 1 = nbits / 2 ^ 32 ∧ nbits % 2 ^ 32 < 2048)
    (hr1 : G bits (2 ^ 32 * i) < r) (hr2 : r ≤ G bits (2 ^ 32 * (i + 1))) :
    ∃ M v off top, M = 2 ^ 21 ∧ off = i * 2 ^ 21 % 2 ^ 32 ∧ top = i * 2 ^ 32 % W64 ∧ M ≤ o.l2.len ∧
      LocOK bits (2 ^ 32 * i) ((r - G bits (2 ^ 32 * i) - 1) / 8192) v ∧
      (∀ j, j < M → o.l2.f j = entry bits 0 j ∧ o.l2.f j % 2 ^ 32 = G bits (2048 * j)) ∧
      G bits (2 ^ 32) < 2 ^ 32 ∧ r - G bits (2 ^ 32 * i) < 2 ^ 32 ∧
      o.select b r = (do
        let t ← l2Walk o.l2 M (r - G bits (2 ^ 32 * i)) M (v / 2 ^ 11)
        let e ← o.l2.get t
        tail bits off top t
          (groupWalk 3 0 (sub64 (r - G bits (2 ^ 32 * i)) (e % 2 ^ 32)) (e / 2 ^ 32))) := by
  obtain ⟨M, hM⟩ : ∃ M, M = 2 ^ 21 := ⟨_, rfl⟩
  have hL : l1Count nbits = nbits / 2 ^ 32 := by unfold l1Count; omega
  have hl1 : i < l1Count nbits := by omega
  have hEj : ∀ j, j ≤ nbits / 2 ^ 32 → 2048 * E nbits j = 2 ^ 32 * j := fun j hj => E_whole hj
  have hacc : ∀ j, j < l1Count nbits → o.l1.f j = G bits (2 ^ 32 * j) := by
    intro j hj
    rw [ho.l1 j hj, acc_eq h hf j (by omega), hEj j (by omega)]
  have hfind : l1Find o.l1 r (o.l1.len - 1) = ok (i, r - G bits (2 ^ 32 * i)) := by
    have := l1Find_at (l1 := o.l1) (r := r) (i := i) (by rw [hacc i hl1]; exact hr1)
      (o.l1.len - 1 - i) (by rw [ho.l1len]; omega) (by
        intro j hj1 hj2
        rw [ho.l1len] at hj2
        rw [hacc j (by omega)]
        exact Nat.le_trans hr2 (G_mono bits (Nat.mul_le_mul_left _ (by omega))))
    rw [hacc i hl1, show i + (o.l1.len - 1 - i) = o.l1.len - 1 by rw [ho.l1len]; omega] at this
    exact this
  have hmax : (if i = o.l1.len - 1 then sub64 o.l2.len (i * 2 ^ 21 % 2 ^ 32) % 2 ^ 32 else 2 ^ 21) =
      M := by
    rw [ho.l1len, ho.l2len]
    by_cases h1 : i = l1Count nbits - 1
    · rw [if_pos h1]
      have h2 : l2Count nbits = (i + 1) * 2 ^ 21 := by unfold l2Count; omega
      rw [h2, sub64_eq (by omega) (by simp only [W64]; omega)]
      omega
    · rw [if_neg h1, hM]
  have hl2 : 2 ^ 22 ≤ l2Count nbits := by unfold l2Count; omega
  have hc0 := c1_le h (show 0 < l1Count nbits by omega) (hf 0 (by omega))
  have hc := c1_add bits nbits 0
  rw [E_zero, Nat.mul_zero, G_zero, Nat.zero_add, hEj 1 (by omega), Nat.mul_one] at hc
  have hci := c1_le h hl1 (hf i hl1)
  have hc2 := c1_add bits nbits i
  rw [hEj i (by omega), hEj (i + 1) (by omega)] at hc2
  have hent : ∀ j, j < M → o.l2.f j = entry bits 0 j ∧ o.l2.f j % 2 ^ 32 = G bits (2048 * j) := by
    intro j hj
    have hE1 := hEj 1 (by omega)
    have h1 := ho.l2 0 j (by omega) (by rw [E_zero]; omega) (by rw [Nat.zero_add]; omega)
    rw [E_zero, Nat.mul_zero] at h1
    refine ⟨h1, ?_⟩
    have h2 := G_mono bits (show 2048 * j ≤ 2 ^ 32 by omega)
    rw [h1, entry_low (by omega) (by rw [G_zero]; omega), G_zero, Nat.sub_zero]
  have hneed : (r - G bits (2 ^ 32 * i) - 1) / 8192 < need bits (2 ^ 32 * i) (512 * F nbits i) := by
    have h1 := G_mono bits (F_cover h hl1)
    rw [hEj (i + 1) (by omega)] at h1
    unfold need
    omega
  have hfit := hf i hl1
  unfold LocFits at hfit
  have hloc := ho.loc i _ hl1 hneed
  have hpc : r ≤ o.pCount := by
    rw [ho.pCount, acc_eq h hf _ (Nat.le_refl _), hEj _ (by omega)]
    exact Nat.le_trans hr2 (G_mono bits (Nat.mul_le_mul_left _ (by omega)))
  refine ⟨M, _, _, _, hM, rfl, rfl, by rw [ho.l2len]; omega, hloc, hent, by omega, by omega, ?_⟩
  unfold Obj.select
  rw [massert_ok (decide_eq_true hpc), ok_bind, hfind, ok_bind]
  simp only []
  rw [hmax, Vec.get_ok (by rw [ho.loclen]; omega), ok_bind,
    Vec.get_ok (by rw [ho.llen i hl1]; omega), ok_bind, ho.obits]
  refine congrArg (_ >>= ·) (funext fun t => congrArg (_ >>= ·) (funext fun e => ?_))
  exact tail_eq _ _ _ _ _

theorem tail_inv {x : Outcome Int} {f : Int → Nat} {q : Nat} (h : (x >>= fun z => ok (f z)) = ok q) :
    ∃ z, x = ok z ∧ f z = q := by
  obtain ⟨z, e1, e2⟩ := bind_ok_inv h
  exact ⟨z, e1, Outcome.ok.inj e2⟩

/-- The answer is near block `g` of line `t`. -/
theorem tail_range {i t q off top : Nat} {gw : Nat × Nat} (htop : top = i * 2 ^ 32 % W64) (hi : i < 2 ^ 16)
    (ht : t < 2 ^ 21) (hg : gw.1 ≤ 3) (h0 : 1 ≤ i) (e : tail bits off top t gw = ok q) :
    2 ^ 32 * i + 512 * (4 * t + gw.1) ≤ q + 1 ∧ q ≤ 2 ^ 32 * i + 512 * (4 * t + gw.1 + 1) := by
  unfold tail at e
  obtain ⟨z, ez, e⟩ := tail_inv e
  have hz := select512_range ez
  generalize gw.1 = g at *
  clear ez
  subst htop
  unfold add64 ofInt64 at e
  simp only [W64] at e
  omega

theorem tail_shift {t off top : Nat} {gw : Nat × Nat} (h1 : ((off + t) * 4 + gw.1) * 8 < 2 ^ 31)
    (hw : ((off + t) * 4 + gw.1) * 8 < bits.len) (hk : toInt32 gw.2 < 0) :
    tail bits off top t gw = ub .shift := by
  unfold tail
  rw [toInt32_small h1]
  generalize ((off + t) * 4 + gw.1) * 8 = x at *
  generalize toInt32 gw.2 = k at *
  unfold select512
  rw [getI_ok hw, ok_bind, loop512, if_neg (by omega), ok_bind]
  simp only []
  rw [show ((x : Nat) : Int) + ((0 : Nat) : Int) = ((x : Nat) : Int) by omega, getI_ok hw, ok_bind,
    if_neg (by omega)]
  unfold select64 select64PdepTzcnt
  rw [if_pos hk]
  rfl

theorem last_block {i q M : Nat} (hM : M = 2 ^ 21) (h1 : 2 ^ 32 * i + 512 * (4 * (M - 1) + 3) ≤ q + 1)
    (h2 : q ≤ 2 ^ 32 * i + 512 * (4 * (M - 1) + 3 + 1)) :
    2 ^ 32 * (i + 1) ≤ q + 513 ∧ q ≤ 2 ^ 32 * (i + 1) := by
  omega

/-- The first superblock has fewer ones than asked for: `select` looks in the last block. -/
theorem select_later {b : Build} {o : Obj} (h : 2048 ≤ nbits) (hn : nbits < 2 ^ 48)
    (hf : AllFit bits nbits) (ho : Holds bits nbits o)
    {i r q : Nat} (hi : 1 ≤ i) (hi2 : i + 1 < nbits / 2 ^ 32 ∨ i + 1 = nbits / 2 ^ 32 ∧ nbits % 2 ^ 32 < 2048)
    (hr1 : G bits (2 ^ 32 * i) < r) (hr2 : r ≤ G bits (2 ^ 32 * (i + 1)))
    (hm : G bits (2 ^ 32) < r - G bits (2 ^ 32 * i)) (e : o.select b r = ok q) :
    2 ^ 32 * (i + 1) ≤ q + 513 ∧ q ≤ 2 ^ 32 * (i + 1) := by
  obtain ⟨M, v, off, top, hM, hoff, htop, hMl, ⟨hv, -, -⟩, hent, -, hr3, es⟩ := select_reduce (b := b) h hn hf ho hi hi2 hr1 hr2
  rw [e] at es
  have es := es.symm
  have ew := l2Walk_end (l2 := o.l2) (M := M) (r := r - G bits (2 ^ 32 * i)) hMl
    (fun j hj => by
      rw [(hent j hj).2]
      exact Nat.lt_of_le_of_lt (G_mono bits (show 2048 * j ≤ 2 ^ 32 by omega)) hm)
    M (v / 2 ^ 11) (by omega) (by omega)
  have hgm := G_mono bits (show 2048 * (M - 1) ≤ 2 ^ 32 by omega)
  rw [ew, ok_bind, Vec.get_ok (by omega), ok_bind, (hent _ (by omega)).2, (hent _ (by omega)).1, entry_hi,
    sub64_eq (by omega) (by simp only [W64]; omega)] at es
  have f0 := field bits (M - 1) (i := 0) (by omega)
  have f1 := field bits (M - 1) (i := 1) (by omega)
  have f2 := field bits (M - 1) (i := 2) (by omega)
  rw [Nat.pow_zero, Nat.div_one] at f0
  rw [Nat.pow_one] at f1
  rw [show (1024 : Nat) ^ 2 = 1024 * 1024 by decide, ← Nat.div_div_eq_div_mul] at f2
  have a0 := blk_add bits (4 * (M - 1))
  have a1 := blk_add bits (4 * (M - 1) + 1)
  have a2 := blk_add bits (4 * (M - 1) + 2)
  have m3 := G_mono bits (show 512 * (4 * (M - 1) + 2 + 1) ≤ 2 ^ 32 by omega)
  have hg := groupWalk_end (r := r - G bits (2 ^ 32 * i) - G bits (2048 * (M - 1)))
    (x := blk bits (4 * (M - 1)) + 2 ^ 10 * blk bits (4 * (M - 1) + 1) +
      2 ^ 20 * blk bits (4 * (M - 1) + 2)) (by
      rw [f0, f1, f2]
      rw [show 4 * (M - 1) + 1 + 1 = 4 * (M - 1) + 2 by omega] at a1
      rw [show 512 * (4 * (M - 1)) = 2048 * (M - 1) by omega] at a0
      rw [show 4 * (M - 1) + 0 = 4 * (M - 1) by omega]
      omega)
  generalize hgw : groupWalk 3 0 (r - G bits (2 ^ 32 * i) - G bits (2048 * (M - 1)))
    (blk bits (4 * (M - 1)) + 2 ^ 10 * blk bits (4 * (M - 1) + 1) +
      2 ^ 20 * blk bits (4 * (M - 1) + 2)) = gw at es hg
  obtain ⟨h1, h2⟩ := tail_range htop (by omega) (by omega) (by omega) hi es
  rw [hg] at h1 h2
  exact last_block hM h1 h2

/-- The first superblock has its one number `r - G(2^32 i)` at `p0`, and fewer ones before the line of the
sample: `select` looks in the block of `p0`. -/
theorem select_later_same {b : Build} {o : Obj} (h : 2048 ≤ nbits) (hn : nbits < 2 ^ 48)
    (hf : AllFit bits nbits) (ho : Holds bits nbits o)
    {i r q s p0 : Nat} (hi : 1 ≤ i)
    (hi2 : i + 1 < nbits / 2 ^ 32 ∨ i + 1 = nbits / 2 ^ 32 ∧ nbits % 2 ^ 32 < 2048)
    (hr1 : G bits (2 ^ 32 * i) < r) (hr2 : r ≤ G bits (2 ^ 32 * (i + 1)))
    (hs : LocOK bits (2 ^ 32 * i) ((r - G bits (2 ^ 32 * i) - 1) / 8192) s)
    (hlt : G bits (2048 * (s / 2048)) < r - G bits (2 ^ 32 * i))
    (hp : p0 < 2 ^ 32) (hp1 : G bits p0 < r - G bits (2 ^ 32 * i))
    (hp2 : r - G bits (2 ^ 32 * i) ≤ G bits (p0 + 1)) (e : o.select b r = ok q) :
    2 ^ 32 * i + 512 * (p0 / 512) ≤ q + 1 ∧ q ≤ 2 ^ 32 * i + 512 * (p0 / 512 + 1) := by
  obtain ⟨M, v, off, top, hM, hoff, htop, hMl, hv, hent, -, hr3, es⟩ := select_reduce (b := b) h hn hf ho hi hi2 hr1 hr2
  have hvs : v = s := by
    have h1 := hv.2.2
    have h2 := hs.2.2
    have h3 := hv.2.1
    have h4 := hs.2.1
    rcases Nat.lt_trichotomy v s with hl | heq | hl
    · have := G_mono bits (show 2 ^ 32 * i + v + 1 ≤ 2 ^ 32 * i + s by omega)
      rw [G_succ, h3] at this
      simp only [Bool.toNat_true] at this
      omega
    · exact heq
    · have := G_mono bits (show 2 ^ 32 * i + s + 1 ≤ 2 ^ 32 * i + v by omega)
      rw [G_succ, h4] at this
      simp only [Bool.toNat_true] at this
      omega
  subst hvs
  have hv32 := hv.1
  rw [e] at es
  have es := es.symm
  generalize r - G bits (2 ^ 32 * i) = r' at *
  obtain ⟨t, et, ht, ht1, ht2⟩ := l2Walk_ok (bits := bits) (l2 := o.l2) (M := M) (r := r') hMl
    (fun j hj => (hent j hj).2)
    (Nat.le_trans hp2 (G_mono bits (by omega))) M (v / 2 ^ 11) (by omega) (by omega) hlt
  obtain ⟨g, eg, hg, hg1, hg2⟩ := groupWalk_ok (bits := bits) (t := t) (r := r') ht2 3 0 rfl (by
    rw [show 512 * (4 * t + 0) = 2048 * t by omega]; exact ht1)
  rw [Nat.pow_zero, Nat.div_one, show 512 * (4 * t + 0) = 2048 * t by omega] at eg
  rw [et, ok_bind, Vec.get_ok (by omega), ok_bind, (hent _ ht).2, (hent _ ht).1, entry_hi,
    sub64_eq (by omega) (by simp only [W64]; omega)] at es
  rw [eg] at es
  have hfin := tail_range htop (by omega) (by omega) hg hi es
  have hq : p0 / 512 = 4 * t + g := by
    rcases Nat.lt_trichotomy (p0 / 512) (4 * t + g) with hl | heq | hl
    · have := G_mono bits (show p0 + 1 ≤ 512 * (4 * t + g) by omega)
      omega
    · exact heq
    · have := G_mono bits (show 512 * (4 * t + g + 1) ≤ p0 by omega)
      omega
  rw [hq]
  exact hfin

/-- More ones of the first superblock before the line of the sample than are asked for: the rank wraps below
zero and the word is shifted by a negative number. -/
theorem select_later_shift {b : Build} {o : Obj} (h : 2048 ≤ nbits) (hn : nbits < 2 ^ 48)
    (hb : nbits ≤ 64 * bits.len) (hf : AllFit bits nbits) (ho : Holds bits nbits o)
    {i r s : Nat} (hi : 1 ≤ i) (hi3 : i < 32)
    (hi2 : i + 1 < nbits / 2 ^ 32 ∨ i + 1 = nbits / 2 ^ 32 ∧ nbits % 2 ^ 32 < 2048)
    (hr1 : G bits (2 ^ 32 * i) < r) (hr2 : r ≤ G bits (2 ^ 32 * (i + 1)))
    (hs : LocOK bits (2 ^ 32 * i) ((r - G bits (2 ^ 32 * i) - 1) / 8192) s)
    (hgt : r - G bits (2 ^ 32 * i) < G bits (2048 * (s / 2048)))
    (hd : G bits (2048 * (s / 2048)) ≤ r - G bits (2 ^ 32 * i) + (2 ^ 31 - 1536)) :
    o.select b r = ub .shift := by
  obtain ⟨M, v, off, top, hM, hoff, htop, hMl, hv, hent, hG, hr3, es⟩ := select_reduce (b := b) h hn hf ho hi hi2 hr1 hr2
  have hvs : v = s := by
    have h1 := hv.2.2
    have h2 := hs.2.2
    have h3 := hv.2.1
    have h4 := hs.2.1
    rcases Nat.lt_trichotomy v s with hl | heq | hl
    · have := G_mono bits (show 2 ^ 32 * i + v + 1 ≤ 2 ^ 32 * i + s by omega)
      rw [G_succ, h3] at this
      simp only [Bool.toNat_true] at this
      omega
    · exact heq
    · have := G_mono bits (show 2 ^ 32 * i + s + 1 ≤ 2 ^ 32 * i + v by omega)
      rw [G_succ, h4] at this
      simp only [Bool.toNat_true] at this
      omega
  subst hvs
  have hv32 := hv.1
  rw [es]
  have hr0 : 0 < r - G bits (2 ^ 32 * i) := by omega
  generalize r - G bits (2 ^ 32 * i) = r' at *
  have hst : v / 2048 < M := by omega
  rw [show v / 2 ^ 11 = v / 2048 by omega]
  generalize v / 2048 = t at *
  have et : l2Walk o.l2 M r' M t = ok t := by
    obtain ⟨f, hf⟩ : ∃ f, M = f + 1 := ⟨M - 1, by omega⟩
    rw [show l2Walk o.l2 M r' M t = l2Walk o.l2 M r' (f + 1) t by rw [← hf], l2Walk]
    by_cases hc : t + 1 < M
    · rw [if_pos hc, Vec.get_ok (by omega), ok_bind, (hent _ hc).2,
        if_neg (by have := G_mono bits (show 2048 * t ≤ 2048 * (t + 1) by omega); omega)]
    · rw [if_neg hc]
  rw [et, ok_bind, Vec.get_ok (by omega), ok_bind, (hent _ hst).2, (hent _ hst).1, entry_hi]
  have hGt := G_mono bits (show 2048 * t ≤ 2 ^ 32 by omega)
  have hsub : sub64 r' (G bits (2048 * t)) = W64 - (G bits (2048 * t) - r') := by
    unfold sub64
    simp only [W64]
    omega
  rw [hsub]
  have b0 := blk_le bits (4 * t)
  have b1 := blk_le bits (4 * t + 1)
  have b2 := blk_le bits (4 * t + 2)
  have f0 := field bits t (i := 0) (by omega)
  have f1 := field bits t (i := 1) (by omega)
  have f2 := field bits t (i := 2) (by omega)
  rw [Nat.pow_zero, Nat.div_one] at f0
  rw [Nat.pow_one] at f1
  rw [show (1024 : Nat) ^ 2 = 1024 * 1024 by decide, ← Nat.div_div_eq_div_mul] at f2
  rw [show 4 * t + 0 = 4 * t by omega] at f0
  generalize blk bits (4 * t) + 2 ^ 10 * blk bits (4 * t + 1) + 2 ^ 20 * blk bits (4 * t + 2) = x at *
  have hgw : groupWalk 3 0 (W64 - (G bits (2048 * t) - r')) x =
      (3, W64 - (G bits (2048 * t) - r') - blk bits (4 * t) - blk bits (4 * t + 1) - blk bits (4 * t + 2)) := by
    simp only [W64]
    rw [groupWalk, if_pos (by omega), groupWalk, if_pos (by omega), groupWalk, if_pos (by omega), groupWalk,
      f0, f1, f2]
  rw [hgw]
  have hk : toInt32 (W64 - (G bits (2048 * t) - r') - blk bits (4 * t) - blk bits (4 * t + 1) -
      blk bits (4 * t + 2)) < 0 := by
    unfold toInt32
    simp only [W64]
    rw [if_neg (by omega)]
    omega
  have hoff2 : off = i * 2 ^ 21 := by omega
  refine tail_shift (by omega) ?_ hk
  clear es hgw f0 f1 f2 hent et hk hoff
  omega

end MRS.Poppy
