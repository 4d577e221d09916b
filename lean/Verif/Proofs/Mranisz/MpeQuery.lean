import Verif.Proofs.Mranisz.MpePlace
import Verif.Proofs.WordSelect

/-! # Compressed rank with pairs left out: queries -/

set_option autoImplicit false

namespace MRS.Mran
open Outcome Spec Poppy

variable {ty : MpeType} {t : Vec Byte} {f : Nat → Byte}

/-! ## Masks -/

theorem masksLe_table : ∀ (k j : Fin 64), (BitVec.ofNat 64 (masksLeTable.getD k.1 0)).getLsbD j.1 =
    decide (8 * (j.1 / 8) + (7 - j.1 % 8) < k.1) := by decide +kernel

theorem masks2_table : ∀ k : Fin 64, BitVec.ofNat 64 (masks2Table.getD k.1 0) = BitVec.twoPow 64 (63 - k.1) := by
  decide +kernel

theorem masks3_table : ∀ k : Fin 64,
    BitVec.ofNat 64 (masks3Table.getD k.1 0) = BitVec.allOnes 64 <<< (64 - k.1) := by decide +kernel

theorem mask2At_ok {k : Nat} (h : k < 64) : mask2At k = ok (BitVec.twoPow 64 (63 - k)) := by
  unfold mask2At
  rw [if_pos h, masks2_table ⟨k, h⟩]

theorem mask3At_ok {k : Nat} (h : k < 64) : mask3At k = ok (BitVec.allOnes 64 <<< (64 - k)) := by
  unfold mask3At
  rw [if_pos h, masks3_table ⟨k, h⟩]

theorem topMask_table : ∀ (s : Fin 9) (l : Fin 8), ((255#8 : BitVec 8) <<< (8 - s.1)).getLsbD l.1 = decide (7 - l.1 < s.1) := by
  decide +kernel

theorem topMask_cnt : ∀ (c : BitVec 8) (s : Fin 9), bcnt (c &&& 255#8 <<< (8 - s.1)) 8 = bcnt c s.1 := by decide +kernel

theorem leMask (b : Nat → Byte) {k : Nat} (hk : k < 64) :
    leWord b 8 &&& BitVec.ofNat 64 (masksLeTable.getD k 0) =
      leWord (fun x => b x &&& 255#8 <<< (8 - min 8 (k - 8 * x))) 8 := by
  apply BitVec.eq_of_getLsbD_eq
  intro j hj
  rw [BitVec.getLsbD_and, leWord_bit _ (Nat.le_refl 8) hj, leWord_bit _ (Nat.le_refl 8) hj,
    masksLe_table ⟨k, hk⟩ ⟨j, hj⟩, BitVec.getLsbD_and,
    topMask_table ⟨min 8 (k - 8 * (j / 8)), by omega⟩ ⟨j % 8, Nat.mod_lt _ (by decide)⟩, Bool.and_assoc]
  congr 2
  simp only [decide_eq_decide]
  omega

/-! ## Inside a block -/

theorem T_part {u : Vec Byte} {x k y : Nat} (hy : y ≤ 8) :
    T u (64 * x + min (8 * y) k) = T u (64 * x) + psum (fun z => bcnt (tbyte u (8 * x + z)) (min 8 (k - 8 * z))) y := by
  induction y with
  | zero => simp [psum]
  | succ y ih =>
    rw [psum_succ, ← Nat.add_assoc, ← ih (by omega)]
    by_cases h : 8 * y ≤ k
    · have := T_bcnt (t := u) (8 * x + y) (j := min 8 (k - 8 * y)) (by omega)
      rw [show 64 * x + min (8 * (y + 1)) k = 8 * (8 * x + y) + min 8 (k - 8 * y) by omega, this,
        show 64 * x + min (8 * y) k = 8 * (8 * x + y) by omega]
    · rw [show min 8 (k - 8 * y) = 0 by omega, show min (8 * (y + 1)) k = min (8 * y) k by omega]
      rfl

theorem inBytes_ok {strict : Bool} {bits : Vec (Option Byte)} {u : Vec Byte} {off rank i : Nat}
    (hs : strict = false ∨ off % 8 = 0) (hi : i < 1024) (hl : off + 8 * (i / 64) + 8 ≤ bits.len)
    (h : ∀ k, k < 8 * (i / 64) + 8 → bits.f (off + k) = some (tbyte u k)) :
    inBytes strict bits off rank i = ok (rank + T u i) := by
  unfold inBytes
  rw [if_pos (show i / 64 < 16 by omega)]
  simp only []
  obtain ⟨r, e, hr⟩ := forN_inv (body := fun k r => do
      let w ← load8 strict bits (off + 8 * k)
      ok (r + popcnt w)) (fun k r => r = rank + T u (64 * k)) (i / 64) rank (by rw [Nat.mul_zero, T_zero]; rfl)
    (by
      intro k r hk hr
      rw [load8_ok (b := fun z => tbyte u (8 * k + z)) (hs.imp_right (fun h => by omega)) (by omega) (fun z hz => by
        rw [Nat.add_assoc]; exact h _ (by omega)), ok_bind, leWord_pop]
      refine ⟨_, rfl, ?_⟩
      have := T_part (u := u) (x := k) (k := 64) (Nat.le_refl 8)
      have e8 : psum (fun z => bcnt (tbyte u (8 * k + z)) (min 8 (64 - 8 * z))) 8 =
          psum (fun z => bcnt (tbyte u (8 * k + z)) 8) 8 :=
        psum_congr (fun z hz => by rw [show min 8 (64 - 8 * z) = 8 by omega])
      rw [e8] at this
      rw [show 64 * (k + 1) = 64 * k + min (8 * 8) 64 by omega, this, hr]
      omega)
  rw [e, ok_bind, load8_ok (b := fun z => tbyte u (8 * (i / 64) + z)) (hs.imp_right (fun h => by omega)) (by omega) (fun z hz => by
    rw [Nat.add_assoc]; exact h _ (by omega)), ok_bind]
  unfold maskLeAt
  rw [if_pos (by omega), ok_bind, leMask _ (by omega), leWord_pop, hr]
  have := T_part (u := u) (x := i / 64) (k := i - 64 * (i / 64)) (Nat.le_refl 8)
  rw [show 64 * (i / 64) + min (8 * 8) (i - 64 * (i / 64)) = i by omega] at this
  rw [this, Nat.add_assoc]
  congr 3
  exact psum_congr (fun z hz => topMask_cnt _ ⟨min 8 (i - 64 * (i / 64) - 8 * z), by omega⟩)

/-! ## From a position of the block to a position of its stored bytes -/

theorem pw_and (E : Nat → Bool) {p : Nat} (hp : p < 64) : (pw E 64 &&& BitVec.twoPow 64 (63 - p) ≠ 0#64) ↔ E p = true := by
  rw [and_twoPow_ne _ (by omega), pw_bit E (Nat.le_refl 64) (by omega), decide_eq_true (show 63 - (63 - p) < 64 by omega),
    Bool.true_and, show 63 - (63 - p) = p by omega]

theorem pw_pop (E : Nat → Bool) {p : Nat} (hp : p < 64) :
    popcnt (pw E 64 &&& BitVec.allOnes 64 <<< (64 - p)) = psum (fun j => if E j then 1 else 0) p := by
  rw [popcnt_mask _ hp, pw_count E (by omega)]

theorem kp_add (k : Nat) (c : Nat → Byte) (p : Nat) : kp k c p + psum (fun j => if dp k c j then 1 else 0) p = p := by
  induction p with
  | zero => rfl
  | succ p ih =>
    rw [psum_succ, kp_succ]
    cases dp k c p
    · simp; omega
    · simp; omega

theorem df_fp {k : Nat} (hk : k = 2 ∨ k = 3) (c : Nat → Byte) (p : Nat) :
    df k c p = psum (fun j => if fp c j then 1 else 0) p := by
  unfold df
  refine psum_congr (fun j _ => ?_)
  have : (dp k c j && fp c j) = fp c j := by
    rcases hk with rfl | rfl
    · have d2 : dp 2 c j = fp c j := rfl
      rw [d2, Bool.and_self]
    · have d3 : dp 3 c j = (zp c j || fp c j) := rfl
      rw [d3]
      cases zp c j <;> cases fp c j <;> rfl
  rw [this]

theorem zp_fp (c : Nat → Byte) (p : Nat) : (zp c p && fp c p) = false := by
  have := not_zf c p
  cases h1 : zp c p <;> cases h2 : fp c p
  · rfl
  · rfl
  · rfl
  · exact absurd ⟨h1, h2⟩ this

theorem df_one (c : Nat → Byte) (p : Nat) : df 1 c p = 0 := by
  induction p with
  | zero => rfl
  | succ p ih =>
    have d1 : dp 1 c p = zp c p := rfl
    rw [df_succ, ih, d1, zp_fp]
    rfl

/-- Position in the stored bytes. -/
def posM (k : Nat) (c : Nat → Byte) (i : Nat) : Nat := 16 * kp k c (i / 16) + if dp k c (i / 16) then 0 else i % 16

theorem posM_le (k : Nat) (c : Nat → Byte) (i : Nat) : posM k c i ≤ i := by
  have := kp_le k c (i / 16)
  unfold posM
  split <;> omega

theorem unpack_ok {strict : Bool} {bits : Vec (Option Byte)} {k : Nat} {c : Nat → Byte} {o R i : Nat} (hk : k < 4)
    (hs : strict = false ∨ o % 8 = 0) (hl : o + hdM k ≤ bits.len) (h : StoredAt k c o bits) (hi : i < 1024) :
    unpack strict bits k o R i = ok (o + hdM k,
      R + 16 * df k c (i / 16) + (if dp k c (i / 16) && fp c (i / 16) then i % 16 else 0), posM k c i) := by
  have hp : i / 16 < 64 := by omega
  have hW : (18446744073709551616 : Nat) = W64 := rfl
  have hka := kp_add k c (i / 16)
  have hk4 : k = 0 ∨ k = 1 ∨ k = 2 ∨ k = 3 := by omega
  unfold posM
  rcases hk4 with rfl | rfl | rfl | rfl
  · show ok (o, R, i) = _
    rw [kp_zero, df_zero, show dp 0 c (i / 16) = false from rfl]
    congr 1
    simp only [Bool.false_and, Bool.false_eq_true, if_false]
    rw [show hdM 0 = 0 from rfl]
    congr 2
    omega
  · rw [show hdM 1 = 8 from rfl] at hl ⊢
    unfold unpack
    simp only []
    rw [load8_ok hs hl (h.h1 (by decide)), ok_bind, leWord_bytes, mask2At_ok hp, ok_bind, mask3At_ok hp, ok_bind,
      pw_pop _ hp, df_one]
    have hc : (dp 1 c (i / 16) && fp c (i / 16)) = false := by
      rw [show dp 1 c (i / 16) = zp c (i / 16) from rfl, zp_fp]
    rw [hc]
    generalize psum (fun j => if dp 1 c j then 1 else 0) (i / 16) = D at *
    cases hdp : dp 1 c (i / 16)
    · rw [if_neg (by rw [pw_and _ hp, hdp]; simp), sub64_eq (by omega) (by rw [← hW]; omega)]
      simp only [Bool.false_eq_true, if_false]
      congr 3; omega
    · rw [if_pos (by rw [pw_and _ hp]; exact hdp), sub64_eq (show i % 16 ≤ i by omega) (by rw [← hW]; omega),
        sub64_eq (by omega) (by rw [← hW]; omega)]
      simp only [if_true, Bool.false_eq_true, if_false]
      congr 3; omega
  · rw [show hdM 2 = 8 from rfl] at hl ⊢
    unfold unpack
    simp only []
    have hE : dp 2 c = fp c := funext fun _ => rfl
    rw [load8_ok hs hl (h.h1 (by decide)), ok_bind, leWord_bytes, mask2At_ok hp, ok_bind, mask3At_ok hp, ok_bind,
      pw_pop _ hp, df_fp (Or.inl rfl)]
    rw [hE] at hka ⊢
    rw [Bool.and_self]
    generalize psum (fun j => if fp c j then 1 else 0) (i / 16) = D at *
    cases hdp : fp c (i / 16)
    · rw [if_neg (by rw [pw_and _ hp, hdp]; simp)]
      simp only []
      rw [sub64_eq (by omega) (by rw [← hW]; omega)]
      simp only [Bool.false_eq_true, if_false]
      congr 3; omega
    · rw [if_pos (by rw [pw_and _ hp]; exact hdp), sub64_eq (show i % 16 ≤ i by omega) (by rw [← hW]; omega)]
      simp only []
      rw [sub64_eq (by omega) (by rw [← hW]; omega)]
      simp only [if_true]
      congr 3
      · omega
      · omega
  · rw [show hdM 3 = 16 from rfl] at hl ⊢
    unfold unpack
    simp only []
    rw [load8_ok hs (by omega) (h.h1 (by decide)), ok_bind, leWord_bytes,
      load8_ok (hs.imp_right (fun h => by omega)) (by omega) (h.h2 rfl), ok_bind, leWord_bytes, mask2At_ok hp, ok_bind, mask3At_ok hp, ok_bind,
      pw_pop _ hp, pw_pop _ hp, df_fp (Or.inr rfl)]
    generalize psum (fun j => if dp 3 c j then 1 else 0) (i / 16) = D at *
    generalize psum (fun j => if fp c j then 1 else 0) (i / 16) = F at *
    cases hdp : dp 3 c (i / 16)
    · rw [if_neg (by rw [pw_and _ hp, hdp]; simp)]
      simp only []
      rw [sub64_eq (by omega) (by rw [← hW]; omega)]
      simp only [Bool.false_and, Bool.false_eq_true, if_false]
      congr 3
      omega
    · rw [if_pos (by rw [pw_and _ hp]; exact hdp), sub64_eq (show i % 16 ≤ i by omega) (by rw [← hW]; omega)]
      simp only []
      rw [sub64_eq (by omega) (by rw [← hW]; omega)]
      simp only [if_true, Bool.true_and]
      cases hf : fp c (i / 16)
      · rw [if_neg (by rw [pw_and _ hp, hf]; simp)]
        simp only [Bool.false_eq_true, if_false]
        congr 3
        omega
      · rw [if_pos (by rw [pw_and _ hp]; exact hf)]
        simp only [if_true]
        congr 3
        · omega
        · omega

/-- A block stored at `o` answers. -/
theorem stored_ok {strict : Bool} {bits : Vec (Option Byte)} {k o q i R : Nat} (hk : k < 4)
    (hs : strict = false ∨ o % 8 = 0) (h : StoredAt k (blk t q) o bits) (hi : i < 1024)
    (hl : o + hdM k + 8 * (posM k (blk t q) i / 64) + 8 ≤ bits.len)
    (hr : ∀ y, o + hdM k ≤ y → y < o + hdM k + 8 * (posM k (blk t q) i / 64) + 8 → ∃ b, bits.f y = some b)
    (hR : R = T t (1024 * q)) :
    (do
      let (off, rank, i) ← unpack strict bits k o R i
      inBytes strict bits off rank i) = ok (T t (1024 * q + i)) := by
  rw [unpack_ok hk hs (by omega) h hi, ok_bind]
  simp only []
  have hle := posM_le k (blk t q) i
  have hhd : hdM k % 8 = 0 := by unfold hdM; (repeat' split) <;> omega
  let u : Vec Byte := ⟨bits.len, fun y => (bits.f (o + hdM k + y)).getD 0#8⟩
  have hu : ∀ y, y < bits.len → tbyte u y = (bits.f (o + hdM k + y)).getD 0#8 := fun y hy => if_pos hy
  rw [inBytes_ok (u := u) (hs.imp_right (fun h => by omega)) (by omega) (by omega) (fun z hz => by
    obtain ⟨b, hb⟩ := hr (o + hdM k + z) (by omega) (by omega)
    rw [hu z (by omega), hb]
    rfl)]
  have hp : i / 16 < 64 := by omega
  -- only the pairs in front of the position matter
  have hpairs : ∀ p, p < i / 16 + 1 → dp k (blk t q) p = false → ∀ b, b < 2 →
      tbyte u (2 * kp k (blk t q) p + b) = tbyte t (128 * q + (2 * p + b)) := by
    intro p hp' hd' b hb
    have hm : 2 * kp k (blk t q) p + b < bits.len := by
      by_cases hpi : p < i / 16
      · have := kp_lt hd' hpi
        unfold posM at hl
        omega
      · have hpe : p = i / 16 := by omega
        subst hpe
        unfold posM at hl
        rw [hd', if_neg (by simp)] at hl
        omega
    rw [hu _ hm, ← Nat.add_assoc, h.kept.kept p (by omega) hd' b hb]
    rfl
  have := T_inPair (t := t) (u := u) (B := 128 * q) (k := k) (n := i / 16 + 1) hpairs (p := i / 16) (r := i % 16)
    (by omega) (Nat.mod_lt _ (by decide))
  rw [show 8 * (128 * q) + 16 * (i / 16) + i % 16 = 1024 * q + i by omega,
    show 8 * (128 * q) = 1024 * q by omega] at this
  rw [this, hR]
  rfl

end MRS.Mran
