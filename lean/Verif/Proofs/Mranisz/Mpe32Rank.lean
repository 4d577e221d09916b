import Verif.Proofs.Mranisz.Mpe32Place

/-! # 32-bit compressed rank with pairs left out: `rank` -/

set_option autoImplicit false

namespace MRS.Mran
open Outcome Spec Poppy

variable {ty : MpeType} {t : Vec Byte} {f : Nat → Byte} {g g' : Junk} {aB aR : Nat} {x : Mpe}

theorem sub32_eq {a b : Nat} (h : b ≤ a) (ha : a < W32) : sub32 a b = a - b := by
  unfold sub32
  simp only [W32] at *
  omega

theorem unpack32_ok {strict : Bool} {bits : Vec (Option Byte)} {k : Nat} {c : Nat → Byte} {o R i : Nat} (hk : k < 4)
    (hs : strict = false ∨ o % 8 = 0) (hl : o + hdM k ≤ bits.len) (h : StoredAt k c o bits) (hi : i < 1024) :
    unpack32 strict bits k o R i = ok (o + hdM k,
      R + 16 * df k c (i / 16) + (if dp k c (i / 16) && fp c (i / 16) then i % 16 else 0), posM k c i) := by
  have hp : i / 16 < 64 := by omega
  have hW : (4294967296 : Nat) = W32 := rfl
  have hka := kp_add k c (i / 16)
  have hk4 : k = 0 ∨ k = 1 ∨ k = 2 ∨ k = 3 := by omega
  unfold posM
  rcases hk4 with rfl | rfl | rfl | rfl
  · show ok (o, R, i) = _
    rw [kp_zero, df_zero, show dp 0 c (i / 16) = false from rfl]
    congr 1
    simp only [Bool.false_and, Bool.false_eq_true, if_false]
    rw [show hdM 0 = 0 from rfl]
    congr 2
    omega
  · rw [show hdM 1 = 8 from rfl] at hl ⊢
    unfold unpack32
    simp only []
    rw [load8_ok hs hl (h.h1 (by decide)), ok_bind, leWord_bytes, mask2At_ok hp, ok_bind, mask3At_ok hp, ok_bind,
      pw_pop _ hp, df_one]
    have hc : (dp 1 c (i / 16) && fp c (i / 16)) = false := by
      rw [show dp 1 c (i / 16) = zp c (i / 16) from rfl, zp_fp]
    rw [hc]
    generalize psum (fun j => if dp 1 c j then 1 else 0) (i / 16) = D at *
    cases hdp : dp 1 c (i / 16)
    · rw [if_neg (by rw [pw_and _ hp, hdp]; simp), sub32_eq (by omega) (by rw [← hW]; omega)]
      simp only [Bool.false_eq_true, if_false]
      congr 3; omega
    · rw [if_pos (by rw [pw_and _ hp]; exact hdp), sub32_eq (show i % 16 ≤ i by omega) (by rw [← hW]; omega),
        sub32_eq (by omega) (by rw [← hW]; omega)]
      simp only [if_true, Bool.false_eq_true, if_false]
      congr 3; omega
  · rw [show hdM 2 = 8 from rfl] at hl ⊢
    unfold unpack32
    simp only []
    have hE : dp 2 c = fp c := funext fun _ => rfl
    rw [load8_ok hs hl (h.h1 (by decide)), ok_bind, leWord_bytes, mask2At_ok hp, ok_bind, mask3At_ok hp, ok_bind,
      pw_pop _ hp, df_fp (Or.inl rfl)]
    rw [hE] at hka ⊢
    rw [Bool.and_self]
    generalize psum (fun j => if fp c j then 1 else 0) (i / 16) = D at *
    cases hdp : fp c (i / 16)
    · rw [if_neg (by rw [pw_and _ hp, hdp]; simp)]
      simp only []
      rw [sub32_eq (by omega) (by rw [← hW]; omega)]
      simp only [Bool.false_eq_true, if_false]
      congr 3; omega
    · rw [if_pos (by rw [pw_and _ hp]; exact hdp), sub32_eq (show i % 16 ≤ i by omega) (by rw [← hW]; omega)]
      simp only []
      rw [sub32_eq (by omega) (by rw [← hW]; omega)]
      simp only [if_true]
      congr 3
      · omega
      · omega
  · rw [show hdM 3 = 16 from rfl] at hl ⊢
    unfold unpack32
    simp only []
    rw [load8_ok hs (by omega) (h.h1 (by decide)), ok_bind, leWord_bytes,
      load8_ok (hs.imp_right (fun h => by omega)) (by omega) (h.h2 rfl), ok_bind, leWord_bytes, mask2At_ok hp, ok_bind, mask3At_ok hp, ok_bind,
      pw_pop _ hp, pw_pop _ hp, df_fp (Or.inr rfl)]
    generalize psum (fun j => if dp 3 c j then 1 else 0) (i / 16) = D at *
    generalize psum (fun j => if fp c j then 1 else 0) (i / 16) = F at *
    cases hdp : dp 3 c (i / 16)
    · rw [if_neg (by rw [pw_and _ hp, hdp]; simp)]
      simp only []
      rw [sub32_eq (by omega) (by rw [← hW]; omega)]
      simp only [Bool.false_and, Bool.false_eq_true, if_false]
      congr 3
      omega
    · rw [if_pos (by rw [pw_and _ hp]; exact hdp), sub32_eq (show i % 16 ≤ i by omega) (by rw [← hW]; omega)]
      simp only []
      rw [sub32_eq (by omega) (by rw [← hW]; omega)]
      simp only [if_true, Bool.true_and]
      cases hf : fp c (i / 16)
      · rw [if_neg (by rw [pw_and _ hp, hf]; simp)]
        simp only [Bool.false_eq_true, if_false]
        congr 3
        omega
      · rw [if_pos (by rw [pw_and _ hp]; exact hf)]
        simp only [if_true]
        congr 3
        · omega
        · omega

/-- A block stored at `o` answers. -/
theorem stored_ok32 {strict : Bool} {bits : Vec (Option Byte)} {k o q i R : Nat} (hk : k < 4)
    (hs : strict = false ∨ o % 8 = 0) (h : StoredAt k (blk t q) o bits) (hi : i < 1024)
    (hl : o + hdM k + 8 * (posM k (blk t q) i / 64) + 8 ≤ bits.len)
    (hr : ∀ y, o + hdM k ≤ y → y < o + hdM k + 8 * (posM k (blk t q) i / 64) + 8 → ∃ b, bits.f y = some b)
    (hR : R = T t (1024 * q)) :
    (do
      let (off, rank, i) ← unpack32 strict bits k o R i
      inBytes strict bits off rank i) = ok (T t (1024 * q + i)) := by
  rw [unpack32_ok hk hs (by omega) h hi, ok_bind]
  simp only []
  have hle := posM_le k (blk t q) i
  have hhd : hdM k % 8 = 0 := by unfold hdM; (repeat' split) <;> omega
  let u : Vec Byte := ⟨bits.len, fun y => (bits.f (o + hdM k + y)).getD 0#8⟩
  have hu : ∀ y, y < bits.len → tbyte u y = (bits.f (o + hdM k + y)).getD 0#8 := fun y hy => if_pos hy
  rw [inBytes_ok (u := u) (hs.imp_right (fun h => by omega)) (by omega) (by omega) (fun z hz => by
    obtain ⟨b, hb⟩ := hr (o + hdM k + z) (by omega) (by omega)
    rw [hu z (by omega), hb]
    rfl)]
  have hp : i / 16 < 64 := by omega
  -- only the pairs in front of the position matter
  have hpairs : ∀ p, p < i / 16 + 1 → dp k (blk t q) p = false → ∀ b, b < 2 →
      tbyte u (2 * kp k (blk t q) p + b) = tbyte t (128 * q + (2 * p + b)) := by
    intro p hp' hd' b hb
    have hm : 2 * kp k (blk t q) p + b < bits.len := by
      by_cases hpi : p < i / 16
      · have := kp_lt hd' hpi
        unfold posM at hl
        omega
      · have hpe : p = i / 16 := by omega
        subst hpe
        unfold posM at hl
        rw [hd', if_neg (by simp)] at hl
        omega
    rw [hu _ hm, ← Nat.add_assoc, h.kept.kept p (by omega) hd' b hb]
    rfl
  have := T_inPair (t := t) (u := u) (B := 128 * q) (k := k) (n := i / 16 + 1) hpairs (p := i / 16) (r := i % 16)
    (by omega) (Nat.mod_lt _ (by decide))
  rw [show 8 * (128 * q) + 16 * (i / 16) + i % 16 = 1024 * q + i by omega,
    show 8 * (128 * q) = 1024 * q by omega] at this
  rw [this, hR]
  rfl

theorem MpeOK32.below (hx : MpeOK32 ty t f g g' aB aR x) {y : Nat} (hy : y < eo ty t (nblkM t)) : ∃ b, x.bits.f y = some b := by
  obtain ⟨q, h1, h2, h3, h4⟩ := block_ofM _ y hy
  obtain ⟨b, hb⟩ := (hx.st q h1 h2).all (kd_lt ty t q) (y := y - eo ty t q) (by unfold sl at h4; omega)
  rw [show eo ty t q + (y - eo ty t q) = y by omega] at hb
  exact ⟨b, hb⟩

theorem rank_first32 (hx : MpeOK32 ty t f g g' aB aR x) {st : Nat} (hq : st ≤ nblkM t)
    {b : Vec Nat} (hb : BucketM32 ty t f (16 * (st / 16)) b)
    (hf : ∀ j, j < 18 → x.ranks.f (18 * (st / 16) + j) = some (b.f j)) :
    (if st % 16 > 0 then do ok (add32 (tvM32 t (16 * (st / 16))) (← slot1_32 x.ranks (18 * (st / 16)) (st % 16)))
      else ok (tvM32 t (16 * (st / 16)))) = ok (T t (1024 * st) % W32) := by
  have hrl := hx.rlen
  have hst : 16 * (st / 16) + st % 16 = st := by omega
  have hn : st % 16 < 16 := Nat.mod_lt _ (by decide)
  have hS' : st / 16 ≤ nblkM t / 16 := by omega
  generalize hS : st / 16 = S at *
  generalize hN : st % 16 = n at *
  have hb0 : tvM32 t (16 * S) = T t (1024 * (16 * S)) % W32 := by
    unfold tvM32 tvM
    rw [if_pos (by omega)]
  by_cases h0 : n > 0
  · rw [if_pos h0]
    have fd := fieldM32 hb (j := n - 1) (by omega) (by omega)
    rw [show (n - 1) / 2 + 1 = (n + 1) / 2 by omega, show (n - 1) % 2 = (n + 1) % 2 by omega] at fd
    rw [slot1_eq32 (by omega) (hf _ (by omega)) fd.1, ok_bind, fd.2,
      Nat.mod_eq_of_lt (dvM32_lt (by omega) (by omega)), dvM32_eq (by omega) (by omega), hb0,
      show 16 * S + (n - 1) + 1 = st by omega]
    have := T_mono t (show 1024 * (16 * S) ≤ 1024 * st by omega)
    unfold add32
    rw [Nat.mod_add_mod]
    congr 2; omega
  · rw [if_neg h0, hb0, show 16 * S = st by omega]

/-- The reading of a block, after the ranks. -/
def tailM32 (ty : MpeType) (strict : Bool) (x : Mpe) (st i rank : Nat) : Outcome Nat := do
  let (off, kind) ← (if ty = .mpe1 then place1_32 x.ranks (18 * (st / 16)) (st % 16)
    else place2_32 x.ranks (18 * (st / 16)) (st % 16))
  let (off, rank, i) ← unpack32 strict x.bits kind off rank i
  let r ← inBytes strict x.bits off rank i
  ok (r % W32)

theorem rankMpe32_pre (hx : MpeOK32 ty t f g g' aB aR x) (strict : Bool) {i : Nat}
    (hi : i < 1024 * nblkM t) (hi2 : i < 2 ^ 32) :
    rankMpe32 ty strict x i =
      (if (T t (1024 * (i / 1024 + 1)) - T t (1024 * (i / 1024))) % 1024 = 0 then ok (T t i)
      else tailM32 ty strict x (i / 1024) (i % 1024) (T t (1024 * (i / 1024)))) := by
  have hq : i / 1024 < nblkM t := by omega
  have hrl := hx.rlen
  have hTi := T_le t i
  have hTq := T_le t (1024 * (i / 1024))
  have hsp : 1024 * (i / 1024) + i % 1024 = i := by omega
  have hhom := T_homogM (t := t) (q := i / 1024) (i := i % 1024) (by omega)
  unfold rankMpe32 tailM32
  simp only []
  generalize hs : i / 1024 = st at *
  obtain ⟨b, hb, hf⟩ := hx.sup (st / 16) (by omega)
  have hS' : st / 16 ≤ nblkM t / 16 := by omega
  have h1 := rank_first32 hx (by omega) hb hf
  have hTW : T t (1024 * st) % W32 = T t (1024 * st) := Nat.mod_eq_of_lt (by simp only [W32]; omega)
  rw [uget_ok (a := b.f 0) (i := 18 * (st / 16)) (by omega) (hf 0 (by omega)), ok_bind, hb.b0, h1, ok_bind]
  have hst : 16 * (st / 16) + st % 16 = st := by omega
  have hn : st % 16 < 16 := Nat.mod_lt _ (by decide)
  have hb0 : tvM32 t (16 * (st / 16)) = T t (1024 * (16 * (st / 16))) % W32 := by
    unfold tvM32 tvM
    rw [if_pos (by omega)]
  have h2 : (if st % 16 = 15 then uget x.ranks (18 * (st / 16) + 18) else do
      ok (add32 (tvM32 t (16 * (st / 16))) (← slot2_32 x.ranks (18 * (st / 16)) (st % 16)))) =
      ok (T t (1024 * (st + 1)) % W32) := by
    generalize hS : st / 16 = S at *
    generalize hN : st % 16 = n at *
    by_cases h0 : n = 15
    · rw [if_pos h0]
      obtain ⟨b', hb', hf'⟩ := hx.sup (S + 1) (by omega)
      rw [show 18 * S + 18 = 18 * (S + 1) + 0 by omega, uget_ok (by omega) (hf' 0 (by omega)), hb'.b0]
      unfold tvM32 tvM
      rw [if_pos (by omega), show 16 * (S + 1) = st + 1 by omega]
    · rw [if_neg h0]
      have fd := fieldM32 hb (j := n) (by omega) (by omega)
      rw [slot2_eq32 (by omega) (hf _ (by omega)) fd.1, ok_bind, fd.2,
        Nat.mod_eq_of_lt (dvM32_lt (by omega) (by omega)), dvM32_eq (by omega) (by omega), hb0, hst]
      have := T_mono t (show 1024 * (16 * S) ≤ 1024 * (st + 1) by omega)
      unfold add32
      rw [Nat.mod_add_mod]
      congr 2; omega
  rw [h2, ok_bind]
  have hmono := T_mono t (show 1024 * st ≤ 1024 * (st + 1) by omega)
  have hdiff := T_diff t (1024 * st) 1024
  rw [show 1024 * st + 1024 = 1024 * (st + 1) by omega] at hdiff hhom
  have hd : sub32 (T t (1024 * (st + 1)) % W32) (T t (1024 * st) % W32) = T t (1024 * (st + 1)) - T t (1024 * st) := by
    unfold sub32
    simp only [W32]
    omega
  rw [hd, hTW, show (1023 : Nat) = 2 ^ 10 - 1 by rfl, Nat.and_two_pow_sub_one_eq_mod, Nat.shiftRight_eq_div_pow]
  by_cases hc : (T t (1024 * (st + 1)) - T t (1024 * st)) % 1024 = 0
  · have := hhom hc
    rw [if_pos hc, if_pos hc, show (2 : Nat) ^ 10 = 1024 by rfl]
    rw [hsp] at this
    unfold add32
    rw [← this, Nat.mod_eq_of_lt (by simp only [W32]; omega)]
  · rw [if_neg hc, if_neg hc]

theorem tailM32_stored (hx : MpeOK32 ty t f g g' aB aR x) (hlen : t.len ≤ 2 ^ 32 - 128) (strict : Bool) {st i rank : Nat}
    (hq : st < nblkM t) (hh : ¬ HomM t st) :
    tailM32 ty strict x st i rank = (do
      let (off, rank, i) ← unpack32 strict x.bits (kd ty t st) (eo ty t st) rank i
      let r ← inBytes strict x.bits off rank i
      ok (r % W32)) := by
  have hrl := hx.rlen
  obtain ⟨b, hb, hf⟩ := hx.sup (st / 16) (by omega)
  have hS' : st / 16 ≤ nblkM t / 16 := by omega
  obtain ⟨k, k1, k2, k3⟩ := placeM32 hb hf (by omega) hlen (by omega)
  unfold tailM32
  rw [k3, ok_bind, k2 hq hh]
  have : oM ty t st = eo ty t st := by unfold oM; rw [show min st (nblkM t - 1) = st by omega]
  rw [this]

/-! ## Right answers -/

theorem rankMpe32_ok (hx : MpeOK32 ty t f g g' aB aR x) (hlen : t.len ≤ 2 ^ 32 - 128) {strict : Bool} {i : Nat}
    (hi : i < 1024 * nblkM t) (hi2 : i < 2 ^ 32) (hs : strict = false ∨ eo ty t (i / 1024) % 8 = 0)
    (hr : readM ty t i ≤ eo ty t (nblkM t) ∨ ∃ h, g.bits = some h) : rankMpe32 ty strict x i = ok (T t i) := by
  have hq : i / 1024 < nblkM t := by omega
  have hTi := T_le t i
  rw [rankMpe32_pre hx strict hi hi2]
  by_cases hc : (T t (1024 * (i / 1024 + 1)) - T t (1024 * (i / 1024))) % 1024 = 0
  · rw [if_pos hc]
  · rw [if_neg hc]
    have hh : ¬ HomM t (i / 1024) := fun h => hc (by
      have := h.count
      rw [show 1024 * (i / 1024) + 1024 = 1024 * (i / 1024 + 1) by omega] at this
      exact this)
    rw [tailM32_stored hx hlen strict hq hh]
    have hrd := readM_le (ty := ty) hh
    have hmono := eo_mono ty t (show i / 1024 + 1 ≤ nblkM t by omega)
    have hbl := hx.blen
    have := stored_ok32 (t := t) (q := i / 1024) (R := T t (1024 * (i / 1024))) (kd_lt ty t _) hs (hx.st _ hq hh)
      (show i % 1024 < 1024 by omega) (by unfold readM at hrd; omega)
      (by
        intro y hy1 hy2
        by_cases hyl : y < eo ty t (nblkM t)
        · exact hx.below hyl
        · have : ¬ readM ty t i ≤ eo ty t (nblkM t) := by unfold readM; omega
          obtain ⟨h, hg⟩ := hr.resolve_left this
          rw [hx.rest y (by omega) (by unfold readM at hrd; omega), hg]
          exact ⟨_, rfl⟩) rfl
    cases hu : unpack32 strict x.bits (kd ty t (i / 1024)) (eo ty t (i / 1024)) (T t (1024 * (i / 1024))) (i % 1024) with
    | ok p =>
      rw [hu, ok_bind] at this
      rw [ok_bind]
      simp only [] at this ⊢
      rw [this, ok_bind, show 1024 * (i / 1024) + i % 1024 = i by omega, Nat.mod_eq_of_lt (by simp only [W32]; omega)]
    | ub e => rw [hu] at this; cases this
    | abort => rw [hu] at this; cases this

/-- The bytes after the last block are read without being written. -/
theorem rankMpe32_uninit (hx : MpeOK32 ty t f g g' aB aR x) (hlen : t.len ≤ 2 ^ 32 - 128) {strict : Bool} {i : Nat}
    (hi : i < 1024 * nblkM t) (hi2 : i < 2 ^ 32) (hs : strict = false ∨ eo ty t (i / 1024) % 8 = 0) (hg : g.bits = none)
    (hc : (T t (1024 * (i / 1024 + 1)) - T t (1024 * (i / 1024))) % 1024 ≠ 0)
    (hr : eo ty t (nblkM t) < readM ty t i) : rankMpe32 ty strict x i = ub .uninit := by
  have hq : i / 1024 < nblkM t := by omega
  have hh : ¬ HomM t (i / 1024) := fun h => hc (by
    have := h.count
    rw [show 1024 * (i / 1024) + 1024 = 1024 * (i / 1024 + 1) by omega] at this
    exact this)
  rw [rankMpe32_pre hx strict hi hi2]
  rw [if_neg hc, tailM32_stored hx hlen strict hq hh]
  have hrd := readM_le (ty := ty) hh
  have hmono := eo_mono ty t (show i / 1024 + 1 ≤ nblkM t by omega)
  have hbl := hx.blen
  have hst := hx.st _ hq hh
  have hsl : eo ty t (i / 1024 + 1) = eo ty t (i / 1024) + sl ty t (i / 1024) := by rw [eo_succ, if_neg hh]
  have hpm := posM_max (kd ty t (i / 1024)) (blk t (i / 1024)) (show i % 1024 < 1024 by omega)
  have hple := posM_le (kd ty t (i / 1024)) (blk t (i / 1024)) (i % 1024)
  unfold sl at hsl
  unfold readM at hr hrd
  have hhd : hdM (kd ty t (i / 1024)) % 8 = 0 := by unfold hdM; (repeat' split) <;> omega
  rw [unpack32_ok (kd_lt ty t _) hs (by omega) hst (by omega), ok_bind]
  simp only []
  unfold inBytes
  rw [if_pos (by omega)]
  simp only []
  have hloads : ∀ k, k < posM (kd ty t (i / 1024)) (blk t (i / 1024)) (i % 1024) / 64 →
      ∃ w, load8 strict x.bits (eo ty t (i / 1024) + hdM (kd ty t (i / 1024)) + 8 * k) = ok w := by
    intro k hk
    refine ⟨_, load8_ok (b := fun z => (x.bits.f (eo ty t (i / 1024) + hdM (kd ty t (i / 1024)) + 8 * k + z)).getD 0#8)
      (hs.imp_right (fun h => by omega)) (by omega) (fun z hz => ?_)⟩
    obtain ⟨b, hb⟩ := hx.below (y := eo ty t (i / 1024) + hdM (kd ty t (i / 1024)) + 8 * k + z) (by omega)
    rw [hb]
    rfl
  obtain ⟨r, e, -⟩ := forN_inv (body := fun k r => do
      let w ← load8 strict x.bits (eo ty t (i / 1024) + hdM (kd ty t (i / 1024)) + 8 * k)
      ok (r + popcnt w)) (fun _ _ => True) (posM (kd ty t (i / 1024)) (blk t (i / 1024)) (i % 1024) / 64)
    (T t (1024 * (i / 1024)) + 16 * df (kd ty t (i / 1024)) (blk t (i / 1024)) (i % 1024 / 16) +
      if (dp (kd ty t (i / 1024)) (blk t (i / 1024)) (i % 1024 / 16) && fp (blk t (i / 1024)) (i % 1024 / 16)) = true
        then i % 1024 % 16 else 0) trivial
    (by
      intro k r hk _
      obtain ⟨w, hw⟩ := hloads k hk
      rw [hw, ok_bind]
      exact ⟨_, rfl, trivial⟩)
  rw [e, ok_bind]
  rw [load8_uninit (hs.imp_right (fun h => by omega)) (by omega) (k := 7) (by omega)
    (by rw [hx.rest _ (by omega) (by omega), hg]; rfl)]
  rfl

/-- A machine that wants aligned words stops at a block that does not start at a multiple of 8. -/
theorem rankMpe32_mis (hx : MpeOK32 ty t f g g' aB aR x) (hlen : t.len ≤ 2 ^ 32 - 128) {i : Nat}
    (hi : i < 1024 * nblkM t) (hi2 : i < 2 ^ 32) (hs : eo ty t (i / 1024) % 8 ≠ 0)
    (hc : (T t (1024 * (i / 1024 + 1)) - T t (1024 * (i / 1024))) % 1024 ≠ 0) :
    rankMpe32 ty true x i = ub .misaligned := by
  have hq : i / 1024 < nblkM t := by omega
  have hh : ¬ HomM t (i / 1024) := fun h => hc (by
    have := h.count
    rw [show 1024 * (i / 1024) + 1024 = 1024 * (i / 1024 + 1) by omega] at this
    exact this)
  rw [rankMpe32_pre hx true hi hi2]
  rw [if_neg hc, tailM32_stored hx hlen true hq hh]
  have hns : ¬ (true = false ∨ eo ty t (i / 1024) % 8 = 0) := by
    rintro (h | h)
    · cases h
    · exact hs h
  have hm := load8_mis (strict := true) (bits := x.bits) hns
  have hkl := kd_lt ty t (i / 1024)
  generalize kd ty t (i / 1024) = k at *
  have hk4 : k = 0 ∨ k = 1 ∨ k = 2 ∨ k = 3 := by omega
  rcases hk4 with rfl | rfl | rfl | rfl
  · show (do
      let r ← inBytes true x.bits (eo ty t (i / 1024)) _ _
      ok (r % W32)) = _
    unfold inBytes
    simp only []
    generalize (if i % 1024 / 64 < 16 then i % 1024 / 64 else 0) = n
    cases n with
    | zero =>
      unfold forN forFrom
      rw [ok_bind, Nat.mul_zero, Nat.add_zero, hm]
      rfl
    | succ n =>
      unfold forN forFrom
      simp only [Nat.mul_zero, Nat.add_zero, hm]
      rfl
  · unfold unpack32; simp only []; rw [hm]; rfl
  · unfold unpack32; simp only []; rw [hm]; rfl
  · unfold unpack32; simp only []; rw [hm]; rfl

/-! ## The query at the padded end -/

theorem unpack32_start {strict : Bool} {bits : Vec (Option Byte)} {k o R : Nat} (hk : k < 4)
    (hs : strict = false ∨ o % 8 = 0) (hl : o + 16 ≤ bits.len) (h : ∀ y, ∃ b, bits.f y = some b) :
    unpack32 strict bits k o R 0 = ok (o + hdM k, R, 0) := by
  have hld : ∀ o, (strict = false ∨ o % 8 = 0) → o + 8 ≤ bits.len → ∃ w, load8 strict bits o = ok w := by
    intro o hs hl
    refine ⟨_, load8_ok (b := fun z => (bits.f (o + z)).getD 0#8) hs hl (fun z _ => ?_)⟩
    obtain ⟨b, hb⟩ := h (o + z)
    rw [hb]
    rfl
  obtain ⟨w1, e1⟩ := hld o hs (by omega)
  obtain ⟨w2, e2⟩ := hld (o + 8) (hs.imp_right (fun h => by omega)) (by omega)
  have hp : ∀ w : Word, popcnt (w &&& BitVec.allOnes 64 <<< (64 - 0)) = 0 := by
    intro w
    rw [popcnt_mask w (by decide)]
    rfl
  have m2 : mask2At (0 / 16) = ok (BitVec.twoPow 64 (63 - 0)) := mask2At_ok (by decide)
  have m3 : mask3At (0 / 16) = ok (BitVec.allOnes 64 <<< (64 - 0)) := mask3At_ok (by decide)
  have hk4 : k = 0 ∨ k = 1 ∨ k = 2 ∨ k = 3 := by omega
  have hz : sub32 0 0 = 0 := by decide
  rcases hk4 with rfl | rfl | rfl | rfl
  · rfl
  · unfold unpack32
    simp only []
    rw [e1, ok_bind, m2, ok_bind, m3, ok_bind, hp]
    simp only [Nat.zero_mod, hz, ite_self, Nat.mul_zero]
    rfl
  · unfold unpack32
    simp only []
    rw [e1, ok_bind, m2, ok_bind, m3, ok_bind, hp]
    simp only [Nat.zero_mod, hz, ite_self, Nat.mul_zero, Nat.add_zero]
    rfl
  · unfold unpack32
    simp only []
    rw [e1, ok_bind, e2, ok_bind, m2, ok_bind, m3, ok_bind, hp, hp]
    simp only [Nat.zero_mod, hz, ite_self, Nat.mul_zero, Nat.add_zero]
    rfl

theorem rankMpe32_end (hx : MpeOK32 ty t f g g' aB aR x) (hlen : t.len ≤ 2 ^ 32 - 128) (hN : 0 < nblkM t)
    (hp : 1024 * nblkM t < 2 ^ 32) {strict : Bool}
    (hs : strict = false ∨ eo ty t (nblkM t - 1) % 8 = 0) (haB : aB % 16 = 0) (haR : aR % 4 = 0)
    {hB : Nat → Byte} {hR : Nat → Nat} (hgB : g.bits = some hB)
    {hB' : Nat → Byte} (hgB' : g'.bits = some hB') (hgR : g'.ranks = some hR) :
    rankMpe32 ty strict x (1024 * nblkM t) = ok (T t (1024 * nblkM t)) := by
  have hrl := hx.rlen
  have hbl := hx.blen
  have hroom : 1 ≤ room32 aR := by unfold room32; omega
  have hroomB : 16 ≤ roomBytes aB := by unfold roomBytes; omega
  obtain ⟨b, hb, hf⟩ := hx.sup (nblkM t / 16) (by omega)
  have h1 := rank_first32 hx (Nat.le_refl _) hb hf
  have hs' : 1024 * nblkM t / 1024 = nblkM t := by omega
  unfold rankMpe32
  simp only [hs', Nat.mul_mod_right, Nat.zero_mul, Nat.add_zero]
  rw [uget_ok (a := b.f 0) (i := 18 * (nblkM t / 16)) (by omega) (hf 0 (by omega)), ok_bind, hb.b0, h1, ok_bind]
  have hTp := T_le t (1024 * nblkM t)
  have hTW : T t (1024 * nblkM t) % W32 = T t (1024 * nblkM t) := Nat.mod_eq_of_lt (by simp only [W32]; omega)
  rw [hTW]
  have h2 : ∃ r, (if nblkM t % 16 = 15 then uget x.ranks (18 * (nblkM t / 16) + 18) else do
      ok (add32 (tvM32 t (16 * (nblkM t / 16))) (← slot2_32 x.ranks (18 * (nblkM t / 16)) (nblkM t % 16)))) = ok r := by
    by_cases h0 : nblkM t % 16 = 15
    · rw [if_pos h0]
      exact ⟨_, uget_ok (by omega) (by rw [hx.rn _ (by omega), hgR]; rfl)⟩
    · rw [if_neg h0]
      have fd := fieldM32 hb (j := nblkM t % 16) (by omega) (by omega)
      rw [slot2_eq32 (by omega) (hf _ (by omega)) fd.1, ok_bind]
      exact ⟨_, rfl⟩
  obtain ⟨r, h2⟩ := h2
  rw [h2, ok_bind]
  split
  · unfold add32
    rw [Nat.add_zero, hTW]
  · obtain ⟨k, k1, -, k3⟩ := placeM32 hb hf (by omega) hlen (Nat.le_refl _)
    rw [k3, ok_bind]
    simp only []
    have ho : oM ty t (nblkM t) = eo ty t (nblkM t - 1) := by
      unfold oM; rw [show min (nblkM t) (nblkM t - 1) = nblkM t - 1 by omega]
    rw [ho]
    have hall : ∀ y, ∃ b, x.bits.f y = some b := by
      intro y
      by_cases hy : y < eo ty t (nblkM t)
      · exact hx.below hy
      · by_cases hy' : y < eo ty t (nblkM t) + 8
        · rw [hx.rest y (by omega) hy', hgB]; exact ⟨_, rfl⟩
        · rw [hx.more y (by omega), hgB']; exact ⟨_, rfl⟩
    have hmono := eo_mono ty t (show nblkM t - 1 ≤ nblkM t by omega)
    have hhd : hdM k % 8 = 0 := by unfold hdM; (repeat' split) <;> omega
    have hhl := hd_le k
    rw [unpack32_start k1 hs (by omega) hall, ok_bind]
    simp only []
    rw [inBytes_ok (u := ⟨8, fun z => (x.bits.f (eo ty t (nblkM t - 1) + hdM k + z)).getD 0#8⟩)
      (hs.imp_right (fun h => by omega)) (by omega) (by omega) (fun z hz => by
        obtain ⟨b, hb⟩ := hall (eo ty t (nblkM t - 1) + hdM k + z)
        unfold tbyte
        rw [if_pos (by show z < 8; omega), hb]
        show _ = some ((x.bits.f _).getD 0#8)
        rw [hb]
        rfl), T_zero, Nat.add_zero, ok_bind, hTW]

end MRS.Mran
