import Verif.Proofs.Mranisz.Pass
import Verif.Proofs.Hft.Limits

/-! # Compressed rank: `RankBasic64` -/

set_option autoImplicit false

namespace MRS.Mran
open Outcome Spec Poppy

theorem nblk_le (t : Vec Byte) : 64 * nblk t ≤ t.len + 63 := by rw [nblk_eq]; omega

/-- The step common to the queries: a block whose count is a multiple of 512 needs no words. -/
theorem core {t : Vec Byte} {q i : Nat} (hlen : t.len < 2 ^ 60) (hq : q < nblk t) (hi : i < 512)
    {k : Outcome Nat} (hk : ¬ Hom t q → k = ok (T t (512 * q + i))) :
    (if sub64 (T t (512 * (q + 1))) (T t (512 * q)) &&& 511 = 0 then
      ok (T t (512 * q) + i * (sub64 (T t (512 * (q + 1))) (T t (512 * q)) >>> 9)) else k) =
      ok (T t (512 * q + i)) := by
  have h1 := T_le t (512 * (q + 1))
  have h2 := nblk_le t
  rw [sub64_eq (T_mono t (by omega)) (by simp only [W64]; omega)]
  rw [show (511 : Nat) = 2 ^ 9 - 1 by rfl, Nat.and_two_pow_sub_one_eq_mod, Nat.shiftRight_eq_div_pow]
  rw [show 512 * (q + 1) = 512 * q + 512 by omega]
  split
  · rename_i h
    rw [T_homog hi h]
  · rename_i h
    exact hk (fun hh => h hh.count)

/-! ## Standard headers -/

theorem room_pos {addr : Nat} (h : addr % 8 = 0) : 1 ≤ room addr := by unfold room; omega

/-- What `build` leaves. -/
structure StdOK (t : Vec Byte) (aR aB : Nat) (x : Basic) : Prop where
  rl : x.ranksLen = 2 * nblk t + 1
  bl : x.bitsLen = 8 * ne t (nblk t)
  tl : x.textLen = t.len
  pass : ∃ s, PassOK t (2 * nblk t + 1 + room aR) (8 * ne t (nblk t) + room aB) s ∧
    x.ranks = s.ranks ∧ x.bits = s.bits

theorem buildStd_ok (t : Vec Byte) (aB aR : Nat) : ∃ x, buildStd aB aR t = ok x ∧ StdOK t aR aB x := by
  obtain ⟨e, e1, he⟩ := emptyBlocks_ok t
  unfold buildStd
  rw [e1, ok_bind, notEmpty_ok he, ok_bind]
  simp only [show ne t (nblk t) * (64 / 8) = 8 * ne t (nblk t) by omega]
  obtain ⟨s, e2, hs⟩ := pass_ok he (R := 2 * nblk t + 1 + room aR) (L := 8 * ne t (nblk t) + room aB)
    (by omega) (by omega)
  rw [e2, ok_bind]
  exact ⟨_, rfl, rfl, rfl, rfl, s, hs, rfl, rfl⟩

theorem stored_lt {t : Vec Byte} {q : Nat} (hq : q < nblk t) (h : ¬ Hom t q) :
    8 * ne t q + 8 ≤ 8 * ne t (nblk t) := by
  have h1 := ne_succ t q
  rw [if_neg h] at h1
  have := ne_mono t (show q + 1 ≤ nblk t by omega)
  omega

theorem rankStd_ok {t : Vec Byte} {aR aB : Nat} {x : Basic} (hx : StdOK t aR aB x)
    (hlen : t.len < 2 ^ 60) {i : Nat} (hi : i < 512 * nblk t) : rankStd x i = ok (T t i) := by
  obtain ⟨s, hs, hr, hb⟩ := hx.pass
  have hq : i / 512 < nblk t := by omega
  unfold rankStd
  simp only []
  have rl := hs.rlen
  have bl := hs.blen
  rw [hr, hb, uget_ok (by omega) (hs.r0 (i / 512) (by omega)), ok_bind,
    show 2 * (i / 512) + 2 = 2 * (i / 512 + 1) by omega,
    uget_ok (by omega) (hs.r0 (i / 512 + 1) (by omega)), ok_bind]
  rw [core hlen hq (Nat.mod_lt _ (by decide))]
  · congr 2; omega
  · intro hh
    have := stored_lt hq hh
    rw [uget_ok (by omega) (hs.r1 _ hq), ok_bind]
    exact inBlock_ok (Nat.mod_lt _ (by decide)) (by omega) (fun j hj => hs.w _ hq hh j hj)

/-- From the padded end on, a query reads cells that were never written, or no cells at all. -/
theorem rankStd_end {t : Vec Byte} {aR aB : Nat} {x : Basic} (hx : StdOK t aR aB x) {i : Nat}
    (hi : 512 * nblk t ≤ i) : ∃ f, rankStd x i = ub f := by
  obtain ⟨s, hs, hr, hb⟩ := hx.pass
  unfold rankStd
  simp only []
  rw [hr]
  by_cases hq : i / 512 = nblk t
  · rw [hq, uget_ok (by have := hs.rlen; omega) (hs.r0 _ (Nat.le_refl _)), ok_bind]
    obtain ⟨f, hf⟩ := uget_none (hs.rn (2 * nblk t + 2) (by omega))
    exact ⟨f, by rw [hf]; rfl⟩
  · obtain ⟨f, hf⟩ := uget_none (hs.rn (2 * (i / 512)) (by omega))
    exact ⟨f, by rw [hf]; rfl⟩

/-! ## Compressed headers: the temporary array -/

/-- Rank in front of block `k`; 0 beyond the text, where the padding of `ranksTemp` is read. -/
def tv (t : Vec Byte) (k : Nat) : Nat := if k ≤ nblk t then T t (512 * k) else 0

/-- Offset of block `k`; 0 beyond the text. -/
def to (t : Vec Byte) (k : Nat) : Nat := if k < nblk t then 8 * ne t k else 0

theorem tmpLen_eq (t : Vec Byte) : tmpLen t = 128 * (nblk t / 64 + 1) := by
  unfold tmpLen; simp only []; split <;> omega

/-- The temporary array after the padding. -/
structure TmpOK (t : Vec Byte) (tmp : Vec (Option Nat)) : Prop where
  len : tmp.len = tmpLen t
  even : ∀ k, 2 * k < tmpLen t → tmp.f (2 * k) = some (tv t k)
  odd : ∀ k, 2 * k + 1 < tmpLen t → tmp.f (2 * k + 1) = some (to t k)

theorem tmp_ok {t : Vec Byte} {L : Nat} {s : Pass} (hs : PassOK t (tmpLen t) L s) :
    ∃ r tmp, s.ranks.set s.rc (some 0) = ok r ∧
      forFrom (s.rc + 1) (tmpLen t - (s.rc + 1)) (fun i r => r.set i (some 0)) r = ok tmp ∧ TmpOK t tmp := by
  have hl := tmpLen_eq t
  rw [Vec.set_ok _ (by rw [hs.rlen, hs.rc]; omega)]
  obtain ⟨tmp, e, h1, h2, h3⟩ := forFrom_inv (body := fun i (r : Vec (Option Nat)) => r.set i (some 0))
    (fun i r => r.len = tmpLen t ∧ (∀ x, x < 2 * nblk t + 1 → r.f x = s.ranks.f x) ∧
      ∀ x, 2 * nblk t + 1 ≤ x → x < i → r.f x = some 0) (tmpLen t - (s.rc + 1)) (s.rc + 1)
    ⟨s.ranks.len, fun j => if j = s.rc then some 0 else s.ranks.f j⟩
    ⟨hs.rlen, by
      intro x hx
      show (if x = s.rc then _ else _) = _
      rw [if_neg (by rw [hs.rc]; omega)], by
      intro x h1 h2
      show (if x = s.rc then _ else _) = _
      rw [if_pos (by rw [hs.rc] at *; omega)]⟩
    (by
      intro i r h1 h2 ⟨a, b, c⟩
      rw [Vec.set_ok _ (by rw [a]; rw [hs.rc] at *; omega)]
      refine ⟨_, rfl, a, ?_, ?_⟩
      · intro x hx
        show (if x = i then _ else _) = _
        rw [if_neg (by rw [hs.rc] at *; omega), b x hx]
      · intro x hx hxi
        show (if x = i then _ else _) = _
        by_cases hxe : x = i
        · rw [if_pos hxe]
        · rw [if_neg hxe, c x hx (by omega)])
  rw [show s.rc + 1 + (tmpLen t - (s.rc + 1)) = tmpLen t by rw [hs.rc]; omega] at h3
  refine ⟨_, tmp, rfl, e, h1, ?_, ?_⟩
  · intro k hk
    unfold tv
    split
    · rw [h2 _ (by omega), hs.r0 k (by assumption)]
    · exact h3 _ (by omega) hk
  · intro k hk
    unfold to
    split
    · rw [h2 _ (by omega), hs.r1 k (by assumption)]
    · exact h3 _ (by omega) hk

/-! ## Compressed headers: packing -/

/-- Four 16-bit fields added into one word. -/
def acc (d : Nat → Nat) : Nat → Nat
  | 0 => 0
  | s + 1 => add64 (acc d s) (shl64 (d s) (16 * s))

theorem acc_lt (d : Nat → Nat) (n : Nat) : acc d n < 2 ^ 64 := by
  cases n with
  | zero => simp [acc]
  | succ n => exact Nat.mod_lt _ (by decide)

theorem acc_slot (d : Nat → Nat) {n s : Nat} (hn : n ≤ 4) (hs : s < n) (h : ∀ k, k < s → d k < 65536) :
    acc d n / 2 ^ (16 * s) % 65536 = d s % 65536 := by
  have h0 := h 0
  have h1 := h 1
  have h2 := h 2
  have a1 : acc d 1 = d 0 % W64 := by simp [acc, add64, shl64]
  have a2 : acc d 2 = (acc d 1 + d 1 * 65536 % W64) % W64 := rfl
  have a3 : acc d 3 = (acc d 2 + d 2 * 4294967296 % W64) % W64 := rfl
  have a4 : acc d 4 = (acc d 3 + d 3 * 281474976710656 % W64) % W64 := rfl
  simp only [W64] at a1 a2 a3 a4
  have hn' : n = 1 ∨ n = 2 ∨ n = 3 ∨ n = 4 := by omega
  have hs' : s = 0 ∨ s = 1 ∨ s = 2 ∨ s = 3 := by omega
  rcases hn' with rfl | rfl | rfl | rfl <;> rcases hs' with rfl | rfl | rfl | rfl <;>
    first
    | omega
    | (simp only [Nat.mul_zero, Nat.pow_zero, Nat.div_one, Nat.mul_one, Nat.reduceMul, Nat.reducePow]; omega)

/-- The flags of the blocks of a superblock. -/
def flg (E : Nat → Bool) : Nat → Nat
  | 0 => 0
  | j + 1 => if E j then flg E j else add64 (flg E j) (shl64 1 (63 - j))

theorem flg_bit (E : Nat → Bool) {j : Nat} (hj : j ≤ 64) {l : Nat} (hl : l < 64) :
    (BitVec.ofNat 64 (flg E j)).getLsbD l = (decide (63 - l < j) && !E (63 - l)) := by
  induction j generalizing l with
  | zero => simp [flg]
  | succ j ih =>
    unfold flg
    cases hE : E j
    · simp only [Bool.false_eq_true, if_false]
      have e1 : BitVec.ofNat 64 (add64 (flg E j) (shl64 1 (63 - j))) =
          BitVec.ofNat 64 (flg E j) + BitVec.twoPow 64 (63 - j) := by
        apply BitVec.eq_of_toNat_eq
        have h63 : 2 ^ (63 - j) < 2 ^ 64 := Nat.pow_lt_pow_right (by decide) (by omega)
        rw [BitVec.toNat_add, BitVec.toNat_ofNat, BitVec.toNat_ofNat, BitVec.toNat_twoPow]
        unfold add64 shl64
        rw [Nat.one_mul]
        simp only [W64]
        omega
      rw [e1, BitVec.add_eq_or_of_and_eq_zero _ _ (by
        apply BitVec.eq_of_getLsbD_eq
        intro l hl
        rw [BitVec.getLsbD_and, ih (by omega) hl, BitVec.getLsbD_twoPow]
        by_cases h1 : 63 - l < j
        · rw [decide_eq_false (show ¬ 63 - j = l by omega)]; simp
        · rw [decide_eq_false h1]; simp), BitVec.getLsbD_or, ih (by omega) hl, BitVec.getLsbD_twoPow]
      rw [decide_eq_true (show 63 - j < 64 by omega), Bool.true_and]
      by_cases h1 : 63 - l = j
      · rw [h1, hE, decide_eq_true (show 63 - j = l by omega), decide_eq_true (show j < j + 1 by omega)]
        simp
      · rw [decide_eq_false (show ¬ 63 - j = l by omega), Bool.or_false]
        congr 2
        apply propext; omega
    · simp only [if_true]
      rw [ih (by omega) hl]
      by_cases h1 : 63 - l = j
      · rw [h1, hE]; simp
      · congr 2
        apply propext; omega

/-- Ones of the flags in front of block `n`. -/
theorem flg_count (E : Nat → Bool) {n : Nat} (hn : n ≤ 63) :
    mcnt (BitVec.ofNat 64 (flg E 63)) n = psum (fun j => if E j then 0 else 1) n := by
  induction n with
  | zero => rfl
  | succ n ih =>
    rw [mcnt_succ, ih (by omega), flg_bit E (by omega) (by omega),
      decide_eq_true (show 63 - (63 - n) < 63 by omega), show 63 - (63 - n) = n by omega]
    show _ = psum _ n + if E n = true then 0 else 1
    cases E n <;> rfl

/-! ## Compressed headers: a superblock -/

/-- What is read for `emptyBlock[k]`. -/
def ev (t : Vec Byte) (g : Nat → Bool) (k : Nat) : Bool := if k < nblk t then decide (Hom t k) else g k

/-- Difference to the rank of the superblock that starts at block `i`. -/
def dv (t : Vec Byte) (i j : Nat) : Nat := sub64 (tv t (i + j + 1)) (tv t i)

/-- What a superblock holds. -/
structure BucketOK (t : Vec Byte) (g : Nat → Bool) (i : Nat) (b : Vec Nat) : Prop where
  len : b.len = 19
  b0 : b.f 0 = tv t i
  mid : ∀ m, m < 16 → b.f (m + 1) = acc (fun s => dv t i (4 * m + s)) (min 4 (63 - 4 * m))
  off : b.f 17 = to t i
  flags : b.f 18 = flg (fun j => ev t g (i + j)) 63

theorem emptyAt_ok {t : Vec Byte} {e : Vec (Option Bool)} (he : EmptyOK t e) {beyond : Option (Nat → Bool)}
    {g : Nat → Bool} {k : Nat} (h : k < nblk t ∨ beyond = some g) : emptyAt beyond e k = ok (ev t g k) := by
  unfold emptyAt ev
  rw [he.len]
  by_cases hk : k < nblk t
  · rw [if_pos hk, if_pos hk, he.get hk]
  · rw [if_neg hk, if_neg hk, h.resolve_left hk]

theorem bucket_mid {t : Vec Byte} {tmp : Vec (Option Nat)} (ht : TmpOK t tmp) {i : Nat}
    (hi : 2 * (i + 64) ≤ tmpLen t) :
    ∃ b : Vec Nat, (do
      let b : Vec Nat := ⟨19, fun _ => 0⟩
      let r ← uget tmp (2 * i)
      let b ← b.set 0 r
      let b ← forN 63 (fun j b => do
        let r ← uget tmp (2 * (i + j + 1))
        let b0 ← b.get 0
        let x ← b.get (j / 4 + 1)
        b.set (j / 4 + 1) (add64 x (shl64 (sub64 r b0) (16 * (j % 4))))) b
      let o ← uget tmp (2 * i + 1)
      b.set 17 o) = ok b ∧ b.len = 19 ∧ b.f 0 = tv t i ∧
      (∀ m, m < 16 → b.f (m + 1) = acc (fun s => dv t i (4 * m + s)) (min 4 (63 - 4 * m))) ∧
      b.f 17 = to t i ∧ b.f 18 = 0 := by
  have hl := ht.len
  simp only []
  rw [uget_ok (by omega) (ht.even i (by omega)), ok_bind, Vec.set_ok _ (by show 0 < 19; omega), ok_bind]
  obtain ⟨b, e, h1, h2, h3, h4⟩ := forN_inv (body := fun j (b : Vec Nat) => do
        let r ← uget tmp (2 * (i + j + 1))
        let b0 ← b.get 0
        let x ← b.get (j / 4 + 1)
        b.set (j / 4 + 1) (add64 x (shl64 (sub64 r b0) (16 * (j % 4)))))
    (fun j b => b.len = 19 ∧ b.f 0 = tv t i ∧
      (∀ m, m < 16 → b.f (m + 1) = acc (fun s => dv t i (4 * m + s)) (min 4 (j - 4 * m))) ∧ b.f 18 = 0) 63
    ⟨19, fun j => if j = 0 then tv t i else 0⟩
    ⟨rfl, rfl, by
      intro m hm
      rw [show min 4 (0 - 4 * m) = 0 by omega]
      rfl, rfl⟩
    (by
      intro j b hj ⟨a1, a2, a3, a4⟩
      rw [uget_ok (by omega) (ht.even (i + j + 1) (by omega)), ok_bind, Vec.get_ok (by omega), ok_bind,
        Vec.get_ok (by omega), ok_bind, Vec.set_ok _ (by omega)]
      refine ⟨_, rfl, a1, ?_, ?_, ?_⟩
      · have : (0 : Nat) ≠ j / 4 + 1 := by omega
        simp only [if_neg this, a2]
      · intro m hm
        show (if m + 1 = j / 4 + 1 then _ else _) = _
        by_cases hmj : m = j / 4
        · subst hmj
          rw [if_pos rfl, a3 _ hm, a2]
          rw [show min 4 (j - 4 * (j / 4)) = j % 4 by omega,
            show min 4 (j + 1 - 4 * (j / 4)) = j % 4 + 1 by omega]
          show add64 _ (shl64 (sub64 (tv t (i + j + 1)) (tv t i)) (16 * (j % 4))) =
            add64 _ (shl64 (dv t i (4 * (j / 4) + j % 4)) (16 * (j % 4)))
          unfold dv
          rw [show i + (4 * (j / 4) + j % 4) + 1 = i + j + 1 by omega]
        · rw [if_neg (by omega), a3 m hm]
          congr 1
          omega
      · have : (18 : Nat) ≠ j / 4 + 1 := by omega
        simp only [if_neg this, a4])
  rw [e, ok_bind, uget_ok (by omega) (ht.odd i (by omega)), ok_bind, Vec.set_ok _ (by omega)]
  refine ⟨_, rfl, h1, h2, ?_, rfl, h4⟩
  intro m hm
  show (if m + 1 = 17 then _ else _) = _
  rw [if_neg (by omega)]
  exact h3 m hm

theorem bucket_split (beyond : Option (Nat → Bool)) (tmp : Vec (Option Nat)) (e : Vec (Option Bool))
    (i : Nat) : bucket beyond tmp e i = (do
      let b ← (do
        let b : Vec Nat := ⟨19, fun _ => 0⟩
        let r ← uget tmp (2 * i)
        let b ← b.set 0 r
        let b ← forN 63 (fun j b => do
          let r ← uget tmp (2 * (i + j + 1))
          let b0 ← b.get 0
          let x ← b.get (j / 4 + 1)
          b.set (j / 4 + 1) (add64 x (shl64 (sub64 r b0) (16 * (j % 4))))) b
        let o ← uget tmp (2 * i + 1)
        b.set 17 o)
      forN 63 (fun j b => do
        if !(← emptyAt beyond e (i + j)) then do
          let x ← b.get (17 + 1)
          b.set (17 + 1) (add64 x (shl64 1 (63 - j)))
        else ok b) b) := by
  unfold bucket
  simp only [bind_assoc']

theorem bucket_ok {t : Vec Byte} {tmp : Vec (Option Nat)} (ht : TmpOK t tmp) {e : Vec (Option Bool)}
    (he : EmptyOK t e) {beyond : Option (Nat → Bool)} {g : Nat → Bool} {i : Nat}
    (hi : 2 * (i + 64) ≤ tmpLen t) (hb : i + 62 < nblk t ∨ beyond = some g) :
    ∃ b, bucket beyond tmp e i = ok b ∧ BucketOK t g i b := by
  obtain ⟨b0, e0, l0, a0, m0, o0, f0⟩ := bucket_mid ht hi
  rw [bucket_split, e0, ok_bind]
  obtain ⟨b, e1, h1, h2, h3⟩ := forN_inv (body := fun j (b : Vec Nat) => do
        if !(← emptyAt beyond e (i + j)) then do
          let x ← b.get (17 + 1)
          b.set (17 + 1) (add64 x (shl64 1 (63 - j)))
        else ok b)
    (fun j b => b.len = 19 ∧ (∀ x, x ≠ 18 → b.f x = b0.f x) ∧ b.f 18 = flg (fun j => ev t g (i + j)) j)
    63 b0 ⟨l0, fun _ _ => rfl, f0⟩
    (by
      intro j b hj ⟨a1, a2, a3⟩
      rw [emptyAt_ok he (g := g) (hb.imp (fun h => by omega) id), ok_bind]
      unfold flg
      cases hE : ev t g (i + j)
      · simp only [Bool.not_false, if_true, Bool.false_eq_true, if_false]
        rw [Vec.get_ok (by omega), ok_bind, Vec.set_ok _ (by omega)]
        refine ⟨_, rfl, a1, ?_, ?_⟩
        · intro x hx
          show (if x = 17 + 1 then _ else _) = _
          rw [if_neg (by omega)]; exact a2 x hx
        · simp only [Nat.reduceAdd, if_true, a3]
      · simp only [Bool.not_true, Bool.false_eq_true, if_false, if_true]
        exact ⟨_, rfl, a1, a2, a3⟩)
  refine ⟨b, e1, h1, ?_, ?_, ?_, h3⟩
  · rw [h2 0 (by omega), a0]
  · intro m hm
    rw [h2 _ (by omega), m0 m hm]
  · rw [h2 17 (by omega), o0]

/-- With no readable bytes after `emptyBlock`, the last superblock is undefined unless it is full. -/
theorem bucket_oob {t : Vec Byte} {tmp : Vec (Option Nat)} (ht : TmpOK t tmp) {e : Vec (Option Bool)}
    (he : EmptyOK t e) {i : Nat} (hi : 2 * (i + 64) ≤ tmpLen t) (hn : nblk t ≤ i + 62) (hin : i ≤ nblk t) :
    bucket none tmp e i = ub .oob := by
  obtain ⟨b0, e0, l0, -⟩ := bucket_mid ht hi
  rw [bucket_split, e0, ok_bind]
  unfold forN
  apply Hft.forFrom_ub (fun b : Vec Nat => b.len = 19) (i0 := nblk t - i) 63 0 b0 l0 (by omega) (by omega)
  · intro j b _ hj hl
    by_cases hk : i + j < nblk t
    · right
      rw [emptyAt_ok he (beyond := none) (g := fun _ => true) (Or.inl hk), ok_bind]
      cases ev t (fun _ => true) (i + j)
      · simp only [Bool.not_false, if_true]
        rw [Vec.get_ok (by omega), ok_bind, Vec.set_ok _ (by omega)]
        exact ⟨_, rfl, hl⟩
      · simp only [Bool.not_true, Bool.false_eq_true, if_false]
        exact ⟨_, rfl, hl⟩
    · left
      unfold emptyAt
      rw [he.len, if_neg hk]
      rfl
  · intro b _
    unfold emptyAt
    rw [he.len, if_neg (by omega)]
    rfl

/-! ## Compressed headers: all superblocks -/

/-- What `build` leaves. -/
structure BchOK (t : Vec Byte) (g : Nat → Bool) (aR aB : Nat) (x : Basic) : Prop where
  rl : x.ranksLen = 19 * (nblk t / 64 + 1)
  bl : x.bitsLen = 8 * ne t (nblk t)
  tl : x.textLen = t.len
  rlen : x.ranks.len = 19 * (nblk t / 64 + 1) + room aR
  blen : x.bits.len = 8 * ne t (nblk t) + room aB
  sup : ∀ k, k ≤ nblk t / 64 → ∃ b, BucketOK t g (64 * k) b ∧ ∀ j, j < 19 → x.ranks.f (19 * k + j) = some (b.f j)
  rn : ∀ y, 19 * (nblk t / 64 + 1) ≤ y → x.ranks.f y = none
  w : ∀ k, k < nblk t → ¬ Hom t k → ∀ j, j < 8 → x.bits.f (8 * ne t k + j) = some (tword t (8 * k + j))
  bn : ∀ y, 8 * ne t (nblk t) ≤ y → x.bits.f y = none

theorem buildBch_ok (t : Vec Byte) (aB aR : Nat) {beyond : Option (Nat → Bool)} {g : Nat → Bool}
    (hb : nblk t % 64 = 63 ∨ beyond = some g) :
    ∃ x, buildBch beyond aB aR t = ok x ∧ BchOK t g aR aB x := by
  obtain ⟨e, e1, he⟩ := emptyBlocks_ok t
  have hl := tmpLen_eq t
  unfold buildBch
  rw [e1, ok_bind, notEmpty_ok he, ok_bind]
  simp only [show ne t (nblk t) * 8 = 8 * ne t (nblk t) by omega]
  obtain ⟨s, e2, hs⟩ := pass_ok he (R := tmpLen t) (L := 8 * ne t (nblk t) + room aB)
    (by omega) (by omega)
  rw [e2, ok_bind]
  obtain ⟨r, tmp, e3, e4, ht⟩ := tmp_ok hs
  rw [e3, ok_bind, e4, ok_bind]
  have hS : tmpLen t / 2 / 64 = nblk t / 64 + 1 := by omega
  rw [hS]
  obtain ⟨ranks, e5, h1, h2, h3⟩ := forN_inv (body := superStep beyond tmp e)
    (fun k (r : Vec (Option Nat)) => r.len = (nblk t / 64 + 1) * 19 + room aR ∧
      (∀ k', k' < k → ∃ b, BucketOK t g (64 * k') b ∧ ∀ j, j < 19 → r.f (19 * k' + j) = some (b.f j)) ∧
      ∀ y, 19 * k ≤ y → r.f y = none) (nblk t / 64 + 1) (fresh ((nblk t / 64 + 1) * 19 + room aR))
    ⟨rfl, by intro k hk; omega, fun _ _ => rfl⟩
    (by
      intro k r hk ⟨a1, a2, a3⟩
      obtain ⟨b, eb, hbk⟩ := bucket_ok ht he (beyond := beyond) (g := g) (i := 64 * k) (by omega)
        (hb.imp (fun h => by omega) id)
      unfold superStep
      rw [eb, ok_bind]
      obtain ⟨r', er, c1, c2, c3⟩ := forN_inv (body := fun j (r : Vec (Option Nat)) => do
          let x ← b.get j
          r.set (19 * k + j) (some x))
        (fun j r' => r'.len = r.len ∧ (∀ j', j' < j → r'.f (19 * k + j') = some (b.f j')) ∧
          ∀ y, y < 19 * k ∨ 19 * k + j ≤ y → r'.f y = r.f y) 19 r
        ⟨rfl, by intro j hj; omega, fun _ _ => rfl⟩
        (by
          intro j r' hj ⟨d1, d2, d3⟩
          rw [Vec.get_ok (by rw [hbk.len]; exact hj), ok_bind, Vec.set_ok _ (by omega)]
          refine ⟨_, rfl, d1, ?_, ?_⟩
          · intro j' hj'
            show (if 19 * k + j' = 19 * k + j then _ else _) = _
            by_cases hjj : j' = j
            · rw [if_pos (by omega), hjj]
            · rw [if_neg (by omega), d2 j' (by omega)]
          · intro y hy
            show (if y = 19 * k + j then _ else _) = _
            rw [if_neg (by omega), d3 y (by omega)])
      refine ⟨r', er, by rw [c1, a1], ?_, ?_⟩
      · intro k' hk'
        by_cases hkk : k' = k
        · subst hkk
          exact ⟨b, hbk, c2⟩
        · obtain ⟨b', hb1, hb2⟩ := a2 k' (by omega)
          refine ⟨b', hb1, fun j hj => ?_⟩
          rw [c3 _ (Or.inl (by omega)), hb2 j hj]
      · intro y hy
        rw [c3 _ (Or.inr (by omega)), a3 y (by omega)])
  rw [e5, ok_bind]
  exact ⟨_, rfl, Nat.mul_comm _ _, rfl, rfl, by show ranks.len = _; rw [h1, Nat.mul_comm], hs.blen,
    fun k hk => h2 k (by omega), h3, hs.w, hs.bn⟩

theorem buildBch_oob (t : Vec Byte) (aB aR : Nat) (h : nblk t % 64 ≠ 63) :
    buildBch none aB aR t = ub .oob := by
  obtain ⟨e, e1, he⟩ := emptyBlocks_ok t
  have hl := tmpLen_eq t
  unfold buildBch
  rw [e1, ok_bind, notEmpty_ok he, ok_bind]
  simp only [show ne t (nblk t) * 8 = 8 * ne t (nblk t) by omega]
  obtain ⟨s, e2, hs⟩ := pass_ok he (R := tmpLen t) (L := 8 * ne t (nblk t) + room aB)
    (by omega) (by omega)
  rw [e2, ok_bind]
  obtain ⟨r, tmp, e3, e4, ht⟩ := tmp_ok hs
  rw [e3, ok_bind, e4, ok_bind]
  have hS : tmpLen t / 2 / 64 = nblk t / 64 + 1 := by omega
  rw [hS]
  have : forN (nblk t / 64 + 1) (superStep none tmp e) (fresh ((nblk t / 64 + 1) * 19 + room aR)) =
      ub .oob := by
    unfold forN
    apply Hft.forFrom_ub (fun r : Vec (Option Nat) => r.len = (nblk t / 64 + 1) * 19 + room aR)
      (i0 := nblk t / 64) _ 0 _ rfl (by omega) (by omega)
    · intro k r _ hk hr
      by_cases hlast : k = nblk t / 64
      · left
        unfold superStep
        rw [bucket_oob ht he (by omega) (by omega) (by omega)]
        rfl
      · right
        obtain ⟨b, eb, hbk⟩ := bucket_ok ht he (beyond := none) (g := fun _ => true) (i := 64 * k) (by omega)
          (Or.inl (by omega))
        unfold superStep
        rw [eb, ok_bind]
        obtain ⟨r', er, c1⟩ := forN_inv (body := fun j (r : Vec (Option Nat)) => do
            let x ← b.get j
            r.set (19 * k + j) (some x))
          (fun _ r' => r'.len = r.len) 19 r rfl
          (by
            intro j r' hj d1
            rw [Vec.get_ok (by rw [hbk.len]; exact hj), ok_bind, Vec.set_ok _ (by omega)]
            exact ⟨_, rfl, d1⟩)
        exact ⟨r', er, by rw [c1, hr]⟩
    · intro r _
      unfold superStep
      rw [bucket_oob ht he (by omega) (by omega) (by omega)]
      rfl
  rw [this]
  rfl

/-! ## Compressed headers: queries -/

theorem dv_eq {t : Vec Byte} {i j : Nat} (hlen : t.len < 2 ^ 60) (h : i + j + 1 ≤ nblk t) :
    dv t i j = T t (512 * (i + j + 1)) - T t (512 * i) := by
  unfold dv tv
  rw [if_pos (by omega), if_pos (by omega)]
  have h1 := T_le t (512 * (i + j + 1))
  have h2 := nblk_le t
  exact sub64_eq (T_mono t (by omega)) (by simp only [W64]; omega)

theorem dv_lt {t : Vec Byte} {i j : Nat} (hlen : t.len < 2 ^ 60) (h : i + j + 1 ≤ nblk t) (hj : j < 63) :
    dv t i j < 65536 := by
  rw [dv_eq hlen h]
  have := T_diff t (512 * i) (512 * (j + 1))
  rw [show 512 * i + 512 * (j + 1) = 512 * (i + j + 1) by omega] at this
  omega

theorem field {t : Vec Byte} {g : Nat → Bool} {i : Nat} {b : Vec Nat} (hb : BucketOK t g i b)
    (hlen : t.len < 2 ^ 60) {j : Nat} (hj : j < 63) (h : i + j ≤ nblk t) :
    b.f (j / 4 + 1) < 2 ^ 64 ∧ b.f (j / 4 + 1) / 2 ^ (16 * (j % 4)) % 65536 = dv t i j % 65536 := by
  rw [hb.mid _ (by omega)]
  refine ⟨acc_lt _ _, ?_⟩
  rw [acc_slot (fun s => dv t i (4 * (j / 4) + s)) (by omega) (by omega)
    (fun k hk => dv_lt hlen (by omega) (by omega))]
  show dv t i (4 * (j / 4) + j % 4) % _ = _
  rw [show 4 * (j / 4) + j % 4 = j by omega]

theorem and16 (w : Nat) : w &&& 0xFFFF = w % 65536 := by
  rw [show (0xFFFF : Nat) = 2 ^ 16 - 1 by rfl, Nat.and_two_pow_sub_one_eq_mod]

theorem slot1_eq {ranks : Vec (Option Nat)} {p n w : Nat} (hp : p + (n + 3) / 4 < ranks.len)
    (h : ranks.f (p + (n + 3) / 4) = some w) (hw : w < 2 ^ 64) :
    slot1 ranks p n = ok (w / 2 ^ (16 * ((n + 3) % 4)) % 65536) := by
  unfold slot1
  rw [uget_ok hp h, ok_bind]
  congr 1
  have h4 : n % 4 = 0 ∨ n % 4 = 1 ∨ n % 4 = 2 ∨ n % 4 = 3 := by omega
  rcases h4 with h4 | h4 | h4 | h4
  · rw [h4, show (n + 3) % 4 = 3 by omega]
    simp only [Nat.shiftRight_eq_div_pow]
    show w / 281474976710656 = w / 281474976710656 % 65536
    omega
  · rw [h4, show (n + 3) % 4 = 0 by omega]
    simp only [and16]
    simp
  · rw [h4, show (n + 3) % 4 = 1 by omega]
    simp only [and16, Nat.shiftRight_eq_div_pow]
  · rw [h4, show (n + 3) % 4 = 2 by omega]
    simp only [and16, Nat.shiftRight_eq_div_pow]

theorem slot2_eq {ranks : Vec (Option Nat)} {p n w : Nat} (hp : p + (n / 4 + 1) < ranks.len)
    (h : ranks.f (p + (n / 4 + 1)) = some w) (hw : w < 2 ^ 64) :
    slot2 ranks p n = ok (w / 2 ^ (16 * (n % 4)) % 65536) := by
  unfold slot2
  have h4 : n % 4 = 0 ∨ n % 4 = 1 ∨ n % 4 = 2 ∨ n % 4 = 3 := by omega
  rcases h4 with h4 | h4 | h4 | h4
  · rw [h4]
    simp only []
    rw [show (n + 4) / 4 = n / 4 + 1 by omega, uget_ok hp h, ok_bind, and16]
    simp
  · rw [h4]
    simp only []
    rw [show (n + 3) / 4 = n / 4 + 1 by omega, uget_ok hp h, ok_bind, and16, Nat.shiftRight_eq_div_pow]
  · rw [h4]
    simp only []
    rw [show (n + 3) / 4 = n / 4 + 1 by omega, uget_ok hp h, ok_bind, and16, Nat.shiftRight_eq_div_pow]
  · rw [h4]
    simp only []
    rw [show (n + 3) / 4 = n / 4 + 1 by omega, uget_ok hp h, ok_bind, Nat.shiftRight_eq_div_pow]
    congr 1
    show w / 281474976710656 = w / 281474976710656 % 65536
    omega

theorem psum_ev {t : Vec Byte} (g : Nat → Bool) {i n : Nat} (h : i + n ≤ nblk t) :
    ne t i + psum (fun j => if ev t g (i + j) then 0 else 1) n = ne t (i + n) := by
  induction n with
  | zero => rfl
  | succ n ih =>
    rw [← Nat.add_assoc, ne_succ, ← ih (by omega)]
    have he : ev t g (i + n) = decide (Hom t (i + n)) := if_pos (by omega)
    show _ + (psum _ n + if ev t g (i + n) = true then 0 else 1) = _
    rw [he]
    by_cases hh : Hom t (i + n)
    · rw [decide_eq_true hh, if_pos rfl, if_pos hh]; rfl
    · rw [decide_eq_false hh, if_neg hh, if_neg (by simp)]; omega

theorem rankBch_ok {t : Vec Byte} {g : Nat → Bool} {aR aB : Nat} {x : Basic} (hx : BchOK t g aR aB x)
    (hlen : t.len < 2 ^ 60) {i : Nat} (hi : i < 512 * nblk t) : rankBch x i = ok (T t i) := by
  have hq : i / 512 < nblk t := by omega
  have hrl := hx.rlen
  have hbl := hx.blen
  generalize hs : i / 512 = st at *
  obtain ⟨b, hb, hf⟩ := hx.sup (st / 64) (by omega)
  have hst : 64 * (st / 64) + st % 64 = st := by omega
  have hn : st % 64 < 64 := Nat.mod_lt _ (by decide)
  generalize hS : st / 64 = S at *
  generalize hN : st % 64 = n at *
  unfold rankBch
  simp only [hs, hS, hN]
  have hb0 : tv t (64 * S) = T t (512 * (64 * S)) := if_pos (by omega)
  rw [show 19 * S = 19 * S + 0 by omega, uget_ok (by omega) (hf 0 (by omega)), ok_bind, hb.b0]
  -- the rank of the block
  have h1 : (if n > 0 then do ok (tv t (64 * S) + (← slot1 x.ranks (19 * S + 0) n)) else ok (tv t (64 * S))) =
      ok (T t (512 * st)) := by
    by_cases h0 : n > 0
    · rw [if_pos h0]
      have fd := field hb hlen (j := n - 1) (by omega) (by omega)
      rw [show (n - 1) / 4 + 1 = (n + 3) / 4 by omega, show (n - 1) % 4 = (n + 3) % 4 by omega] at fd
      rw [slot1_eq (by omega) (by rw [Nat.add_zero]; exact hf _ (by omega)) fd.1, ok_bind, fd.2,
        Nat.mod_eq_of_lt (dv_lt hlen (by omega) (by omega)), dv_eq hlen (by omega), hb0,
        show 64 * S + (n - 1) + 1 = st by omega]
      have := T_mono t (show 512 * (64 * S) ≤ 512 * st by omega)
      congr 1; omega
    · rw [if_neg h0, hb0, show 64 * S = st by omega]
  rw [h1, ok_bind]
  -- the rank of the next block
  have h2 : (if n = 63 then uget x.ranks (19 * S + 0 + 19) else do
      ok (tv t (64 * S) + (← slot2 x.ranks (19 * S + 0) n))) = ok (T t (512 * (st + 1))) := by
    by_cases h0 : n = 63
    · rw [if_pos h0]
      obtain ⟨b', hb', hf'⟩ := hx.sup (S + 1) (by omega)
      rw [show 19 * S + 0 + 19 = 19 * (S + 1) + 0 by omega, uget_ok (by omega) (hf' 0 (by omega)), hb'.b0]
      unfold tv
      rw [if_pos (by omega), show 64 * (S + 1) = st + 1 by omega]
    · rw [if_neg h0]
      have fd := field hb hlen (j := n) (by omega) (by omega)
      rw [slot2_eq (by omega) (by rw [Nat.add_zero]; exact hf _ (by omega)) fd.1, ok_bind, fd.2,
        Nat.mod_eq_of_lt (dv_lt hlen (by omega) (by omega)), dv_eq hlen (by omega), hb0, hst]
      have := T_mono t (show 512 * (64 * S) ≤ 512 * (st + 1) by omega)
      congr 1; omega
  rw [h2, ok_bind]
  rw [core hlen hq (Nat.mod_lt _ (by decide))]
  · congr 2; omega
  · intro hh
    have hlt := stored_lt hq hh
    have hto : to t (64 * S) = 8 * ne t (64 * S) := if_pos (by omega)
    have h3 : (if n > 0 then do
        let o ← uget x.ranks (19 * S + 0 + 17)
        let f ← uget x.ranks (19 * S + 0 + (17 + 1))
        let m ← maskAt n
        ok (o + 8 * popcnt (BitVec.ofNat 64 f &&& m))
      else uget x.ranks (19 * S + 0 + 17)) = ok (8 * ne t st) := by
      rw [Nat.add_zero]
      by_cases h0 : n > 0
      · rw [if_pos h0, uget_ok (by omega) (hf 17 (by omega)), ok_bind,
          uget_ok (by omega) (hf 18 (by omega)), ok_bind, maskAt_ok hn, ok_bind, popcnt_mask _ hn,
          hb.off, hb.flags, flg_count _ (by omega), hto]
        have := psum_ev g (show 64 * S + n ≤ nblk t by omega)
        rw [hst] at this
        congr 1; omega
      · rw [if_neg h0, uget_ok (by omega) (hf 17 (by omega)), hb.off, hto, show 64 * S = st by omega]
    rw [h3, ok_bind]
    exact inBlock_ok (Nat.mod_lt _ (by decide)) (by omega) (fun j hj => hx.w _ hq hh j hj)

theorem first_stored {t : Vec Byte} {q : Nat} (h : 0 < ne t q) : ∃ k, k < q ∧ ¬ Hom t k ∧ ne t k = 0 := by
  induction q with
  | zero => exact absurd h (Nat.lt_irrefl 0)
  | succ q ih =>
    by_cases h0 : 0 < ne t q
    · obtain ⟨k, h1, h2⟩ := ih h0
      exact ⟨k, by omega, h2⟩
    · refine ⟨q, by omega, fun hh => ?_, by omega⟩
      rw [ne_succ, if_pos hh] at h
      exact h0 h

theorem none_stored {t : Vec Byte} {q : Nat} (h : ne t q = 0) : T t (512 * q) % 512 = 0 := by
  induction q with
  | zero => rw [Nat.mul_zero, T_zero]
  | succ q ih =>
    have h1 := ne_succ t q
    by_cases hh : Hom t q
    · rw [if_pos hh] at h1
      have h2 := hh.count
      have h3 := ih (by omega)
      have h4 := T_mono t (show 512 * q ≤ 512 * q + 512 by omega)
      rw [show 512 * (q + 1) = 512 * q + 512 by omega]
      omega
    · rw [if_neg hh] at h1; omega

/-- The query at the padded end: at the start of a superblock the total; at its last entry undefined;
in between the total when it is a multiple of 512, undefined otherwise. -/
theorem rankBch_end {t : Vec Byte} {g : Nat → Bool} {aR aB : Nat} {x : Basic} (hx : BchOK t g aR aB x)
    (hlen : t.len < 2 ^ 60) :
    (nblk t % 64 = 0 ∨ nblk t % 64 ≠ 63 ∧ T t (512 * nblk t) % 512 = 0 →
      rankBch x (512 * nblk t) = ok (T t (512 * nblk t))) ∧
    (nblk t % 64 = 63 ∨ nblk t % 64 ≠ 0 ∧ T t (512 * nblk t) % 512 ≠ 0 →
      ∃ f, rankBch x (512 * nblk t) = ub f) := by
  have hrl := hx.rlen
  have hbl := hx.blen
  have hs : 512 * nblk t / 512 = nblk t := by omega
  obtain ⟨b, hb, hf⟩ := hx.sup (nblk t / 64) (by omega)
  have hst : 64 * (nblk t / 64) + nblk t % 64 = nblk t := by omega
  have hn : nblk t % 64 < 64 := Nat.mod_lt _ (by decide)
  have hTle := T_le t (512 * nblk t)
  have hnl := nblk_le t
  have hw := T_mono t (show 512 * (64 * (nblk t / 64)) ≤ 512 * nblk t by omega)
  unfold rankBch
  simp only [hs, Nat.mul_mod_right, Nat.zero_mul, Nat.add_zero]
  generalize hS : nblk t / 64 = S at *
  generalize hN : nblk t % 64 = n at *
  have hb0 : tv t (64 * S) = T t (512 * (64 * S)) := if_pos (by omega)
  rw [show 19 * S = 19 * S + 0 by omega, uget_ok (by omega) (hf 0 (by omega)), ok_bind, hb.b0]
  have h1 : (if n > 0 then do ok (tv t (64 * S) + (← slot1 x.ranks (19 * S + 0) n)) else ok (tv t (64 * S))) =
      ok (T t (512 * nblk t)) := by
    by_cases h0 : n > 0
    · rw [if_pos h0]
      have fd := field hb hlen (j := n - 1) (by omega) (by omega)
      rw [show (n - 1) / 4 + 1 = (n + 3) / 4 by omega, show (n - 1) % 4 = (n + 3) % 4 by omega] at fd
      rw [slot1_eq (by omega) (by rw [Nat.add_zero]; exact hf _ (by omega)) fd.1, ok_bind, fd.2,
        Nat.mod_eq_of_lt (dv_lt hlen (by omega) (by omega)), dv_eq hlen (by omega), hb0,
        show 64 * S + (n - 1) + 1 = nblk t by omega]
      congr 1; omega
    · rw [if_neg h0, hb0, show 64 * S = nblk t by omega]
  rw [h1, ok_bind]
  by_cases h63 : n = 63
  · refine ⟨fun h => by omega, fun _ => ?_⟩
    rw [if_pos h63]
    obtain ⟨f, hf⟩ := uget_none (hx.rn (19 * S + 0 + 19) (by omega))
    exact ⟨f, by rw [hf]; rfl⟩
  · rw [if_neg h63]
    have fd := field hb hlen (j := n) (by omega) (by omega)
    rw [slot2_eq (by omega) (by rw [Nat.add_zero]; exact hf _ (by omega)) fd.1, ok_bind, fd.2, ok_bind]
    have hdv : dv t (64 * S) n = sub64 0 (T t (512 * (64 * S))) := by
      unfold dv
      rw [hb0, show tv t (64 * S + n + 1) = 0 from if_neg (by omega)]
    have hmod : sub64 (tv t (64 * S) + dv t (64 * S) n % 65536) (T t (512 * nblk t)) &&& 511 =
        (512 - T t (512 * nblk t) % 512) % 512 := by
      rw [show (511 : Nat) = 2 ^ 9 - 1 by rfl, Nat.and_two_pow_sub_one_eq_mod, hdv, hb0]
      unfold sub64
      simp only [W64]
      omega
    rw [hmod]
    by_cases h0 : T t (512 * nblk t) % 512 = 0
    · rw [if_pos (by omega)]
      exact ⟨fun _ => rfl, fun h => by omega⟩
    · rw [if_neg (by omega)]
      by_cases hn0 : n = 0
      · have hto : to t (64 * S) = 0 := if_neg (by omega)
        rw [if_neg (by omega), uget_ok (by omega) (by rw [Nat.add_zero]; exact hf 17 (by omega)), ok_bind,
          hb.off, hto]
        refine ⟨fun _ => ?_, fun h => by omega⟩
        have hpos : 0 < ne t (nblk t) := by
          have := none_stored (t := t) (q := nblk t)
          omega
        obtain ⟨k, k1, k2, k3⟩ := first_stored hpos
        have hw0 := hx.w k k1 k2 0 (by omega)
        rw [k3] at hw0
        unfold inBlock
        rw [show (0 : Nat) / 64 = 0 by rfl]
        show (do let w ← uget x.bits (0 + 0); _) = _
        rw [uget_ok (by omega) hw0, ok_bind, maskAt_ok (by omega), ok_bind, popcnt_mask _ (by omega)]
        rfl
      · refine ⟨fun h => by omega, fun _ => ?_⟩
        have hto : to t (64 * S) = 8 * ne t (64 * S) := if_pos (by omega)
        rw [Nat.add_zero, if_pos (by omega), uget_ok (by omega) (hf 17 (by omega)), ok_bind,
          uget_ok (by omega) (hf 18 (by omega)), ok_bind, maskAt_ok hn, ok_bind, popcnt_mask _ hn,
          hb.off, hb.flags, flg_count _ (by omega), hto, ok_bind]
        have := psum_ev g (show 64 * S + n ≤ nblk t by omega)
        rw [hst] at this
        obtain ⟨f, hf⟩ := uget_none (hx.bn (8 * ne t (64 * S) +
          8 * psum (fun j => if ev t g (64 * S + j) then 0 else 1) n + 0) (by omega))
        refine ⟨f, ?_⟩
        unfold inBlock
        show (do let w ← uget x.bits (_ + 0); _) = _
        rw [hf]
        rfl

end MRS.Mran
