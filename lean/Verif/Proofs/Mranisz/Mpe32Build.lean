import Verif.Model.Mranisz.Mpe32
import Verif.Proofs.Mranisz.MpeRank
import Verif.Proofs.Mranisz.Basic32

/-! # 32-bit compressed rank with pairs left out: the passes of `build` -/

set_option autoImplicit false

namespace MRS.Mran
open Outcome Spec Poppy

variable {ty : MpeType} {t : Vec Byte}

/-! ## Blocks -/

theorem nblkM32_eq (h : t.len ≤ 2 ^ 32 - 128) : nblkM32 t = nblkM t := by
  unfold nblkM32 nblkM add32
  simp only [W32]
  split
  · rw [Nat.mod_eq_of_lt (by omega)]
  · rfl

/-- The padded length of the 127 longest texts is zero. -/
theorem nblkM32_wrap (h : 2 ^ 32 - 128 < t.len) (h2 : t.len < 2 ^ 32) : nblkM32 t = 0 := by
  unfold nblkM32 add32
  simp only [W32]
  rw [if_pos (by omega), show t.len + (128 - t.len % 128) = 4294967296 by omega]

theorem nblkM_lt32 (h : t.len ≤ 2 ^ 32 - 128) : nblkM t < 2 ^ 25 := by
  have := nblkM_le t
  omega

theorem emptyBlocksM32_eq (h : t.len ≤ 2 ^ 32 - 128) : emptyBlocksM32 t = emptyBlocksM t := by
  unfold emptyBlocksM32 emptyBlocksM
  rw [nblkM32_eq h]

theorem notEmptyM32_eq (h : t.len ≤ 2 ^ 32 - 128) (e : Vec (Option Bool)) : notEmptyM32 t e = notEmptyM t e := by
  unfold notEmptyM32 notEmptyM
  rw [nblkM32_eq h]

theorem tmpLenM32_eq (h : t.len ≤ 2 ^ 32 - 128) : tmpLenM32 t = tmpLenM t := by
  unfold tmpLenM32 tmpLenM
  rw [nblkM32_eq h]

/-! ## The pass over the text -/

/-- The state of the 32-bit pass. -/
def redM (s : PassM) : PassM := { s with ranks := redv s.ranks, rank := s.rank % W32 }

theorem passByteM32_sim (t : Vec Byte) (i j : Nat) (s : PassM) :
    passByteM32 t i j (redM s) = passByteM t i j s >>= fun s => ok (redM s) := by
  unfold passByteM32 passByteM
  by_cases h : i + j < t.len
  · rw [if_pos h, if_pos h, bind_assoc']
    congr 1
    funext c
    rw [bind_assoc']
    show Bind.bind (s.bits.set s.bc (some c)) _ = _
    congr 1
    funext b
    rw [ok_bind]
    unfold redM add32
    simp only [Nat.mod_add_mod]
  · rw [if_neg h, if_neg h, bind_assoc']
    show Bind.bind (s.bits.set s.bc (some 0#8)) _ = _
    congr 1

theorem passBlockM32_sim (t : Vec Byte) (e : Vec (Option Bool)) (q : Nat) (s : PassM) (h : s.bc < W32) :
    passBlockM32 t e q (redM s) = passBlockM t e q s >>= fun s => ok (redM s) := by
  unfold passBlockM32 passBlockM
  rw [bind_assoc']
  show Bind.bind ((redv s.ranks).set s.rc (some (s.rank % W32))) _ = _
  rw [redv_set, bind_assoc']
  congr 1
  funext r
  rw [ok_bind, bind_assoc']
  show Bind.bind ((redv r).set (s.rc + 1) (some s.bc)) _ = _
  rw [show some s.bc = some (s.bc % W32) by rw [Nat.mod_eq_of_lt h], redv_set, bind_assoc',
    Nat.mod_eq_of_lt h]
  congr 1
  funext r
  rw [ok_bind]
  simp only []
  rw [bind_assoc']
  congr 1
  funext b
  cases b
  · simp only [Bool.false_eq_true, if_false]
    exact forFrom_sim (r := redM) (fun j s => passByteM32_sim t (128 * q) j s) 128 0
      { s with ranks := r, rc := s.rc + 2 }
  · simp only [if_true]
    rw [bind_assoc']
    congr 1
    funext c
    rw [ok_bind]
    congr 1
    split
    · unfold redM add32
      simp only [Nat.mod_add_mod]
    · rfl

/-- Rank in front of block `k`; 0 beyond the text. -/
def tvM32 (t : Vec Byte) (k : Nat) : Nat := tvM t k % W32

theorem passM32_ok (hlen : t.len ≤ 2 ^ 32 - 128) {e : Vec (Option Bool)} (he : EmptyM t e) :
    ∃ s, passM32 t e (neM t (nblkM t)) = ok s ∧ PassOKM t (tvM32 t) s := by
  have hl := tmpLenM_eq t
  have hnb := nblkM_lt32 hlen
  unfold passM32
  rw [nblkM32_eq hlen, tmpLenM32_eq hlen]
  obtain ⟨s', e1, s, i, rfl⟩ := forN_inv (body := passBlockM32 t e)
    (fun q s' => ∃ s, PassInvM t (tmpLenM t) (neM t (nblkM t) * 128) q s ∧ s' = redM s) (nblkM t)
    ⟨fresh (tmpLenM t), fresh (neM t (nblkM t) * 128), 0, 0, 0⟩
    ⟨⟨fresh (tmpLenM t), fresh (neM t (nblkM t) * 128), 0, 0, 0⟩,
      ⟨rfl, rfl, (T_zero t).symm, rfl, rfl, by intro k hk; omega, by intro k hk; omega⟩, rfl⟩
    (by
      intro q s' hq ⟨s, hs, h'⟩
      obtain ⟨s1, e1, h1⟩ := passBlockM_ok he (by omega) (by omega) hq hs
      rw [h', passBlockM32_sim t e q s (by
        have := neM_le t q
        rw [hs.bc]; simp only [W32]; omega), e1]
      exact ⟨_, rfl, s1, h1, rfl⟩)
  have hrl : (redM s).ranks.len = tmpLenM t := i.rlen
  have hrc : (redM s).rc = 2 * nblkM t := i.rc
  have hrk : (redM s).rank = T t (1024 * nblkM t) % W32 := by show s.rank % W32 = _; rw [i.rank]
  have hr0 : ∀ k, k < nblkM t → (redM s).ranks.f (2 * k) = some (T t (1024 * k) % W32) := by
    intro k hk
    show (s.ranks.f (2 * k)).map _ = _
    rw [i.r0 k hk]
    rfl
  have hbl : (redM s).bits.len = neM t (nblkM t) * 128 := i.blen
  have hw : ∀ k, k < nblkM t → ¬ HomM t k → ∀ j, j < 128 →
    (redM s).bits.f (128 * neM t k + j) = some (blk t k j) := i.w
  generalize redM s = s at *
  rw [e1, ok_bind, Vec.set_ok _ (by rw [hrl, hrc]; omega), ok_bind, Vec.set_ok _ (by
    show s.rc + 1 < s.ranks.len
    omega), ok_bind]
  simp only []
  obtain ⟨r, e2, h1, h2, h3⟩ := forFrom_inv (body := fun x (r : Vec (Option Nat)) => r.set x (some 0))
    (fun x r => r.len = tmpLenM t ∧ (∀ y, y < 2 * nblkM t + 1 → r.f y =
        if y = s.rc then some s.rank else s.ranks.f y) ∧
      ∀ y, 2 * nblkM t + 1 ≤ y → y < x → r.f y = some 0) (tmpLenM t - (s.rc + 2)) (s.rc + 2)
    ⟨s.ranks.len, fun j => if j = s.rc + 1 then some 0 else if j = s.rc then some s.rank else s.ranks.f j⟩
    ⟨hrl, by
      intro y hy
      show (if y = s.rc + 1 then _ else _) = _
      rw [if_neg (by omega)], by
      intro y h1 h2
      show (if y = s.rc + 1 then _ else _) = _
      rw [if_pos (by omega)]⟩
    (by
      intro x r h1 h2 ⟨a, b, c⟩
      rw [Vec.set_ok _ (by omega)]
      refine ⟨_, rfl, a, ?_, ?_⟩
      · intro y hy
        show (if y = x then _ else _) = _
        rw [if_neg (by omega), b y hy]
      · intro y hy hyx
        show (if y = x then _ else _) = _
        by_cases hye : y = x
        · rw [if_pos hye]
        · rw [if_neg hye, c y hy (by omega)])
  rw [e2, ok_bind]
  rw [show s.rc + 2 + (tmpLenM t - (s.rc + 2)) = tmpLenM t by omega] at h3
  refine ⟨_, rfl, h1, ?_, ?_, hw⟩
  · intro k hk
    show r.f _ = _
    unfold tvM32 tvM
    split
    · rw [h2 _ (by omega)]
      by_cases hkn : k = nblkM t
      · rw [if_pos (by omega), hrk, hkn]
      · rw [if_neg (by omega), hr0 k (by omega)]
    · exact h3 _ (by omega) hk
  · show s.bits.len = _; rw [hbl]; omega

/-! ## The plan -/

theorem planM32_ok (ty : MpeType) (hlen : t.len ≤ 2 ^ 32 - 128) {e : Vec (Option Bool)} (he : EmptyM t e)
    (g : Option (Nat → Byte)) {v : Nat → Nat} {sp : PassM} (hp : PassOKM t v sp) :
    ∃ s, planM32 ty g t e sp.bits = ok s ∧ PlanOK ty t g (nblkM t) s ∧
      bitsLenM32 (neM t (nblkM t)) s = eo ty t (nblkM t) + 8 := by
  unfold planM32
  rw [nblkM32_eq hlen]
  obtain ⟨s, e1, h, i⟩ := planBlocks_ok ty he g (L := nblkM t) (Nat.le_refl _) hp
  refine ⟨s, e1, h, ?_⟩
  have h1 := i.sum
  have h2 := i.pairs
  have h3 := neM_le t (nblkM t)
  have h4 := nblkM_lt32 hlen
  have h5 := eo_le ty t (nblkM t)
  have hs : sub32 (neM t (nblkM t) * 128) (2 * s.pairs) = neM t (nblkM t) * 128 - 2 * s.pairs := by
    unfold sub32; simp only [W32]; omega
  unfold bitsLenM32
  rw [hs, Nat.mod_eq_of_lt (by simp only [W32]; omega)]
  omega

/-! ## Writing the blocks -/

theorem encodeM32_ok (hlen : t.len ≤ 2 ^ 32 - 128) {e : Vec (Option Bool)} (he : EmptyM t e) {v : Nat → Nat}
    {sp : PassM} (hp : PassOKM t v sp) {g : Option (Nat → Byte)} {Lf : Nat} {pl : Plan} (hpl : PlanOK ty t g Lf pl)
    {out0 : Vec (Option Byte)} (hout : eo ty t (nblkM t) ≤ out0.len) (hN : 0 < nblkM t) :
    ∃ s, encodeM32 t e pl.flags sp.bits out0 sp.ranks = ok s ∧ EncOK ty t v out0 s := by
  have hnb := nblkM_lt32 hlen
  obtain ⟨s, h1, h2⟩ := encode_ok he hp hpl hout hN (by omega)
  refine ⟨s, ?_, h2⟩
  obtain ⟨s1, e1, i⟩ := forN_inv (body := encBlock e pl.flags sp.bits) (EncInv ty t sp.ranks out0) (nblkM t)
    ⟨sp.ranks, out0, 0, 1, 0⟩
    ⟨rfl, fun _ => rfl, by intro k hk; omega, rfl, rfl, rfl, rfl, by intro k hk; omega, fun _ _ => rfl⟩
    (fun q s hq hi => encBlock_ok he hp hpl (by have := tmpLenM_eq t; rw [hp.rlen]; omega) hout hq hi)
  have hrc := i.rc
  have hsub : sub64 s1.rc 2 = sub32 s1.rc 2 := by
    unfold sub64 sub32; simp only [W64, W32]; omega
  rw [← h1]
  unfold encodeM32 encode
  rw [nblkM32_eq hlen, tmpLenM32_eq hlen, e1, ok_bind, ok_bind, hsub]

/-- Without blocks the offset of the last one is read in front of the array. -/
theorem encodeM32_empty {e : Vec (Option Bool)} {fl bits out0 : Vec (Option Byte)} {R : Vec (Option Nat)}
    (hN : nblkM32 t = 0) (hR : R.len = 32) : encodeM32 t e fl bits out0 R = ub .oob := by
  have hl : tmpLenM32 t = 32 := by unfold tmpLenM32; rw [hN]; rfl
  unfold encodeM32
  rw [hN, hl]
  show (do
    let r ← forN ((32 - 1 + 1) / 2) (fun k r => do
      let o ← uget r (sub32 1 2)
      r.set (1 + 2 * k) (some o)) R
    _) = _
  rw [show (32 - 1 + 1) / 2 = 15 + 1 by omega]
  unfold forN forFrom
  have : uget R (sub32 1 2) = ub .oob := by
    unfold uget Vec.get
    rw [if_neg (by rw [hR]; decide)]
    rfl
  simp only [this]
  rfl

/-! ## An array that is too short -/

theorem Enc.put_oob {s : Enc} (h : s.out.len ≤ s.bc) (x : Byte) : s.put x = ub .oob := by
  unfold Enc.put Vec.set
  rw [if_neg (by omega)]
  rfl

theorem encPairs_oob {k : Nat} (hk : k ≠ 0) {tmp : Vec (Option Byte)} {off : Nat} {c : Nat → Byte}
    (hl : off + 128 ≤ tmp.len) (hw : ∀ j, j < 128 → tmp.f (off + j) = some (c j)) {s : Enc × Word × Word}
    (hs : s.1.out.len ≤ s.1.bc) (hkp : 0 < kp k c 64) : forN 64 (encPair k tmp off) s = ub .oob := by
  obtain ⟨p, p1, p2, -⟩ := kept_cover 64 0 hkp
  have hstep : ∀ p, p < 64 → ∀ s : Enc × Word × Word, s.1.out.len ≤ s.1.bc →
      (dp k c p = false → encPair k tmp off p s = ub .oob) ∧
      (dp k c p = true → ∃ s', encPair k tmp off p s = ok s' ∧ s'.1.out.len ≤ s'.1.bc) := by
    intro p hp s hs
    unfold encPair
    rw [uget_ok (by omega) (hw (2 * p) (by omega)), ok_bind, Nat.add_assoc,
      uget_ok (by omega) (hw (2 * p + 1) (by omega)), ok_bind]
    simp only []
    have hdM : dropped k (c (2 * p)) (c (2 * p + 1)) = dp k c p := by
      unfold dp
      rw [show (k != 0) = true by simp [hk], Bool.true_and]
    rw [hdM]
    constructor
    · intro h
      rw [h, if_neg (by simp), Enc.put_oob hs]
      rfl
    · intro h
      rw [h, if_pos rfl]
      exact ⟨_, rfl, hs⟩
  unfold forN
  apply Hft.forFrom_ub (fun s : Enc × Word × Word => s.1.out.len ≤ s.1.bc) (i0 := p) 64 0 s hs (by omega) (by omega)
  · intro j s _ hj hs
    cases hd : dp k c j
    · exact Or.inl ((hstep j (by omega) s hs).1 hd)
    · exact Or.inr ((hstep j (by omega) s hs).2 hd)
  · intro s hs
    exact (hstep p p1 s hs).1 p2

theorem putAll_oob {tmp : Vec (Option Byte)} {c : Nat → Byte} (hl : 128 ≤ tmp.len)
    (hw : ∀ j, j < 128 → tmp.f j = some (c j)) : ∀ n a (s : Enc), a + n = 128 → s.off = 0 → s.bc = a →
    s.out.len < 128 → forFrom a n (fun j (s : Enc) => do
      let a ← uget tmp (s.off + j)
      s.put a) s = ub .oob ∨ s.out.len < a := by
  intro n
  induction n with
  | zero => intro a s h _ _ h2; exact Or.inr (by omega)
  | succ n ih =>
    intro a s h h0 hb h2
    by_cases hlt : s.out.len < a
    · exact Or.inr hlt
    left
    unfold forFrom
    simp only []
    rw [h0, Nat.zero_add, uget_ok (by omega) (hw a (by omega)), ok_bind]
    by_cases he : s.out.len = a
    · rw [Enc.put_oob (by omega)]
      rfl
    · rw [Enc.put_ok (by omega), ok_bind]
      refine (ih (a + 1) _ (by omega) (by exact h0) (by show s.bc + 1 = _; omega) (by exact h2)).resolve_right ?_
      show ¬ s.out.len < a + 1
      omega

/-- The first block does not fit into an array of at most eight bytes. -/
theorem encBlock_short {e : Vec (Option Bool)} (he : EmptyM t e) {v : Nat → Nat} {sp : PassM} (hp : PassOKM t v sp)
    {g : Option (Nat → Byte)} {Lf : Nat} {pl : Plan} (hpl : PlanOK ty t g Lf pl) {R : Vec (Option Nat)}
    (hR : 2 ≤ R.len) {out0 : Vec (Option Byte)} (hout : out0.len ≤ 8) (hN : 0 < nblkM t) (hh : ¬ HomM t 0)
    (hsl : 16 < sl ty t 0) : encBlock e pl.flags sp.bits 0 ⟨R, out0, 0, 1, 0⟩ = ub .oob := by
  have hge := hpl.ge
  have hw := hp.w 0 hN hh
  have hlt := neM_lt hh hN
  have hn0 : neM t 0 = 0 := rfl
  have hbl := hp.blen
  have hkl := kd_lt ty t 0
  unfold encBlock
  rw [Vec.set_ok _ (by show 1 < R.len; omega), ok_bind]
  simp only []
  rw [he.get hN, ok_bind]
  simp only [hh, decide_false, Bool.false_eq_true, if_false]
  rw [uget_ok (by rw [hpl.len]; omega) (hpl.val 0 hN), ok_bind, if_neg hh]
  have hkN : (BitVec.ofNat 8 (kd ty t 0)).toNat = kd ty t 0 := by
    rw [BitVec.toNat_ofNat]; omega
  rw [hkN]
  unfold sl at hsl
  rw [hn0] at hw
  simp only [Nat.mul_zero, Nat.zero_add] at hw
  generalize kd ty t 0 = k at *
  have hk4 : k = 3 ∨ (k = 1 ∨ k = 2) ∨ k = 0 := by omega
  rcases hk4 with rfl | hk12 | rfl
  · rw [show hdM 3 = 16 from rfl] at hsl
    rw [if_pos rfl, encPairs_oob (c := blk t 0) (by decide) (by omega) (fun j hj => by rw [Nat.zero_add]; exact hw j hj)
      (by show out0.len ≤ 0 + 16; omega) (by omega)]
    rfl
  · have hk0 : k ≠ 0 := by omega
    have hk3 : k ≠ 3 := by omega
    have hhd : hdM k = 8 := by unfold hdM; rw [if_neg hk3, if_neg hk0]
    rw [if_neg hk3, if_pos hk12, encPairs_oob (c := blk t 0) hk0 (by omega)
      (fun j hj => by rw [Nat.zero_add]; exact hw j hj) (by show out0.len ≤ 0 + 8; omega) (by omega)]
    rfl
  · rw [if_neg (by omega), if_neg (by omega)]
    have := (putAll_oob (tmp := sp.bits) (c := blk t 0) (by omega) hw 128 0
      ⟨⟨R.len, fun j => if j = 1 then some 0 else R.f j⟩, out0, 0, 1 + 2, 0⟩ (by omega) rfl rfl
      (by show out0.len < 128; omega)).resolve_right (by omega)
    unfold forN
    rw [this]
    rfl

end MRS.Mran
