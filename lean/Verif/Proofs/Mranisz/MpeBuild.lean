import Verif.Proofs.Mranisz.MpeText

/-! # Compressed rank with pairs left out: the passes of `build` -/

set_option autoImplicit false

namespace MRS.Mran
open Outcome Spec Poppy

variable {ty : MpeType} {t : Vec Byte}

/-! ## `emptyBlock` -/

theorem emptyStepM_eq (t : Vec Byte) (q : Nat) (e : Vec (Option Bool)) :
    emptyStepM t q e = e.set q (some (decide (HomM t q))) := by
  unfold emptyStepM
  obtain ⟨b1, e1, h1⟩ := scan_eq t (fun c => decide (c.toNat > 0)) (128 * q) 128 0
  obtain ⟨b2, e2, h2⟩ := scan_eq t (fun c => decide (c.toNat < 255)) (128 * q) 128 0
  rw [e1, ok_bind]
  have k1 : b1 = true ↔ 128 * q + 128 ≤ t.len ∧ ∀ j, j < 128 → t.f (128 * q + j) = 0#8 := by
    rw [h1]
    constructor
    · intro h
      refine ⟨by have := (h 127 (by omega) (by omega)).1; omega, fun j hj => ?_⟩
      have := (h j (by omega) (by omega)).2
      simp only [decide_eq_false_iff_not] at this
      apply BitVec.eq_of_toNat_eq
      simpa using this
    · intro h j _ hj
      refine ⟨by omega, ?_⟩
      rw [h.2 j (by omega)]; rfl
  have k2 : b2 = true ↔ 128 * q + 128 ≤ t.len ∧ ∀ j, j < 128 → t.f (128 * q + j) = 255#8 := by
    rw [h2]
    constructor
    · intro h
      refine ⟨by have := (h 127 (by omega) (by omega)).1; omega, fun j hj => ?_⟩
      have := (h j (by omega) (by omega)).2
      simp only [decide_eq_false_iff_not] at this
      apply BitVec.eq_of_toNat_eq
      have := (t.f (128 * q + j)).isLt
      show _ = 255
      omega
    · intro h j _ hj
      refine ⟨by omega, ?_⟩
      rw [h.2 j (by omega)]; rfl
  cases b1
  · simp only [Bool.not_false, if_true, e2, ok_bind]
    congr 2
    rw [Bool.eq_iff_iff, k2, decide_eq_true_iff]
    unfold HomM
    have : ¬ (128 * q + 128 ≤ t.len ∧ ∀ j, j < 128 → t.f (128 * q + j) = 0#8) := by
      rw [← k1]; simp
    constructor
    · exact fun h => ⟨h.1, Or.inr h.2⟩
    · rintro ⟨a, h | h⟩
      · exact absurd ⟨a, h⟩ this
      · exact ⟨a, h⟩
  · simp only [Bool.not_true, Bool.false_eq_true, if_false, ok_bind]
    congr 2
    rw [Bool.eq_iff_iff, decide_eq_true_iff]
    exact ⟨fun _ => ⟨(k1.1 rfl).1, Or.inl (k1.1 rfl).2⟩, fun _ => rfl⟩

/-- What `emptyBlock` holds. -/
structure EmptyM (t : Vec Byte) (e : Vec (Option Bool)) : Prop where
  len : e.len = nblkM t
  val : ∀ q, q < nblkM t → e.f q = some (decide (HomM t q))

theorem EmptyM.get {e : Vec (Option Bool)} (h : EmptyM t e) {q : Nat}
    (hq : q < nblkM t) : uget e q = ok (decide (HomM t q)) :=
  uget_ok (by rw [h.len]; exact hq) (h.val q hq)

theorem emptyBlocksM_ok (t : Vec Byte) : ∃ e, emptyBlocksM t = ok e ∧ EmptyM t e := by
  unfold emptyBlocksM
  obtain ⟨e, h, hl, hv⟩ := forN_inv (body := emptyStepM t)
    (fun i e => e.len = nblkM t ∧ ∀ q, q < i → e.f q = some (decide (HomM t q))) (nblkM t) (fresh (nblkM t))
    ⟨rfl, by intro q hq; omega⟩
    (by
      intro i e hi ⟨hl, hv⟩
      rw [emptyStepM_eq, Vec.set_ok _ (by rw [hl]; exact hi)]
      refine ⟨_, rfl, hl, fun q hq => ?_⟩
      show (if q = i then _ else _) = _
      by_cases hqi : q = i
      · rw [if_pos hqi, hqi]
      · rw [if_neg hqi, hv q (by omega)])
  exact ⟨e, h, hl, hv⟩

theorem notEmptyM_ok {e : Vec (Option Bool)} (h : EmptyM t e) :
    notEmptyM t e = ok (neM t (nblkM t)) := by
  unfold notEmptyM
  obtain ⟨n, e1, hn⟩ := forN_inv (body := fun i n => do
      let b ← uget e i
      ok (if b then n else n + 1))
    (fun i n => n = neM t i) (nblkM t) 0 rfl
    (by
      intro i n hi hn
      rw [h.get hi]
      refine ⟨_, rfl, ?_⟩
      rw [neM_succ, hn]
      by_cases hh : HomM t i <;> simp [hh])
  rw [e1, hn]

theorem neM_lt {q k : Nat} (h : ¬ HomM t k) (hk : k < q) : neM t k + 1 ≤ neM t q := by
  have h1 := neM_succ t k
  rw [if_neg h] at h1
  have h2 := neM_mono t (show k + 1 ≤ q by omega)
  omega

/-! ## The pass over the text -/

/-- State of the pass before block `q`. -/
structure PassInvM (t : Vec Byte) (R L q : Nat) (s : PassM) : Prop where
  rlen : s.ranks.len = R
  blen : s.bits.len = L
  rank : s.rank = T t (1024 * q)
  rc : s.rc = 2 * q
  bc : s.bc = 128 * neM t q
  r0 : ∀ k, k < q → s.ranks.f (2 * k) = some (T t (1024 * k))
  w : ∀ k, k < q → ¬ HomM t k → ∀ j, j < 128 → s.bits.f (128 * neM t k + j) = some (blk t k j)

/-- Inside block `q`, after `j` bytes. -/
structure ByteInvM (t : Vec Byte) (q m : Nat) (s0 : PassM) (j : Nat) (s : PassM) : Prop where
  ranks : s.ranks = s0.ranks
  rc : s.rc = s0.rc
  len : s.bits.len = s0.bits.len
  bc : s.bc = m + j
  rank : s.rank = T t (8 * (128 * q + j))
  new : ∀ k, k < j → s.bits.f (m + k) = some (blk t q k)
  rest : ∀ x, x < m → s.bits.f x = s0.bits.f x

theorem passByteM_ok {q m : Nat} {s0 s : PassM} {j : Nat} (hj : j < 128) (hm : m + 128 ≤ s0.bits.len)
    (h : ByteInvM t q m s0 j s) : ∃ s', passByteM t (128 * q) j s = ok s' ∧ ByteInvM t q m s0 (j + 1) s' := by
  have hb : s.bc < s.bits.len := by rw [h.bc, h.len]; omega
  have hT := T_bcnt (t := t) (128 * q + j) (Nat.le_refl 8)
  rw [show 8 * (128 * q + j) + 8 = 8 * (128 * q + (j + 1)) by omega] at hT
  have step : ∀ c : Byte, tbyte t (128 * q + j) = c →
      ByteInvM t q m s0 (j + 1) { s with
        bits := ⟨s.bits.len, fun x => if x = s.bc then some c else s.bits.f x⟩, bc := s.bc + 1,
        rank := s.rank + bcnt c 8 } := by
    intro c hc
    refine ⟨h.ranks, h.rc, h.len, ?_, ?_, ?_, ?_⟩
    · show s.bc + 1 = _; rw [h.bc]; omega
    · show s.rank + _ = _; rw [h.rank, hT, hc]
    · intro k hk
      show (if m + k = s.bc then _ else _) = _
      by_cases hkj : k = j
      · rw [if_pos (by rw [h.bc, hkj]), ← hc, hkj]; rfl
      · rw [if_neg (by rw [h.bc]; omega), h.new k (by omega)]
    · intro x hx
      show (if x = s.bc then _ else _) = _
      rw [if_neg (by rw [h.bc]; omega), h.rest x hx]
  unfold passByteM
  by_cases h0 : 128 * q + j < t.len
  · rw [if_pos h0, Vec.get_ok h0, ok_bind, Vec.set_ok _ hb, ok_bind, byte_popcnt]
    exact ⟨_, rfl, step _ (if_pos h0)⟩
  · rw [if_neg h0, Vec.set_ok _ hb, ok_bind]
    have := step 0#8 (if_neg h0)
    rw [bcnt_zero] at this
    exact ⟨_, rfl, this⟩

theorem passBlockM_ok {e : Vec (Option Bool)} (he : EmptyM t e) {R L q : Nat} {s : PassM}
    (hR : 2 * nblkM t + 2 ≤ R) (hL : 128 * neM t (nblkM t) ≤ L) (hq : q < nblkM t) (h : PassInvM t R L q s) :
    ∃ s', passBlockM t e q s = ok s' ∧ PassInvM t R L (q + 1) s' := by
  unfold passBlockM
  have hr := h.rlen
  have hb := h.blen
  rw [Vec.set_ok _ (by rw [hr, h.rc]; omega), ok_bind, Vec.set_ok _ (by
    show s.rc + 1 < s.ranks.len
    rw [hr, h.rc]; omega), ok_bind]
  simp only []
  rw [he.get hq, ok_bind]
  generalize hrr : (⟨s.ranks.len, fun j => if j = s.rc + 1 then some s.bc else
    if j = s.rc then some s.rank else s.ranks.f j⟩ : Vec (Option Nat)) = r'
  have f0 : ∀ k, k < q + 1 → r'.f (2 * k) = some (T t (1024 * k)) := by
    intro k hk
    rw [← hrr]
    show (if 2 * k = s.rc + 1 then _ else if 2 * k = s.rc then _ else _) = _
    rw [if_neg (by rw [h.rc]; omega)]
    by_cases hkq : k = q
    · rw [if_pos (by rw [h.rc, hkq]), h.rank, hkq]
    · rw [if_neg (by rw [h.rc]; omega), h.r0 k (by omega)]
  have fl : r'.len = R := by rw [← hrr]; exact hr
  by_cases hh : HomM t q
  · simp only [hh, decide_true, if_true]
    have hlen := hh.1
    rw [Vec.get_ok (by omega), ok_bind]
    have hne : neM t (q + 1) = neM t q := by rw [neM_succ, if_pos hh]; rfl
    have hw : ∀ k, k < q + 1 → ¬ HomM t k → ∀ j, j < 128 →
        s.bits.f (128 * neM t k + j) = some (blk t k j) := by
      intro k hk hn
      have : k ≠ q := fun hkq => hn (hkq ▸ hh)
      exact h.w k (by omega) hn
    have hrank := hh.rank
    by_cases h255 : (t.f (128 * q)).toNat = 255
    · rw [if_pos h255]
      rw [if_pos h255] at hrank
      refine ⟨_, rfl, fl, hb, ?_, ?_, ?_, f0, hw⟩
      · show s.rank + 1024 = _; rw [h.rank, hrank]
      · show s.rc + 2 = _; rw [h.rc]; omega
      · show s.bc = _; rw [h.bc, hne]
    · rw [if_neg h255]
      rw [if_neg h255] at hrank
      refine ⟨_, rfl, fl, hb, ?_, ?_, ?_, f0, hw⟩
      · show s.rank = _; rw [h.rank, hrank]; rfl
      · show s.rc + 2 = _; rw [h.rc]; omega
      · show s.bc = _; rw [h.bc, hne]
  · simp only [hh, decide_false, Bool.false_eq_true, if_false]
    have hne : neM t (q + 1) = neM t q + 1 := by rw [neM_succ, if_neg hh]
    have hmono := neM_mono t (show q + 1 ≤ nblkM t by omega)
    obtain ⟨s', e', i'⟩ := forN_inv (body := passByteM t (128 * q))
      (ByteInvM t q (128 * neM t q) { s with ranks := r', rc := s.rc + 2 }) 128 { s with ranks := r', rc := s.rc + 2 }
      ⟨rfl, rfl, rfl, h.bc, by show s.rank = _; rw [h.rank, show 8 * (128 * q + 0) = 1024 * q by omega],
        by intro k hk; omega, fun _ _ => rfl⟩
      (by
        intro j s' hj hi
        exact passByteM_ok hj (by show _ ≤ s.bits.len; rw [hb]; omega) hi)
    rw [e']
    refine ⟨s', rfl, ?_, ?_, ?_, ?_, ?_, ?_, ?_⟩
    · rw [i'.ranks]; exact fl
    · rw [i'.len]; exact hb
    · rw [i'.rank, show 8 * (128 * q + 128) = 1024 * (q + 1) by omega]
    · rw [i'.rc]; show s.rc + 2 = _; rw [h.rc]; omega
    · rw [i'.bc, hne]; omega
    · rw [i'.ranks]; exact f0
    · intro k hk hn j hj
      by_cases hkq : k = q
      · subst hkq; exact i'.new j hj
      · have hlt := neM_lt hn (show k < q by omega)
        rw [i'.rest _ (by omega)]
        exact h.w k (by omega) hn j hj

theorem tmpLenM_eq (t : Vec Byte) : tmpLenM t = 32 * (nblkM t / 16 + 1) := by
  unfold tmpLenM; simp only []; split <;> omega

/-- Rank in front of block `k`; 0 beyond the text. -/
def tvM (t : Vec Byte) (k : Nat) : Nat := if k ≤ nblkM t then T t (1024 * k) else 0

/-- What the pass leaves; `v k` is the rank in front of block `k`. -/
structure PassOKM (t : Vec Byte) (v : Nat → Nat) (s : PassM) : Prop where
  rlen : s.ranks.len = tmpLenM t
  even : ∀ k, 2 * k < tmpLenM t → s.ranks.f (2 * k) = some (v k)
  blen : s.bits.len = 128 * neM t (nblkM t)
  w : ∀ k, k < nblkM t → ¬ HomM t k → ∀ j, j < 128 → s.bits.f (128 * neM t k + j) = some (blk t k j)

theorem passM_ok {e : Vec (Option Bool)} (he : EmptyM t e) :
    ∃ s, passM t e (neM t (nblkM t)) = ok s ∧ PassOKM t (tvM t) s := by
  have hl := tmpLenM_eq t
  unfold passM
  obtain ⟨s, e1, i⟩ := forN_inv (body := passBlockM t e) (PassInvM t (tmpLenM t) (neM t (nblkM t) * 128)) (nblkM t)
    ⟨fresh (tmpLenM t), fresh (neM t (nblkM t) * 128), 0, 0, 0⟩
    ⟨rfl, rfl, (T_zero t).symm, rfl, rfl, by intro k hk; omega, by intro k hk; omega⟩
    (fun q s hq hi => passBlockM_ok he (by omega) (by omega) hq hi)
  have hrl := i.rlen
  have hrc := i.rc
  rw [e1, ok_bind, Vec.set_ok _ (by rw [hrl, hrc]; omega), ok_bind, Vec.set_ok _ (by
    show s.rc + 1 < s.ranks.len
    omega), ok_bind]
  simp only []
  obtain ⟨r, e2, h1, h2, h3⟩ := forFrom_inv (body := fun x (r : Vec (Option Nat)) => r.set x (some 0))
    (fun x r => r.len = tmpLenM t ∧ (∀ y, y < 2 * nblkM t + 1 → r.f y =
        if y = s.rc then some s.rank else s.ranks.f y) ∧
      ∀ y, 2 * nblkM t + 1 ≤ y → y < x → r.f y = some 0) (tmpLenM t - (s.rc + 2)) (s.rc + 2)
    ⟨s.ranks.len, fun j => if j = s.rc + 1 then some 0 else if j = s.rc then some s.rank else s.ranks.f j⟩
    ⟨hrl, by
      intro y hy
      show (if y = s.rc + 1 then _ else _) = _
      rw [if_neg (by omega)], by
      intro y h1 h2
      show (if y = s.rc + 1 then _ else _) = _
      rw [if_pos (by omega)]⟩
    (by
      intro x r h1 h2 ⟨a, b, c⟩
      rw [Vec.set_ok _ (by omega)]
      refine ⟨_, rfl, a, ?_, ?_⟩
      · intro y hy
        show (if y = x then _ else _) = _
        rw [if_neg (by omega), b y hy]
      · intro y hy hyx
        show (if y = x then _ else _) = _
        by_cases hye : y = x
        · rw [if_pos hye]
        · rw [if_neg hye, c y hy (by omega)])
  rw [e2, ok_bind]
  rw [show s.rc + 2 + (tmpLenM t - (s.rc + 2)) = tmpLenM t by omega] at h3
  refine ⟨_, rfl, h1, ?_, ?_, i.w⟩
  · intro k hk
    show r.f _ = _
    unfold tvM
    split
    · rw [h2 _ (by omega)]
      by_cases hkn : k = nblkM t
      · rw [if_pos (by omega), i.rank, hkn]
      · rw [if_neg (by omega), i.r0 k (by omega)]
    · exact h3 _ (by omega) hk
  · show s.bits.len = _; rw [i.blen]; omega

/-! ## The plan -/

theorem zp_iff (c : Nat → Byte) (p : Nat) : (c (2 * p) = 0#8 ∧ c (2 * p + 1) = 0#8) ↔ zp c p = true := by
  unfold zp; rw [Bool.and_eq_true, beq_iff_eq, beq_iff_eq]

theorem fp_iff (c : Nat → Byte) (p : Nat) : (c (2 * p) = 255#8 ∧ c (2 * p + 1) = 255#8) ↔ fp c p = true := by
  unfold fp; rw [Bool.and_eq_true, beq_iff_eq, beq_iff_eq]

theorem not_zf (c : Nat → Byte) (p : Nat) : ¬ (zp c p = true ∧ fp c p = true) := by
  rw [← zp_iff, ← fp_iff]
  intro h
  exact absurd (h.1.1.symm.trans h.2.1) (by decide)

theorem countPairs_ok {tmp : Vec (Option Byte)} {off : Nat} {c : Nat → Byte} (hl : off + 128 ≤ tmp.len)
    (h : ∀ j, j < 128 → tmp.f (off + j) = some (c j)) :
    countPairs tmp off = ok (zc c 64, fc c 64, zc c 64 + fc c 64) := by
  unfold countPairs
  obtain ⟨x, e, hx⟩ := forN_inv (body := fun p (x : Nat × Nat × Nat) => do
      let a ← uget tmp (off + 2 * p)
      let b ← uget tmp (off + 2 * p + 1)
      let z := a = 0#8 ∧ b = 0#8
      let f := a = 255#8 ∧ b = 255#8
      ok (x.1 + (if z then 1 else 0), x.2.1 + (if f then 1 else 0), x.2.2 + (if z ∨ f then 1 else 0)))
    (fun p x => x = (zc c p, fc c p, zc c p + fc c p)) 64 (0, 0, 0) rfl
    (by
      intro p x hp hx
      rw [uget_ok (by omega) (h (2 * p) (by omega)), ok_bind, Nat.add_assoc,
        uget_ok (by omega) (h (2 * p + 1) (by omega)), ok_bind]
      refine ⟨_, rfl, ?_⟩
      rw [hx]
      have hz : zc c (p + 1) = zc c p + if zp c p then 1 else 0 := rfl
      have hf : fc c (p + 1) = fc c p + if fp c p then 1 else 0 := rfl
      rw [hz, hf]
      simp only [zp_iff, fp_iff]
      have := not_zf c p
      cases h1 : zp c p <;> cases h2 : fp c p
      · simp
      · simp; omega
      · simp; omega
      · exact absurd ⟨h1, h2⟩ this)
  rw [e, hx]

/-- State of the plan before block `q`; `L` is the length of the array of flags. -/
structure PlanInv (ty : MpeType) (t : Vec Byte) (g : Option (Nat → Byte)) (L q : Nat) (s : Plan) : Prop where
  len : s.flags.len = L
  ge : nblkM t ≤ L
  off : s.off = 128 * neM t q
  sum : 16 * s.c3 + 8 * s.c1 + 8 * s.c2 + 128 * neM t q = eo ty t q + 2 * s.pairs
  pairs : 2 * s.pairs ≤ 128 * neM t q
  old : ∀ k, k < q → s.flags.f k = some (if HomM t k then 0#8 else BitVec.ofNat 8 (kd ty t k))
  rest : ∀ k, q ≤ k → s.flags.f k = g.map fun f => f k

theorem planBlock_ok {e : Vec (Option Bool)} (he : EmptyM t e) {g : Option (Nat → Byte)} {L : Nat}
    {v : Nat → Nat} {sp : PassM} (hp : PassOKM t v sp) {q : Nat} {s : Plan} (hq : q < nblkM t)
    (h : PlanInv ty t g L q s) :
    ∃ s', planBlock ty e sp.bits q s = ok s' ∧ PlanInv ty t g L (q + 1) s' := by
  unfold planBlock
  have hl := h.len
  have hge := h.ge
  rw [Vec.set_ok _ (by omega), ok_bind]
  simp only []
  rw [he.get hq, ok_bind]
  have hsum := h.sum
  have hpairs := h.pairs
  have hoff := h.off
  by_cases hh : HomM t q
  · simp only [hh, decide_true, if_true]
    have hne : neM t (q + 1) = neM t q := by rw [neM_succ, if_pos hh]; rfl
    have heo : eo ty t (q + 1) = eo ty t q := by rw [eo_succ, if_pos hh]; rfl
    refine ⟨_, rfl, hl, hge, by rw [hne]; exact hoff, by rw [hne, heo]; exact hsum, by rw [hne]; exact hpairs, ?_, ?_⟩
    · intro k hk
      show (if k = q then _ else _) = _
      by_cases hkq : k = q
      · rw [if_pos hkq, hkq, if_pos hh]
      · rw [if_neg hkq, h.old k (by omega)]
    · intro k hk
      show (if k = q then _ else _) = _
      rw [if_neg (by omega), h.rest k (by omega)]
  · simp only [hh, decide_false, Bool.false_eq_true, if_false]
    have hne : neM t (q + 1) = neM t q + 1 := by rw [neM_succ, if_neg hh]
    have heo : eo ty t (q + 1) = eo ty t q + sl ty t q := by rw [eo_succ, if_neg hh]
    have hlt := neM_lt hh hq
    rw [countPairs_ok (c := blk t q) (by rw [hp.blen, hoff]; omega) (by
      intro j hj; rw [hoff]; exact hp.w q hq hh j hj), ok_bind]
    simp only []
    obtain ⟨k3, k1, k2⟩ := kp_counts (blk t q) 64
    have k0 := kp_zero (c := blk t q) 64
    have hsl : sl ty t q = hdM (kd ty t q) + 2 * kp (kd ty t q) (blk t q) 64 := rfl
    have hkl := kd_lt ty t q
    generalize hk : kindOf ty (zc (blk t q) 64) (fc (blk t q) 64) (zc (blk t q) 64 + fc (blk t q) 64) = k
    have hkd : kd ty t q = k := hk
    rw [hkd] at hsl hkl
    have olds : ∀ b : Byte, b = BitVec.ofNat 8 k → ∀ k', k' < q + 1 →
        (if k' = q then some b else if k' = q then some 0#8 else s.flags.f k') =
          some (if HomM t k' then 0#8 else BitVec.ofNat 8 (kd ty t k')) := by
      intro b hb k' hk'
      by_cases hkq : k' = q
      · rw [if_pos hkq, hkq, if_neg hh, hkd, hb]
      · rw [if_neg hkq, if_neg hkq, h.old k' (by omega)]
    have rests : ∀ b : Byte, ∀ k', q + 1 ≤ k' →
        (if k' = q then some b else if k' = q then some 0#8 else s.flags.f k') = g.map fun f => f k' := by
      intro b k' hk'
      rw [if_neg (by omega), if_neg (by omega), h.rest k' (by omega)]
    have hk4 : k = 0 ∨ k = 1 ∨ k = 2 ∨ k = 3 := by omega
    rcases hk4 with rfl | rfl | rfl | rfl
    · simp only []
      rw [ok_bind]
      rw [show hdM 0 = 0 from rfl] at hsl
      refine ⟨_, rfl, hl, hge, ?_, ?_, ?_, ?_, ?_⟩
      · show s.off + 128 = _; rw [hne]; omega
      · show 16 * s.c3 + 8 * s.c1 + 8 * s.c2 + _ = _ + 2 * s.pairs
        rw [hne, heo]; omega
      · show 2 * s.pairs ≤ _; rw [hne]; omega
      · intro k' hk'
        have := olds 0#8 rfl k' hk'
        show (if k' = q then _ else _) = _
        by_cases hkq : k' = q
        · rw [if_pos hkq] at this ⊢; exact this
        · rw [if_neg hkq, if_neg hkq] at this; rw [if_neg hkq]; exact this
      · intro k' hk'
        show (if k' = q then _ else _) = _
        rw [if_neg (by omega), h.rest k' (by omega)]
    · simp only []
      rw [Vec.set_ok _ (by show q < s.flags.len; omega), ok_bind, ok_bind]
      rw [show hdM 1 = 8 from rfl] at hsl
      refine ⟨_, rfl, hl, hge, ?_, ?_, ?_, olds 1#8 rfl, rests 1#8⟩
      · show s.off + 128 = _; rw [hne]; omega
      · show 16 * s.c3 + 8 * (s.c1 + 1) + 8 * s.c2 + _ = _ + 2 * (s.pairs + zc (blk t q) 64)
        rw [hne, heo]; omega
      · show 2 * (s.pairs + zc (blk t q) 64) ≤ _; rw [hne]; omega
    · simp only []
      rw [Vec.set_ok _ (by show q < s.flags.len; omega), ok_bind, ok_bind]
      rw [show hdM 2 = 8 from rfl] at hsl
      refine ⟨_, rfl, hl, hge, ?_, ?_, ?_, olds 2#8 rfl, rests 2#8⟩
      · show s.off + 128 = _; rw [hne]; omega
      · show 16 * s.c3 + 8 * s.c1 + 8 * (s.c2 + 1) + _ = _ + 2 * (s.pairs + fc (blk t q) 64)
        rw [hne, heo]; omega
      · show 2 * (s.pairs + fc (blk t q) 64) ≤ _; rw [hne]; omega
    · simp only []
      rw [Vec.set_ok _ (by show q < s.flags.len; omega), ok_bind, ok_bind]
      rw [show hdM 3 = 16 from rfl] at hsl
      have hn : (if ty = .mpe1 then zc (blk t q) 64 + fc (blk t q) 64 else zc (blk t q) 64 + fc (blk t q) 64) =
          zc (blk t q) 64 + fc (blk t q) 64 := by split <;> rfl
      rw [hn]
      refine ⟨_, rfl, hl, hge, ?_, ?_, ?_, olds 3#8 rfl, rests 3#8⟩
      · show s.off + 128 = _; rw [hne]; omega
      · show 16 * (s.c3 + 1) + 8 * s.c1 + 8 * s.c2 + _ = _ + 2 * (s.pairs + (zc (blk t q) 64 + fc (blk t q) 64))
        rw [hne, heo]; omega
      · show 2 * (s.pairs + (zc (blk t q) 64 + fc (blk t q) 64)) ≤ _; rw [hne]; omega

/-- What the plan leaves. -/
structure PlanOK (ty : MpeType) (t : Vec Byte) (g : Option (Nat → Byte)) (L : Nat) (s : Plan) : Prop where
  len : s.flags.len = L
  ge : nblkM t ≤ L
  val : ∀ k, k < nblkM t → s.flags.f k = some (if HomM t k then 0#8 else BitVec.ofNat 8 (kd ty t k))
  last : ∀ k, nblkM t ≤ k → s.flags.f k = g.map fun f => f k

theorem planBlocks_ok (ty : MpeType) {e : Vec (Option Bool)} (he : EmptyM t e) (g : Option (Nat → Byte)) {L : Nat}
    (hL : nblkM t ≤ L) {v : Nat → Nat} {sp : PassM} (hp : PassOKM t v sp) :
    ∃ s, forN (nblkM t) (planBlock ty e sp.bits) ⟨memory g L, 0, 0, 0, 0, 0⟩ = ok s ∧ PlanOK ty t g L s ∧
      PlanInv ty t g L (nblkM t) s := by
  obtain ⟨s, e1, i⟩ := forN_inv (body := planBlock ty e sp.bits) (PlanInv ty t g L) (nblkM t)
    ⟨memory g L, 0, 0, 0, 0, 0⟩
    ⟨rfl, hL, rfl, rfl, Nat.le_refl _, by intro k hk; omega, fun _ _ => rfl⟩
    (fun q s hq hi => planBlock_ok he hp hq hi)
  exact ⟨s, e1, ⟨i.len, i.ge, i.old, i.rest⟩, i⟩

theorem plan_ok (ty : MpeType) {e : Vec (Option Bool)} (he : EmptyM t e) (g : Option (Nat → Byte)) {v : Nat → Nat}
    {sp : PassM} (hp : PassOKM t v sp) (hlen : t.len < 2 ^ 60) :
    ∃ s, plan ty g t e sp.bits = ok s ∧ PlanOK ty t g (nblkM t + 1) s ∧
      bitsLenM (neM t (nblkM t)) s = eo ty t (nblkM t) + 8 := by
  obtain ⟨s, e1, h, i⟩ := planBlocks_ok ty he g (L := nblkM t + 1) (by omega) hp
  refine ⟨s, e1, h, ?_⟩
  have h1 := i.sum
  have h2 := i.pairs
  have h3 := neM_le t (nblkM t)
  have h4 := nblkM_le t
  unfold bitsLenM
  rw [sub64_eq (by omega) (by simp only [W64]; omega)]
  omega

end MRS.Mran
