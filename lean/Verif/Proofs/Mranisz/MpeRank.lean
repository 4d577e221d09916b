import Verif.Proofs.Mranisz.MpeQuery

/-! # Compressed rank with pairs left out: `rank` -/

set_option autoImplicit false

namespace MRS.Mran
open Outcome Spec Poppy

variable {ty : MpeType} {t : Vec Byte} {f : Nat → Byte} {g g' : Junk} {aB aR : Nat} {x : Mpe}

/-! ## What is written -/

theorem kept_cover {k : Nat} {c : Nat → Byte} : ∀ n m, m < kp k c n → ∃ p, p < n ∧ dp k c p = false ∧ kp k c p = m := by
  intro n
  induction n with
  | zero => intro m h; exact absurd h (Nat.not_lt_zero _)
  | succ n ih =>
    intro m h
    by_cases hm : m < kp k c n
    · obtain ⟨p, h1, h2⟩ := ih m hm
      exact ⟨p, by omega, h2⟩
    · rw [kp_succ] at h
      cases hd' : dp k c n
      · rw [hd', if_neg (by simp)] at h
        exact ⟨n, by omega, hd', by omega⟩
      · rw [hd', if_pos rfl] at h
        omega

theorem StoredAt.all {k : Nat} {c : Nat → Byte} {o : Nat} {out : Vec (Option Byte)} (h : StoredAt k c o out) (hk : k < 4) {y : Nat}
    (hy : y < hdM k + 2 * kp k c 64) : ∃ b, out.f (o + y) = some b := by
  by_cases h1 : hdM k ≤ y
  · obtain ⟨p, p1, p2, p3⟩ := kept_cover 64 ((y - hdM k) / 2) (show (y - hdM k) / 2 < kp k c 64 by omega)
    have := h.kept.kept p p1 p2 ((y - hdM k) % 2) (by omega)
    rw [p3, show o + hdM k + 2 * ((y - hdM k) / 2) + (y - hdM k) % 2 = o + y by omega] at this
    exact ⟨_, this⟩
  · have hk4 : k = 0 ∨ (k = 1 ∨ k = 2) ∨ k = 3 := by omega
    rcases hk4 with hk | hk | hk
    · rw [hk, show hdM 0 = 0 from rfl] at h1; omega
    · have : hdM k = 8 := by rcases hk with rfl | rfl <;> rfl
      exact ⟨_, h.h1 (by omega) y (by omega)⟩
    · have : hdM k = 16 := by rw [hk]; rfl
      by_cases h8 : y < 8
      · exact ⟨_, h.h1 (by omega) y h8⟩
      · have := h.h2 hk (y - 8) (by omega)
        rw [show o + 8 + (y - 8) = o + y by omega] at this
        exact ⟨_, this⟩

theorem block_ofM {ty : MpeType} {t : Vec Byte} : ∀ n y, y < eo ty t n →
    ∃ q, q < n ∧ ¬ HomM t q ∧ eo ty t q ≤ y ∧ y < eo ty t q + sl ty t q := by
  intro n
  induction n with
  | zero => intro y h; exact absurd h (Nat.not_lt_zero _)
  | succ n ih =>
    intro y h
    by_cases hy : y < eo ty t n
    · obtain ⟨q, h1, h2⟩ := ih y hy
      exact ⟨q, by omega, h2⟩
    · rw [eo_succ] at h
      by_cases hh : HomM t n
      · rw [if_pos hh] at h; omega
      · rw [if_neg hh] at h
        exact ⟨n, by omega, hh, by omega, h⟩

theorem MpeOK.below (hx : MpeOK ty t f g g' aB aR x) {y : Nat} (hy : y < eo ty t (nblkM t)) : ∃ b, x.bits.f y = some b := by
  obtain ⟨q, h1, h2, h3, h4⟩ := block_ofM _ y hy
  obtain ⟨b, hb⟩ := (hx.st q h1 h2).all (kd_lt ty t q) (y := y - eo ty t q) (by unfold sl at h4; omega)
  rw [show eo ty t q + (y - eo ty t q) = y by omega] at hb
  exact ⟨b, hb⟩

/-- Where the bytes end that a query at `i` reads. -/
def readM (ty : MpeType) (t : Vec Byte) (i : Nat) : Nat :=
  eo ty t (i / 1024) + hdM (kd ty t (i / 1024)) + 8 * (posM (kd ty t (i / 1024)) (blk t (i / 1024)) (i % 1024) / 64) + 8

theorem posM_max (k : Nat) (c : Nat → Byte) {i : Nat} (hi : i < 1024) : posM k c i ≤ 16 * kp k c 64 := by
  have := kp_mono k c (show i / 16 ≤ 64 by omega)
  unfold posM
  cases h : dp k c (i / 16)
  · have := kp_lt h (show i / 16 < 64 by omega)
    rw [if_neg (by simp)]; omega
  · rw [if_pos rfl]; omega

theorem readM_le {i : Nat} (hh : ¬ HomM t (i / 1024)) : readM ty t i ≤ eo ty t (i / 1024 + 1) + 8 := by
  have h1 := posM_max (kd ty t (i / 1024)) (blk t (i / 1024)) (show i % 1024 < 1024 by omega)
  rw [eo_succ, if_neg hh]
  unfold readM sl
  omega

theorem readM_plain {i : Nat} (hh : ¬ HomM t (i / 1024)) (hk : kd ty t (i / 1024) = 0) :
    readM ty t i ≤ eo ty t (i / 1024 + 1) := by
  have h1 := posM_le 0 (blk t (i / 1024)) (i % 1024)
  rw [eo_succ, if_neg hh]
  unfold readM sl
  rw [hk, kp_zero, show hdM 0 = 0 from rfl]
  omega

/-! ## The ranks of a query -/

theorem rank_first (hx : MpeOK ty t f g g' aB aR x) (hlen : t.len < 2 ^ 60) {st : Nat} (hq : st ≤ nblkM t)
    {b : Vec Nat} (hb : BucketM ty t f (16 * (st / 16)) b)
    (hf : ∀ j, j < 10 → x.ranks.f (10 * (st / 16) + j) = some (b.f j)) :
    (if st % 16 > 0 then do ok (tvM t (16 * (st / 16)) + (← slot1 x.ranks (10 * (st / 16)) (st % 16)))
      else ok (tvM t (16 * (st / 16)))) = ok (T t (1024 * st)) := by
  have hrl := hx.rlen
  have hst : 16 * (st / 16) + st % 16 = st := by omega
  have hn : st % 16 < 16 := Nat.mod_lt _ (by decide)
  have hS' : st / 16 ≤ nblkM t / 16 := by omega
  generalize hS : st / 16 = S at *
  generalize hN : st % 16 = n at *
  have hb0 : tvM t (16 * S) = T t (1024 * (16 * S)) := if_pos (by omega)
  by_cases h0 : n > 0
  · rw [if_pos h0]
    have fd := fieldM hb hlen (j := n - 1) (by omega) (by omega)
    rw [show (n - 1) / 4 + 1 = (n + 3) / 4 by omega, show (n - 1) % 4 = (n + 3) % 4 by omega] at fd
    rw [slot1_eq (by omega) (hf _ (by omega)) fd.1, ok_bind, fd.2,
      Nat.mod_eq_of_lt (dvM_lt hlen (by omega) (by omega)), dvM_eq hlen (by omega), hb0,
      show 16 * S + (n - 1) + 1 = st by omega]
    have := T_mono t (show 1024 * (16 * S) ≤ 1024 * st by omega)
    congr 1; omega
  · rw [if_neg h0, hb0, show 16 * S = st by omega]

/-- The reading of a block, after the ranks. -/
def tailM (ty : MpeType) (strict : Bool) (x : Mpe) (st i rank : Nat) : Outcome Nat := do
  let (off, kind) ← (if ty = .mpe1 then place1 x.ranks (10 * (st / 16)) (st % 16)
    else place2 x.ranks (10 * (st / 16)) (st % 16))
  let (off, rank, i) ← unpack strict x.bits kind off rank i
  inBytes strict x.bits off rank i

theorem rankMpe_pre (hx : MpeOK ty t f g g' aB aR x) (hlen : t.len < 2 ^ 60) (strict : Bool) {i : Nat}
    (hi : i < 1024 * nblkM t) :
    rankMpe ty strict x i =
      (if sub64 (T t (1024 * (i / 1024 + 1))) (T t (1024 * (i / 1024))) &&& 1023 = 0 then
        ok (T t (1024 * (i / 1024)) + i % 1024 * (sub64 (T t (1024 * (i / 1024 + 1))) (T t (1024 * (i / 1024))) >>> 10))
      else tailM ty strict x (i / 1024) (i % 1024) (T t (1024 * (i / 1024)))) := by
  have hq : i / 1024 < nblkM t := by omega
  have hrl := hx.rlen
  unfold rankMpe tailM
  simp only []
  generalize hs : i / 1024 = st at *
  obtain ⟨b, hb, hf⟩ := hx.sup (st / 16) (by omega)
  have hS' : st / 16 ≤ nblkM t / 16 := by omega
  have h1 := rank_first hx hlen (by omega) hb hf
  rw [uget_ok (a := b.f 0) (i := 10 * (st / 16)) (by omega) (hf 0 (by omega)), ok_bind, hb.b0, h1, ok_bind]
  have hst : 16 * (st / 16) + st % 16 = st := by omega
  have hn : st % 16 < 16 := Nat.mod_lt _ (by decide)
  have hb0 : tvM t (16 * (st / 16)) = T t (1024 * (16 * (st / 16))) := if_pos (by omega)
  have h2 : (if st % 16 = 15 then uget x.ranks (10 * (st / 16) + 10) else do
      ok (tvM t (16 * (st / 16)) + (← slot2 x.ranks (10 * (st / 16)) (st % 16)))) = ok (T t (1024 * (st + 1))) := by
    generalize hS : st / 16 = S at *
    generalize hN : st % 16 = n at *
    by_cases h0 : n = 15
    · rw [if_pos h0]
      obtain ⟨b', hb', hf'⟩ := hx.sup (S + 1) (by omega)
      rw [show 10 * S + 10 = 10 * (S + 1) + 0 by omega, uget_ok (by omega) (hf' 0 (by omega)), hb'.b0]
      unfold tvM
      rw [if_pos (by omega), show 16 * (S + 1) = st + 1 by omega]
    · rw [if_neg h0]
      have fd := fieldM hb hlen (j := n) (by omega) (by omega)
      rw [slot2_eq (by omega) (hf _ (by omega)) fd.1, ok_bind, fd.2,
        Nat.mod_eq_of_lt (dvM_lt hlen (by omega) (by omega)), dvM_eq hlen (by omega), hb0, hst]
      have := T_mono t (show 1024 * (16 * S) ≤ 1024 * (st + 1) by omega)
      congr 1; omega
  rw [h2, ok_bind]

theorem tailM_stored (hx : MpeOK ty t f g g' aB aR x) (hlen : t.len < 2 ^ 60) (strict : Bool) {st i rank : Nat}
    (hq : st < nblkM t) (hh : ¬ HomM t st) :
    tailM ty strict x st i rank = (do
      let (off, rank, i) ← unpack strict x.bits (kd ty t st) (eo ty t st) rank i
      inBytes strict x.bits off rank i) := by
  have hrl := hx.rlen
  obtain ⟨b, hb, hf⟩ := hx.sup (st / 16) (by omega)
  have hS' : st / 16 ≤ nblkM t / 16 := by omega
  obtain ⟨k, k1, k2, k3⟩ := placeM hb hf (by omega) hlen (by omega)
  unfold tailM
  rw [k3, ok_bind, k2 hq hh]
  have : oM ty t st = eo ty t st := by unfold oM; rw [show min st (nblkM t - 1) = st by omega]
  rw [this]

/-! ## Right answers -/

theorem rankMpe_ok (hx : MpeOK ty t f g g' aB aR x) (hlen : t.len < 2 ^ 60) {strict : Bool} {i : Nat}
    (hi : i < 1024 * nblkM t) (hs : strict = false ∨ eo ty t (i / 1024) % 8 = 0)
    (hr : readM ty t i ≤ eo ty t (nblkM t) ∨ ∃ h, g.bits = some h) : rankMpe ty strict x i = ok (T t i) := by
  have hq : i / 1024 < nblkM t := by omega
  rw [rankMpe_pre hx hlen strict hi]
  rw [coreM hlen hq (show i % 1024 < 1024 by omega)]
  · congr 2; omega
  · intro hh
    rw [tailM_stored hx hlen strict hq hh]
    have hrd := readM_le (ty := ty) hh
    have hmono := eo_mono ty t (show i / 1024 + 1 ≤ nblkM t by omega)
    have hbl := hx.blen
    refine stored_ok (kd_lt ty t _) hs (hx.st _ hq hh) (by omega) ?_ ?_ rfl
    · unfold readM at hrd; omega
    · intro y hy1 hy2
      by_cases hyl : y < eo ty t (nblkM t)
      · exact hx.below hyl
      · have : ¬ readM ty t i ≤ eo ty t (nblkM t) := by unfold readM; omega
        obtain ⟨h, hg⟩ := hr.resolve_left this
        rw [hx.rest y (by omega) (by unfold readM at hrd; omega), hg]
        exact ⟨_, rfl⟩

/-! ## Undefined answers -/

theorem load8_uninit {strict : Bool} {bits : Vec (Option Byte)} {o : Nat} (hs : strict = false ∨ o % 8 = 0)
    (hl : o + 8 ≤ bits.len) {k : Nat} (hk : k < 8) (h : bits.f (o + k) = none) : load8 strict bits o = ub .uninit := by
  unfold load8
  have hc : (strict && o % 8 != 0) = false := by
    rcases hs with h | h
    · rw [h, Bool.false_and]
    · rw [h]; simp
  rw [hc, if_neg (by simp)]
  unfold forN
  have hun : ∀ k, k < 8 → bits.f (o + k) = none → uget bits (o + k) = ub .uninit := by
    intro k hk h
    unfold uget
    rw [Vec.get_ok (by omega), h]
    rfl
  apply Hft.forFrom_ub (fun _ : Word => True) (i0 := k) 8 0 0#64 trivial (by omega) (by omega)
  · intro j w _ hj _
    cases hb : bits.f (o + j) with
    | none => left; rw [hun j (by omega) hb]; rfl
    | some b => right; rw [uget_ok (by omega) hb, ok_bind]; exact ⟨_, rfl, trivial⟩
  · intro w _
    rw [hun k hk h]
    rfl

/-- The bytes after the last block are read without being written. -/
theorem rankMpe_uninit (hx : MpeOK ty t f g g' aB aR x) (hlen : t.len < 2 ^ 60) {strict : Bool} {i : Nat}
    (hi : i < 1024 * nblkM t) (hs : strict = false ∨ eo ty t (i / 1024) % 8 = 0) (hg : g.bits = none)
    (hc : (T t (1024 * (i / 1024 + 1)) - T t (1024 * (i / 1024))) % 1024 ≠ 0)
    (hr : eo ty t (nblkM t) < readM ty t i) : rankMpe ty strict x i = ub .uninit := by
  have hq : i / 1024 < nblkM t := by omega
  have hh : ¬ HomM t (i / 1024) := fun h => hc (by
    have := h.count
    rw [show 1024 * (i / 1024) + 1024 = 1024 * (i / 1024 + 1) by omega] at this
    exact this)
  rw [rankMpe_pre hx hlen strict hi]
  have h1 := T_le t (1024 * (i / 1024 + 1))
  have h2 := nblkM_le t
  rw [sub64_eq (T_mono t (by omega)) (by simp only [W64]; omega), show (1023 : Nat) = 2 ^ 10 - 1 by rfl,
    Nat.and_two_pow_sub_one_eq_mod, if_neg hc, tailM_stored hx hlen strict hq hh]
  have hrd := readM_le (ty := ty) hh
  have hmono := eo_mono ty t (show i / 1024 + 1 ≤ nblkM t by omega)
  have hbl := hx.blen
  have hst := hx.st _ hq hh
  have hsl : eo ty t (i / 1024 + 1) = eo ty t (i / 1024) + sl ty t (i / 1024) := by rw [eo_succ, if_neg hh]
  have hpm := posM_max (kd ty t (i / 1024)) (blk t (i / 1024)) (show i % 1024 < 1024 by omega)
  have hple := posM_le (kd ty t (i / 1024)) (blk t (i / 1024)) (i % 1024)
  unfold sl at hsl
  unfold readM at hr hrd
  have hhd : hdM (kd ty t (i / 1024)) % 8 = 0 := by unfold hdM; (repeat' split) <;> omega
  rw [unpack_ok (kd_lt ty t _) hs (by omega) hst (by omega), ok_bind]
  simp only []
  unfold inBytes
  rw [if_pos (by omega)]
  simp only []
  have hloads : ∀ k, k < posM (kd ty t (i / 1024)) (blk t (i / 1024)) (i % 1024) / 64 →
      ∃ w, load8 strict x.bits (eo ty t (i / 1024) + hdM (kd ty t (i / 1024)) + 8 * k) = ok w := by
    intro k hk
    refine ⟨_, load8_ok (b := fun z => (x.bits.f (eo ty t (i / 1024) + hdM (kd ty t (i / 1024)) + 8 * k + z)).getD 0#8)
      (hs.imp_right (fun h => by omega)) (by omega) (fun z hz => ?_)⟩
    obtain ⟨b, hb⟩ := hx.below (y := eo ty t (i / 1024) + hdM (kd ty t (i / 1024)) + 8 * k + z) (by omega)
    rw [hb]
    rfl
  obtain ⟨r, e, -⟩ := forN_inv (body := fun k r => do
      let w ← load8 strict x.bits (eo ty t (i / 1024) + hdM (kd ty t (i / 1024)) + 8 * k)
      ok (r + popcnt w)) (fun _ _ => True) (posM (kd ty t (i / 1024)) (blk t (i / 1024)) (i % 1024) / 64)
    (T t (1024 * (i / 1024)) + 16 * df (kd ty t (i / 1024)) (blk t (i / 1024)) (i % 1024 / 16) +
      if (dp (kd ty t (i / 1024)) (blk t (i / 1024)) (i % 1024 / 16) && fp (blk t (i / 1024)) (i % 1024 / 16)) = true
        then i % 1024 % 16 else 0) trivial
    (by
      intro k r hk _
      obtain ⟨w, hw⟩ := hloads k hk
      rw [hw, ok_bind]
      exact ⟨_, rfl, trivial⟩)
  rw [e, ok_bind]
  rw [load8_uninit (hs.imp_right (fun h => by omega)) (by omega) (k := 7) (by omega)
    (by rw [hx.rest _ (by omega) (by omega), hg]; rfl)]
  rfl

/-- A machine that wants aligned words stops at a block that does not start at a multiple of 8. -/
theorem rankMpe_mis (hx : MpeOK ty t f g g' aB aR x) (hlen : t.len < 2 ^ 60) {i : Nat}
    (hi : i < 1024 * nblkM t) (hs : eo ty t (i / 1024) % 8 ≠ 0)
    (hc : (T t (1024 * (i / 1024 + 1)) - T t (1024 * (i / 1024))) % 1024 ≠ 0) :
    rankMpe ty true x i = ub .misaligned := by
  have hq : i / 1024 < nblkM t := by omega
  have hh : ¬ HomM t (i / 1024) := fun h => hc (by
    have := h.count
    rw [show 1024 * (i / 1024) + 1024 = 1024 * (i / 1024 + 1) by omega] at this
    exact this)
  rw [rankMpe_pre hx hlen true hi]
  have h1 := T_le t (1024 * (i / 1024 + 1))
  have h2 := nblkM_le t
  rw [sub64_eq (T_mono t (by omega)) (by simp only [W64]; omega), show (1023 : Nat) = 2 ^ 10 - 1 by rfl,
    Nat.and_two_pow_sub_one_eq_mod, if_neg hc, tailM_stored hx hlen true hq hh]
  have hns : ¬ (true = false ∨ eo ty t (i / 1024) % 8 = 0) := by
    rintro (h | h)
    · cases h
    · exact hs h
  have hm := load8_mis (strict := true) (bits := x.bits) hns
  have hkl := kd_lt ty t (i / 1024)
  generalize kd ty t (i / 1024) = k at *
  have hk4 : k = 0 ∨ k = 1 ∨ k = 2 ∨ k = 3 := by omega
  rcases hk4 with rfl | rfl | rfl | rfl
  · show inBytes true x.bits (eo ty t (i / 1024)) _ _ = _
    unfold inBytes
    simp only []
    generalize (if i % 1024 / 64 < 16 then i % 1024 / 64 else 0) = n
    cases n with
    | zero =>
      show (do let w ← load8 true x.bits (_ + 8 * 0); _) = _
      rw [Nat.mul_zero, Nat.add_zero, hm]
      rfl
    | succ n =>
      unfold forN forFrom
      simp only [Nat.mul_zero, Nat.add_zero, hm]
      rfl
  · unfold unpack; simp only []; rw [hm]; rfl
  · unfold unpack; simp only []; rw [hm]; rfl
  · unfold unpack; simp only []; rw [hm]; rfl

/-! ## The query at the padded end -/

theorem unpack_start {strict : Bool} {bits : Vec (Option Byte)} {k o R : Nat} (hk : k < 4)
    (hs : strict = false ∨ o % 8 = 0) (hl : o + 16 ≤ bits.len) (h : ∀ y, ∃ b, bits.f y = some b) :
    unpack strict bits k o R 0 = ok (o + hdM k, R, 0) := by
  have hld : ∀ o, (strict = false ∨ o % 8 = 0) → o + 8 ≤ bits.len → ∃ w, load8 strict bits o = ok w := by
    intro o hs hl
    refine ⟨_, load8_ok (b := fun z => (bits.f (o + z)).getD 0#8) hs hl (fun z _ => ?_)⟩
    obtain ⟨b, hb⟩ := h (o + z)
    rw [hb]
    rfl
  obtain ⟨w1, e1⟩ := hld o hs (by omega)
  obtain ⟨w2, e2⟩ := hld (o + 8) (hs.imp_right (fun h => by omega)) (by omega)
  have hp : ∀ w : Word, popcnt (w &&& BitVec.allOnes 64 <<< (64 - 0)) = 0 := by
    intro w
    rw [popcnt_mask w (by decide)]
    rfl
  have m2 : mask2At (0 / 16) = ok (BitVec.twoPow 64 (63 - 0)) := mask2At_ok (by decide)
  have m3 : mask3At (0 / 16) = ok (BitVec.allOnes 64 <<< (64 - 0)) := mask3At_ok (by decide)
  have hk4 : k = 0 ∨ k = 1 ∨ k = 2 ∨ k = 3 := by omega
  have hz : sub64 0 0 = 0 := by decide
  rcases hk4 with rfl | rfl | rfl | rfl
  · rfl
  · unfold unpack
    simp only []
    rw [e1, ok_bind, m2, ok_bind, m3, ok_bind, hp]
    simp only [Nat.zero_mod, hz, ite_self, Nat.mul_zero]
    rfl
  · unfold unpack
    simp only []
    rw [e1, ok_bind, m2, ok_bind, m3, ok_bind, hp]
    simp only [Nat.zero_mod, hz, ite_self, Nat.mul_zero, Nat.add_zero]
    rfl
  · unfold unpack
    simp only []
    rw [e1, ok_bind, e2, ok_bind, m2, ok_bind, m3, ok_bind, hp, hp]
    simp only [Nat.zero_mod, hz, ite_self, Nat.mul_zero, Nat.add_zero]
    rfl

theorem rankMpe_end (hx : MpeOK ty t f g g' aB aR x) (hlen : t.len < 2 ^ 60) (hN : 0 < nblkM t) {strict : Bool}
    (hs : strict = false ∨ eo ty t (nblkM t - 1) % 8 = 0) (haB : aB % 16 = 0) (haR : aR % 8 = 0)
    {hB : Nat → Byte} {hR : Nat → Nat} (hgB : g.bits = some hB)
    {hB' : Nat → Byte} (hgB' : g'.bits = some hB') (hgR : g'.ranks = some hR) :
    rankMpe ty strict x (1024 * nblkM t) = ok (T t (1024 * nblkM t)) := by
  have hrl := hx.rlen
  have hbl := hx.blen
  have hroom := room_pos haR
  have hroomB : 16 ≤ roomBytes aB := by unfold roomBytes; omega
  obtain ⟨b, hb, hf⟩ := hx.sup (nblkM t / 16) (by omega)
  have h1 := rank_first hx hlen (Nat.le_refl _) hb hf
  have hs' : 1024 * nblkM t / 1024 = nblkM t := by omega
  unfold rankMpe
  simp only [hs', Nat.mul_mod_right, Nat.zero_mul, Nat.add_zero]
  rw [uget_ok (a := b.f 0) (i := 10 * (nblkM t / 16)) (by omega) (hf 0 (by omega)), ok_bind, hb.b0, h1, ok_bind]
  have h2 : ∃ r, (if nblkM t % 16 = 15 then uget x.ranks (10 * (nblkM t / 16) + 10) else do
      ok (tvM t (16 * (nblkM t / 16)) + (← slot2 x.ranks (10 * (nblkM t / 16)) (nblkM t % 16)))) = ok r := by
    by_cases h0 : nblkM t % 16 = 15
    · rw [if_pos h0]
      exact ⟨_, uget_ok (by omega) (by rw [hx.rn _ (by omega), hgR]; rfl)⟩
    · rw [if_neg h0]
      have fd := fieldM hb hlen (j := nblkM t % 16) (by omega) (by omega)
      rw [slot2_eq (by omega) (hf _ (by omega)) fd.1, ok_bind]
      exact ⟨_, rfl⟩
  obtain ⟨r, h2⟩ := h2
  rw [h2, ok_bind]
  split
  · rfl
  · obtain ⟨k, k1, -, k3⟩ := placeM hb hf (by omega) hlen (Nat.le_refl _)
    rw [k3, ok_bind]
    simp only []
    have ho : oM ty t (nblkM t) = eo ty t (nblkM t - 1) := by
      unfold oM; rw [show min (nblkM t) (nblkM t - 1) = nblkM t - 1 by omega]
    rw [ho]
    have hall : ∀ y, ∃ b, x.bits.f y = some b := by
      intro y
      by_cases hy : y < eo ty t (nblkM t)
      · exact hx.below hy
      · by_cases hy' : y < eo ty t (nblkM t) + 8
        · rw [hx.rest y (by omega) hy', hgB]; exact ⟨_, rfl⟩
        · rw [hx.more y (by omega), hgB']; exact ⟨_, rfl⟩
    have hmono := eo_mono ty t (show nblkM t - 1 ≤ nblkM t by omega)
    have hhd : hdM k % 8 = 0 := by unfold hdM; (repeat' split) <;> omega
    have hhl := hd_le k
    rw [unpack_start k1 hs (by omega) hall, ok_bind]
    simp only []
    rw [inBytes_ok (u := ⟨8, fun z => (x.bits.f (eo ty t (nblkM t - 1) + hdM k + z)).getD 0#8⟩)
      (hs.imp_right (fun h => by omega)) (by omega) (by omega) (fun z hz => by
        obtain ⟨b, hb⟩ := hall (eo ty t (nblkM t - 1) + hdM k + z)
        unfold tbyte
        rw [if_pos (by show z < 8; omega), hb]
        show _ = some ((x.bits.f _).getD 0#8)
        rw [hb]
        rfl), T_zero, Nat.add_zero]

end MRS.Mran
