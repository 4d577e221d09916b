import Verif.Proofs.Mranisz.MpeEncode

/-! # Compressed rank with pairs left out: superblocks -/

set_option autoImplicit false

namespace MRS.Mran
open Outcome Spec Poppy

variable {ty : MpeType} {t : Vec Byte}

/-- What is read for `blockToCompress[k]`. -/
def fv (ty : MpeType) (t : Vec Byte) (f : Nat → Byte) (k : Nat) : Byte :=
  if k < nblkM t then (if HomM t k then 0#8 else BitVec.ofNat 8 (kd ty t k)) else f k

/-- Difference to the rank of the superblock that starts at block `i`. -/
def dvM (t : Vec Byte) (i j : Nat) : Nat := sub64 (tvM t (i + j + 1)) (tvM t i)

/-- Difference to the offset of the superblock, with the kind of the block. -/
def ovM (ty : MpeType) (t : Vec Byte) (f : Nat → Byte) (i j : Nat) : Nat :=
  add64 (sub64 (oM ty t (i + j + 1)) (oM ty t i)) (markOf ty (fv ty t f (i + j + 1)))

/-- What a superblock holds. -/
structure BucketM (ty : MpeType) (t : Vec Byte) (f : Nat → Byte) (i : Nat) (b : Vec Nat) : Prop where
  len : b.len = 10
  b0 : b.f 0 = tvM t i
  mid : ∀ m, m < 4 → b.f (m + 1) = acc (fun s => dvM t i (4 * m + s)) (min 4 (15 - 4 * m))
  off : b.f 5 = oM ty t i
  o1 : b.f 6 = add64 (acc (fun s => ovM ty t f i s) 4) (markFirst ty (fv ty t f i))
  offs : ∀ m, 0 < m → m < 4 → b.f (m + 6) = acc (fun s => ovM ty t f i (4 * m + s)) (min 4 (15 - 4 * m))

theorem flagAt_ok {g : Option (Nat → Byte)} {L : Nat} {pl : Plan} (hpl : PlanOK ty t g L pl) {f : Nat → Byte} {k : Nat}
    (h : k < nblkM t ∨ g = some f) : flagAt g pl.flags k = ok (fv ty t f k) := by
  unfold flagAt fv
  have hge := hpl.ge
  rw [hpl.len]
  by_cases hk : k < nblkM t
  · rw [if_pos (by omega), if_pos hk, uget_ok (by rw [hpl.len]; omega) (hpl.val k hk)]
  · have hg := h.resolve_left hk
    rw [if_neg hk]
    by_cases hk' : k < L
    · rw [if_pos hk']
      exact uget_ok (by rw [hpl.len]; omega) (by rw [hpl.last k (by omega), hg]; rfl)
    · rw [if_neg hk', hg]

theorem bucketM_mid {out0 : Vec (Option Byte)} {s : Enc} (hs : EncOK ty t (tvM t) out0 s) {i : Nat}
    (hi : 2 * (i + 16) ≤ tmpLenM t) :
    ∃ b : Vec Nat, (do
      let b : Vec Nat := ⟨10, fun _ => 0⟩
      let r ← uget s.ranks (2 * i)
      let b ← b.set 0 r
      let b ← forN 15 (fun j b => do
        let r ← uget s.ranks (2 * (i + j + 1))
        let b0 ← b.get 0
        let x ← b.get (j / 4 + 1)
        b.set (j / 4 + 1) (add64 x (shl64 (sub64 r b0) (16 * (j % 4))))) b
      let o ← uget s.ranks (2 * i + 1)
      b.set 5 o) = ok b ∧ b.len = 10 ∧ b.f 0 = tvM t i ∧
      (∀ m, m < 4 → b.f (m + 1) = acc (fun s => dvM t i (4 * m + s)) (min 4 (15 - 4 * m))) ∧
      b.f 5 = oM ty t i ∧ ∀ m, m < 4 → b.f (m + 6) = 0 := by
  have hl := hs.rlen
  simp only []
  rw [uget_ok (by omega) (hs.even i (by omega)), ok_bind, Vec.set_ok _ (by show 0 < 10; omega), ok_bind]
  obtain ⟨b, e, h1, h2, h3, h4⟩ := forN_inv (body := fun j (b : Vec Nat) => do
        let r ← uget s.ranks (2 * (i + j + 1))
        let b0 ← b.get 0
        let x ← b.get (j / 4 + 1)
        b.set (j / 4 + 1) (add64 x (shl64 (sub64 r b0) (16 * (j % 4)))))
    (fun j b => b.len = 10 ∧ b.f 0 = tvM t i ∧
      (∀ m, m < 4 → b.f (m + 1) = acc (fun s => dvM t i (4 * m + s)) (min 4 (j - 4 * m))) ∧
      ∀ m, m < 4 → b.f (m + 6) = 0) 15
    ⟨10, fun j => if j = 0 then tvM t i else 0⟩
    ⟨rfl, rfl, by
      intro m hm
      rw [show min 4 (0 - 4 * m) = 0 by omega]
      rfl, by
      intro m hm
      show (if m + 6 = 0 then tvM t i else 0) = 0
      rw [if_neg (by omega)]⟩
    (by
      intro j b hj ⟨a1, a2, a3, a4⟩
      rw [uget_ok (by omega) (hs.even (i + j + 1) (by omega)), ok_bind, Vec.get_ok (by omega), ok_bind,
        Vec.get_ok (by omega), ok_bind, Vec.set_ok _ (by omega)]
      refine ⟨_, rfl, a1, ?_, ?_, ?_⟩
      · have : (0 : Nat) ≠ j / 4 + 1 := by omega
        simp only [if_neg this, a2]
      · intro m hm
        show (if m + 1 = j / 4 + 1 then _ else _) = _
        by_cases hmj : m = j / 4
        · subst hmj
          rw [if_pos rfl, a3 _ hm, a2]
          rw [show min 4 (j - 4 * (j / 4)) = j % 4 by omega,
            show min 4 (j + 1 - 4 * (j / 4)) = j % 4 + 1 by omega]
          show add64 _ (shl64 (sub64 (tvM t (i + j + 1)) (tvM t i)) (16 * (j % 4))) =
            add64 _ (shl64 (dvM t i (4 * (j / 4) + j % 4)) (16 * (j % 4)))
          unfold dvM
          rw [show i + (4 * (j / 4) + j % 4) + 1 = i + j + 1 by omega]
        · rw [if_neg (by omega), a3 m hm]
          congr 1
          omega
      · intro m hm
        show (if m + 6 = j / 4 + 1 then _ else _) = _
        rw [if_neg (by omega), a4 m hm])
  rw [e, ok_bind, uget_ok (by omega) (hs.odd i (by omega)), ok_bind, Vec.set_ok _ (by omega)]
  refine ⟨_, rfl, h1, h2, ?_, rfl, ?_⟩
  · intro m hm
    show (if m + 1 = 5 then _ else _) = _
    rw [if_neg (by omega)]
    exact h3 m hm
  · intro m hm
    show (if m + 6 = 5 then oM ty t i else b.f (m + 6)) = 0
    rw [if_neg (by omega)]
    exact h4 m hm

theorem bucketM_split (ty : MpeType) (g : Option (Nat → Byte)) (tmp : Vec (Option Nat)) (fl : Vec (Option Byte))
    (i : Nat) : bucketM ty g tmp fl i = (do
      let b ← (do
        let b : Vec Nat := ⟨10, fun _ => 0⟩
        let r ← uget tmp (2 * i)
        let b ← b.set 0 r
        let b ← forN 15 (fun j b => do
          let r ← uget tmp (2 * (i + j + 1))
          let b0 ← b.get 0
          let x ← b.get (j / 4 + 1)
          b.set (j / 4 + 1) (add64 x (shl64 (sub64 r b0) (16 * (j % 4))))) b
        let o ← uget tmp (2 * i + 1)
        b.set 5 o)
      let b ← forN 15 (fun j b => do
        let o ← uget tmp (2 * (i + j + 1) + 1)
        let b5 ← b.get 5
        let f ← flagAt g fl (i + j + 1)
        let x ← b.get (5 + 1 + j / 4)
        b.set (5 + 1 + j / 4) (add64 x (shl64 (add64 (sub64 o b5) (markOf ty f)) (16 * (j % 4))))) b
      let f ← flagAt g fl i
      let x ← b.get (5 + 1)
      b.set (5 + 1) (add64 x (markFirst ty f))) := by
  unfold bucketM
  simp only [bind_assoc']

theorem bucketM_ok {out0 : Vec (Option Byte)} {s : Enc} (hs : EncOK ty t (tvM t) out0 s) {g : Option (Nat → Byte)} {pl : Plan}
    {L : Nat} (hpl : PlanOK ty t g L pl) {f : Nat → Byte} {i : Nat} (hi : 2 * (i + 16) ≤ tmpLenM t)
    (hb : i + 15 < nblkM t ∨ g = some f) :
    ∃ b, bucketM ty g s.ranks pl.flags i = ok b ∧ BucketM ty t f i b := by
  obtain ⟨b0, e0, l0, a0, m0, o0, f0⟩ := bucketM_mid hs hi
  have hl := hs.rlen
  rw [bucketM_split, e0, ok_bind]
  obtain ⟨b, e1, h1, h2, h3⟩ := forN_inv (body := fun j (b : Vec Nat) => do
        let o ← uget s.ranks (2 * (i + j + 1) + 1)
        let b5 ← b.get 5
        let f ← flagAt g pl.flags (i + j + 1)
        let x ← b.get (5 + 1 + j / 4)
        b.set (5 + 1 + j / 4) (add64 x (shl64 (add64 (sub64 o b5) (markOf ty f)) (16 * (j % 4)))))
    (fun j b => b.len = 10 ∧ (∀ x, x < 6 → b.f x = b0.f x) ∧
      ∀ m, m < 4 → b.f (m + 6) = acc (fun s => ovM ty t f i (4 * m + s)) (min 4 (j - 4 * m)))
    15 b0 ⟨l0, fun _ _ => rfl, fun m hm => by
      rw [f0 m hm, show min 4 (0 - 4 * m) = 0 by omega]; rfl⟩
    (by
      intro j b hj ⟨a1, a2, a3⟩
      rw [uget_ok (by omega) (hs.odd (i + j + 1) (by omega)), ok_bind, Vec.get_ok (by omega), ok_bind,
        flagAt_ok hpl (f := f) (hb.imp (fun h => by omega) id), ok_bind, Vec.get_ok (by omega), ok_bind,
        Vec.set_ok _ (by omega)]
      refine ⟨_, rfl, a1, ?_, ?_⟩
      · intro x hx
        show (if x = 5 + 1 + j / 4 then _ else _) = _
        rw [if_neg (by omega), a2 x hx]
      · intro m hm
        show (if m + 6 = 5 + 1 + j / 4 then _ else _) = _
        by_cases hmj : m = j / 4
        · subst hmj
          rw [if_pos (by omega), show 5 + 1 + j / 4 = j / 4 + 6 by omega, a3 _ hm, a2 5 (by omega), o0]
          rw [show min 4 (j - 4 * (j / 4)) = j % 4 by omega,
            show min 4 (j + 1 - 4 * (j / 4)) = j % 4 + 1 by omega]
          show add64 _ (shl64 (ovM ty t f i j) (16 * (j % 4))) =
            add64 _ (shl64 (ovM ty t f i (4 * (j / 4) + j % 4)) (16 * (j % 4)))
          rw [show 4 * (j / 4) + j % 4 = j by omega]
        · rw [if_neg (by omega), a3 m hm]
          congr 1
          omega)
  rw [e1, ok_bind, flagAt_ok hpl (f := f) (hb.imp (fun h => by omega) id), ok_bind, Vec.get_ok (by omega), ok_bind,
    Vec.set_ok _ (by omega)]
  refine ⟨_, rfl, h1, ?_, ?_, ?_, ?_, ?_⟩
  · show b.f 0 = _
    rw [h2 0 (by omega), a0]
  · intro m hm
    show (if m + 1 = 5 + 1 then _ else _) = _
    rw [if_neg (by omega), h2 _ (by omega), m0 m hm]
  · show b.f 5 = _
    rw [h2 5 (by omega), o0]
  · show add64 (b.f (0 + 6)) _ = _
    rw [h3 0 (by omega)]
    simp only [Nat.mul_zero, Nat.zero_add]
    rfl
  · intro m hm0 hm
    show (if m + 6 = 5 + 1 then _ else _) = _
    rw [if_neg (by omega), h3 m hm]

/-- With nothing known about the memory of `blockToCompress`, the last superblock is undefined. -/
theorem bucketM_ub {out0 : Vec (Option Byte)} {s : Enc} (hs : EncOK ty t (tvM t) out0 s) {pl : Plan}
    (hpl : PlanOK ty t none (nblkM t + 1) pl) {i : Nat} (hi : 2 * (i + 16) ≤ tmpLenM t) (hn : nblkM t ≤ i + 15)
    (hin : i ≤ nblkM t) :
    bucketM ty none s.ranks pl.flags i = ub (if nblkM t = i then .oob else .uninit) := by
  obtain ⟨b0, e0, l0, -⟩ := bucketM_mid hs hi
  have hl := hs.rlen
  rw [bucketM_split, e0, ok_bind]
  have key : forN 15 (fun j (b : Vec Nat) => do
        let o ← uget s.ranks (2 * (i + j + 1) + 1)
        let b5 ← b.get 5
        let f ← flagAt none pl.flags (i + j + 1)
        let x ← b.get (5 + 1 + j / 4)
        b.set (5 + 1 + j / 4) (add64 x (shl64 (add64 (sub64 o b5) (markOf ty f)) (16 * (j % 4))))) b0 =
      ub (if nblkM t = i then .oob else .uninit) := by
    have bad : ∀ j, nblkM t ≤ i + j + 1 → (nblkM t = i ∨ nblkM t = i + j + 1) →
        flagAt none pl.flags (i + j + 1) = ub (if nblkM t = i then .oob else .uninit) := by
      intro j h1 h2
      unfold flagAt
      rw [hpl.len]
      by_cases hni : nblkM t = i
      · rw [if_pos hni, if_neg (by omega)]
      · rw [if_neg hni, if_pos (by omega)]
        unfold uget
        rw [Vec.get_ok (by rw [hpl.len]; omega), hpl.last _ (by omega)]
        rfl
    have step : ∀ n a (b : Vec Nat), b.len = 10 → a + n = 15 → (nblkM t = i ∨ i + a + 1 ≤ nblkM t) → 0 < n →
        forFrom a n (fun j (b : Vec Nat) => do
          let o ← uget s.ranks (2 * (i + j + 1) + 1)
          let b5 ← b.get 5
          let f ← flagAt none pl.flags (i + j + 1)
          let x ← b.get (5 + 1 + j / 4)
          b.set (5 + 1 + j / 4) (add64 x (shl64 (add64 (sub64 o b5) (markOf ty f)) (16 * (j % 4))))) b =
        ub (if nblkM t = i then .oob else .uninit) := by
      intro n
      induction n with
      | zero => intro a b _ _ _ h; omega
      | succ n ih =>
        intro a b hb ha hc _
        unfold forFrom
        simp only []
        rw [uget_ok (by omega) (hs.odd (i + a + 1) (by omega)), ok_bind, Vec.get_ok (by omega), ok_bind]
        by_cases hlt : i + a + 1 < nblkM t
        · rw [flagAt_ok hpl (f := fun _ => 0#8) (Or.inl hlt), ok_bind, Vec.get_ok (by omega), ok_bind,
            Vec.set_ok _ (by omega), ok_bind]
          exact ih _ _ hb (by omega) (by omega) (by omega)
        · rw [bad a (by omega) (by omega)]
          rfl
    exact step 15 0 b0 l0 (by omega) (by omega) (by omega)
  rw [key]
  rfl

/-! ## `build` -/

/-- What `build` leaves. -/
structure MpeOK (ty : MpeType) (t : Vec Byte) (f : Nat → Byte) (g h : Junk) (aB aR : Nat) (x : Mpe) : Prop where
  rl : x.ranksLen = 10 * (nblkM t / 16 + 1)
  bl : x.bitsLen = eo ty t (nblkM t) + 8
  tl : x.textLen = t.len
  rlen : x.ranks.len = 10 * (nblkM t / 16 + 1) + room aR
  blen : x.bits.len = eo ty t (nblkM t) + 8 + roomBytes aB
  sup : ∀ k, k ≤ nblkM t / 16 → ∃ b, BucketM ty t f (16 * k) b ∧ ∀ j, j < 10 → x.ranks.f (10 * k + j) = some (b.f j)
  rn : ∀ y, 10 * (nblkM t / 16 + 1) ≤ y → x.ranks.f y = h.ranks.map fun h => h y
  st : ∀ k, k < nblkM t → ¬ HomM t k → StoredAt (kd ty t k) (blk t k) (eo ty t k) x.bits
  rest : ∀ y, eo ty t (nblkM t) ≤ y → y < eo ty t (nblkM t) + 8 → x.bits.f y = g.bits.map fun h => h y
  more : ∀ y, eo ty t (nblkM t) + 8 ≤ y → x.bits.f y = h.bits.map fun h => h y

theorem copy10 {b : Vec Nat} (hb : b.len = 10) {r : Vec (Option Nat)} {k : Nat} (hr : 10 * k + 10 ≤ r.len) :
    ∃ r', forN 10 (fun j (r : Vec (Option Nat)) => do
        let x ← b.get j
        r.set (10 * k + j) (some x)) r = ok r' ∧ r'.len = r.len ∧
      (∀ j', j' < 10 → r'.f (10 * k + j') = some (b.f j')) ∧
      ∀ y, y < 10 * k ∨ 10 * k + 10 ≤ y → r'.f y = r.f y := by
  obtain ⟨r', er, c1, c2, c3⟩ := forN_inv (body := fun j (r : Vec (Option Nat)) => do
      let x ← b.get j
      r.set (10 * k + j) (some x))
    (fun j r' => r'.len = r.len ∧ (∀ j', j' < j → r'.f (10 * k + j') = some (b.f j')) ∧
      ∀ y, y < 10 * k ∨ 10 * k + j ≤ y → r'.f y = r.f y) 10 r
    ⟨rfl, by intro j hj; omega, fun _ _ => rfl⟩
    (by
      intro j r' hj ⟨d1, d2, d3⟩
      rw [Vec.get_ok (by omega), ok_bind, Vec.set_ok _ (by omega)]
      refine ⟨_, rfl, d1, ?_, ?_⟩
      · intro j' hj'
        show (if 10 * k + j' = 10 * k + j then _ else _) = _
        by_cases hjj : j' = j
        · rw [if_pos (by omega), hjj]
        · rw [if_neg (by omega), d2 j' (by omega)]
      · intro y hy
        show (if y = 10 * k + j then _ else _) = _
        rw [if_neg (by omega), d3 y (by omega)])
  exact ⟨r', er, c1, c2, c3⟩

theorem buildMpe_ok (ty : MpeType) (t : Vec Byte) (aB aR : Nat) {g : Junk} {f : Nat → Byte} (hg : g.flags = some f)
    (hN : 0 < nblkM t) (hlen : t.len < 2 ^ 60) :
    ∃ x, buildMpe ty g aB aR t = ok x ∧ MpeOK ty t f g g aB aR x := by
  obtain ⟨e, e1, he⟩ := emptyBlocksM_ok t
  have hl := tmpLenM_eq t
  unfold buildMpe
  rw [e1, ok_bind, notEmptyM_ok he, ok_bind]
  obtain ⟨s, e2, hs⟩ := passM_ok he
  rw [e2, ok_bind]
  obtain ⟨pl, e3, hpl, hbl⟩ := plan_ok ty he g.flags hs hlen
  rw [e3, ok_bind]
  simp only [hbl]
  obtain ⟨en, e4, hen⟩ := encode_ok he hs hpl
    (out0 := memory g.bits (eo ty t (nblkM t) + 8 + roomBytes aB))
    (by show _ ≤ eo ty t (nblkM t) + 8 + roomBytes aB; omega) hN hlen
  rw [e4, ok_bind]
  have hS : tmpLenM t / 2 / 16 = nblkM t / 16 + 1 := by omega
  have hR : tmpLenM t / (2 * 16) * 10 = 10 * (nblkM t / 16 + 1) := by omega
  rw [hS, hR]
  obtain ⟨ranks, e5, h1, h2, h3⟩ := forN_inv (body := superStepM ty g.flags en.ranks pl.flags)
    (fun k (r : Vec (Option Nat)) => r.len = 10 * (nblkM t / 16 + 1) + room aR ∧
      (∀ k', k' < k → ∃ b, BucketM ty t f (16 * k') b ∧ ∀ j, j < 10 → r.f (10 * k' + j) = some (b.f j)) ∧
      ∀ y, 10 * k ≤ y → r.f y = g.ranks.map fun h => h y) (nblkM t / 16 + 1)
    (memory g.ranks (10 * (nblkM t / 16 + 1) + room aR))
    ⟨rfl, by intro k hk; omega, fun _ _ => rfl⟩
    (by
      intro k r hk ⟨a1, a2, a3⟩
      obtain ⟨b, eb, hbk⟩ := bucketM_ok hen hpl (f := f) (i := 16 * k) (by omega) (Or.inr hg)
      unfold superStepM
      rw [eb, ok_bind]
      obtain ⟨r', er, c1, c2, c3⟩ := copy10 hbk.len (r := r) (k := k) (by omega)
      refine ⟨r', er, by rw [c1, a1], ?_, ?_⟩
      · intro k' hk'
        by_cases hkk : k' = k
        · subst hkk
          exact ⟨b, hbk, c2⟩
        · obtain ⟨b', hb1, hb2⟩ := a2 k' (by omega)
          refine ⟨b', hb1, fun j hj => ?_⟩
          rw [c3 _ (Or.inl (by omega)), hb2 j hj]
      · intro y hy
        rw [c3 _ (Or.inr (by omega)), a3 y (by omega)])
  rw [e5, ok_bind]
  exact ⟨_, rfl, rfl, rfl, rfl, h1, hen.len, fun k hk => h2 k (by omega), h3, hen.st,
    fun y hy _ => hen.rest y hy, fun y hy => hen.rest y (by omega)⟩

theorem buildMpe_empty (ty : MpeType) (t : Vec Byte) (aB aR : Nat) (g : Junk) (hN : nblkM t = 0) :
    buildMpe ty g aB aR t = ub .oob := by
  obtain ⟨e, e1, he⟩ := emptyBlocksM_ok t
  unfold buildMpe
  rw [e1, ok_bind, notEmptyM_ok he, ok_bind]
  obtain ⟨s, e2, hs⟩ := passM_ok he
  rw [e2, ok_bind]
  have hge := nblkM_ge t
  obtain ⟨pl, e3, hpl, hbl⟩ := plan_ok ty he g.flags hs (by omega)
  rw [e3, ok_bind]
  simp only []
  rw [encode_empty hs hN]
  rfl

theorem buildMpe_ub (ty : MpeType) (t : Vec Byte) (aB aR : Nat) {g : Junk} (hg : g.flags = none)
    (hlen : t.len < 2 ^ 60) :
    buildMpe ty g aB aR t = ub (if nblkM t % 16 = 0 then .oob else .uninit) := by
  by_cases hN : nblkM t = 0
  · rw [buildMpe_empty ty t aB aR g hN, hN]; rfl
  obtain ⟨e, e1, he⟩ := emptyBlocksM_ok t
  have hl := tmpLenM_eq t
  unfold buildMpe
  rw [e1, ok_bind, notEmptyM_ok he, ok_bind]
  obtain ⟨s, e2, hs⟩ := passM_ok he
  rw [e2, ok_bind]
  obtain ⟨pl, e3, hpl, hbl⟩ := plan_ok ty he g.flags hs hlen
  rw [e3, ok_bind]
  simp only [hbl]
  obtain ⟨en, e4, hen⟩ := encode_ok he hs hpl
    (out0 := memory g.bits (eo ty t (nblkM t) + 8 + roomBytes aB))
    (by show _ ≤ eo ty t (nblkM t) + 8 + roomBytes aB; omega) (by omega) hlen
  rw [e4, ok_bind]
  have hS : tmpLenM t / 2 / 16 = nblkM t / 16 + 1 := by omega
  have hR : tmpLenM t / (2 * 16) * 10 = 10 * (nblkM t / 16 + 1) := by omega
  rw [hS, hR]
  rw [hg] at hpl ⊢
  have step : ∀ n a (r : Vec (Option Nat)), r.len = 10 * (nblkM t / 16 + 1) + room aR → a + n = nblkM t / 16 →
      forFrom a (n + 1) (superStepM ty none en.ranks pl.flags) r =
        ub (if nblkM t % 16 = 0 then .oob else .uninit) := by
    intro n
    induction n with
    | zero =>
      intro a r hr ha
      unfold forFrom superStepM
      rw [bucketM_ub hen hpl (by omega) (by omega) (by omega)]
      show ub _ = ub _
      congr 1
      by_cases h : nblkM t % 16 = 0
      · rw [if_pos h, if_pos (by omega)]
      · rw [if_neg h, if_neg (by omega)]
    | succ n ih =>
      intro a r hr ha
      unfold forFrom superStepM
      obtain ⟨b, eb, hbk⟩ := bucketM_ok hen hpl (f := fun _ => 0#8) (i := 16 * a) (by omega) (Or.inl (by omega))
      rw [eb, ok_bind]
      obtain ⟨r', er, c1, c2, c3⟩ := copy10 hbk.len (r := r) (k := a) (by omega)
      rw [er, ok_bind]
      exact ih (a + 1) r' (by rw [c1, hr]) (by omega)
  have := step (nblkM t / 16) 0 (memory g.ranks (10 * (nblkM t / 16 + 1) + room aR)) rfl (by omega)
  unfold forN
  rw [this]
  rfl

end MRS.Mran
