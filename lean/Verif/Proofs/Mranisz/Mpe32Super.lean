import Verif.Proofs.Mranisz.Mpe32Build

/-! # 32-bit compressed rank with pairs left out: superblocks -/

set_option autoImplicit false

namespace MRS.Mran
open Outcome Spec Poppy

variable {ty : MpeType} {t : Vec Byte}

/-- Difference to the rank of the superblock that starts at block `i`. -/
def dvM32 (t : Vec Byte) (i j : Nat) : Nat := sub32 (tvM32 t (i + j + 1)) (tvM32 t i)

/-- Difference to the offset of the superblock, with the kind of the block. -/
def ovM32 (ty : MpeType) (t : Vec Byte) (f : Nat → Byte) (i j : Nat) : Nat :=
  add32 (sub32 (oM ty t (i + j + 1)) (oM ty t i)) (markOf ty (fv ty t f (i + j + 1)))

/-- What a superblock holds. -/
structure BucketM32 (ty : MpeType) (t : Vec Byte) (f : Nat → Byte) (i : Nat) (b : Vec Nat) : Prop where
  len : b.len = 18
  b0 : b.f 0 = tvM32 t i
  mid : ∀ m, m < 8 → b.f (m + 1) = acc32 (fun s => dvM32 t i (2 * m + s)) (min 2 (15 - 2 * m))
  off : b.f 9 = oM ty t i
  o1 : b.f 10 = add32 (acc32 (fun s => ovM32 ty t f i s) 2) (markFirst32 ty (fv ty t f i))
  offs : ∀ m, 0 < m → m < 8 → b.f (m + 10) = acc32 (fun s => ovM32 ty t f i (2 * m + s)) (min 2 (15 - 2 * m))

theorem bucketM32_mid {out0 : Vec (Option Byte)} {s : Enc} (hs : EncOK ty t (tvM32 t) out0 s) {i : Nat}
    (hi : 2 * (i + 16) ≤ tmpLenM t) :
    ∃ b : Vec Nat, (do
      let b : Vec Nat := ⟨18, fun _ => 0⟩
      let r ← uget s.ranks (2 * i)
      let b ← b.set 0 r
      let b ← forN 15 (fun j b => do
        let r ← uget s.ranks (2 * (i + j + 1))
        let b0 ← b.get 0
        let x ← b.get (j / 2 + 1)
        b.set (j / 2 + 1) (add32 x (shl32 (sub32 r b0) (16 * (j % 2))))) b
      let o ← uget s.ranks (2 * i + 1)
      b.set 9 o) = ok b ∧ b.len = 18 ∧ b.f 0 = tvM32 t i ∧
      (∀ m, m < 8 → b.f (m + 1) = acc32 (fun s => dvM32 t i (2 * m + s)) (min 2 (15 - 2 * m))) ∧
      b.f 9 = oM ty t i ∧ ∀ m, m < 8 → b.f (m + 10) = 0 := by
  have hl := hs.rlen
  simp only []
  rw [uget_ok (by omega) (hs.even i (by omega)), ok_bind, Vec.set_ok _ (by show 0 < 18; omega), ok_bind]
  obtain ⟨b, e, h1, h2, h3, h4⟩ := forN_inv (body := fun j (b : Vec Nat) => do
        let r ← uget s.ranks (2 * (i + j + 1))
        let b0 ← b.get 0
        let x ← b.get (j / 2 + 1)
        b.set (j / 2 + 1) (add32 x (shl32 (sub32 r b0) (16 * (j % 2)))))
    (fun j b => b.len = 18 ∧ b.f 0 = tvM32 t i ∧
      (∀ m, m < 8 → b.f (m + 1) = acc32 (fun s => dvM32 t i (2 * m + s)) (min 2 (j - 2 * m))) ∧
      ∀ m, m < 8 → b.f (m + 10) = 0) 15
    ⟨18, fun j => if j = 0 then tvM32 t i else 0⟩
    ⟨rfl, rfl, by
      intro m hm
      rw [show min 2 (0 - 2 * m) = 0 by omega]
      rfl, by
      intro m hm
      show (if m + 10 = 0 then tvM32 t i else 0) = 0
      rw [if_neg (by omega)]⟩
    (by
      intro j b hj ⟨a1, a2, a3, a4⟩
      rw [uget_ok (by omega) (hs.even (i + j + 1) (by omega)), ok_bind, Vec.get_ok (by omega), ok_bind,
        Vec.get_ok (by omega), ok_bind, Vec.set_ok _ (by omega)]
      refine ⟨_, rfl, a1, ?_, ?_, ?_⟩
      · have : (0 : Nat) ≠ j / 2 + 1 := by omega
        simp only [if_neg this, a2]
      · intro m hm
        show (if m + 1 = j / 2 + 1 then _ else _) = _
        by_cases hmj : m = j / 2
        · subst hmj
          rw [if_pos rfl, a3 _ hm, a2]
          rw [show min 2 (j - 2 * (j / 2)) = j % 2 by omega,
            show min 2 (j + 1 - 2 * (j / 2)) = j % 2 + 1 by omega]
          show add32 _ (shl32 (sub32 (tvM32 t (i + j + 1)) (tvM32 t i)) (16 * (j % 2))) =
            add32 _ (shl32 (dvM32 t i (2 * (j / 2) + j % 2)) (16 * (j % 2)))
          unfold dvM32
          rw [show i + (2 * (j / 2) + j % 2) + 1 = i + j + 1 by omega]
        · rw [if_neg (by omega), a3 m hm]
          congr 1
          omega
      · intro m hm
        show (if m + 10 = j / 2 + 1 then _ else _) = _
        rw [if_neg (by omega), a4 m hm])
  rw [e, ok_bind, uget_ok (by omega) (hs.odd i (by omega)), ok_bind, Vec.set_ok _ (by omega)]
  refine ⟨_, rfl, h1, h2, ?_, rfl, ?_⟩
  · intro m hm
    show (if m + 1 = 9 then _ else _) = _
    rw [if_neg (by omega)]
    exact h3 m hm
  · intro m hm
    show (if m + 10 = 9 then oM ty t i else b.f (m + 10)) = 0
    rw [if_neg (by omega)]
    exact h4 m hm

theorem bucketM32_split (ty : MpeType) (g : Option (Nat → Byte)) (tmp : Vec (Option Nat)) (fl : Vec (Option Byte))
    (i : Nat) : bucketM32 ty g tmp fl i = (do
      let b ← (do
        let b : Vec Nat := ⟨18, fun _ => 0⟩
        let r ← uget tmp (2 * i)
        let b ← b.set 0 r
        let b ← forN 15 (fun j b => do
          let r ← uget tmp (2 * (i + j + 1))
          let b0 ← b.get 0
          let x ← b.get (j / 2 + 1)
          b.set (j / 2 + 1) (add32 x (shl32 (sub32 r b0) (16 * (j % 2))))) b
        let o ← uget tmp (2 * i + 1)
        b.set 9 o)
      let b ← forN 15 (fun j b => do
        let o ← uget tmp (2 * (i + j + 1) + 1)
        let b9 ← b.get 9
        let f ← flagAt g fl (i + j + 1)
        let x ← b.get (9 + 1 + j / 2)
        b.set (9 + 1 + j / 2) (add32 x (shl32 (add32 (sub32 o b9) (markOf ty f)) (16 * (j % 2))))) b
      let f ← flagAt g fl i
      let x ← b.get (9 + 1)
      b.set (9 + 1) (add32 x (markFirst32 ty f))) := by
  unfold bucketM32
  simp only [bind_assoc']

theorem bucketM32_ok {out0 : Vec (Option Byte)} {s : Enc} (hs : EncOK ty t (tvM32 t) out0 s) {g : Option (Nat → Byte)} {pl : Plan}
    {L : Nat} (hpl : PlanOK ty t g L pl) {f : Nat → Byte} {i : Nat} (hi : 2 * (i + 16) ≤ tmpLenM t)
    (hb : i + 15 < nblkM t ∨ g = some f) :
    ∃ b, bucketM32 ty g s.ranks pl.flags i = ok b ∧ BucketM32 ty t f i b := by
  obtain ⟨b0, e0, l0, a0, m0, o0, f0⟩ := bucketM32_mid hs hi
  have hl := hs.rlen
  rw [bucketM32_split, e0, ok_bind]
  obtain ⟨b, e1, h1, h2, h3⟩ := forN_inv (body := fun j (b : Vec Nat) => do
        let o ← uget s.ranks (2 * (i + j + 1) + 1)
        let b9 ← b.get 9
        let f ← flagAt g pl.flags (i + j + 1)
        let x ← b.get (9 + 1 + j / 2)
        b.set (9 + 1 + j / 2) (add32 x (shl32 (add32 (sub32 o b9) (markOf ty f)) (16 * (j % 2)))))
    (fun j b => b.len = 18 ∧ (∀ x, x < 10 → b.f x = b0.f x) ∧
      ∀ m, m < 8 → b.f (m + 10) = acc32 (fun s => ovM32 ty t f i (2 * m + s)) (min 2 (j - 2 * m)))
    15 b0 ⟨l0, fun _ _ => rfl, fun m hm => by
      rw [f0 m hm, show min 2 (0 - 2 * m) = 0 by omega]; rfl⟩
    (by
      intro j b hj ⟨a1, a2, a3⟩
      rw [uget_ok (by omega) (hs.odd (i + j + 1) (by omega)), ok_bind, Vec.get_ok (by omega), ok_bind,
        flagAt_ok hpl (f := f) (hb.imp (fun h => by omega) id), ok_bind, Vec.get_ok (by omega), ok_bind,
        Vec.set_ok _ (by omega)]
      refine ⟨_, rfl, a1, ?_, ?_⟩
      · intro x hx
        show (if x = 9 + 1 + j / 2 then _ else _) = _
        rw [if_neg (by omega), a2 x hx]
      · intro m hm
        show (if m + 10 = 9 + 1 + j / 2 then _ else _) = _
        by_cases hmj : m = j / 2
        · subst hmj
          rw [if_pos (by omega), show 9 + 1 + j / 2 = j / 2 + 10 by omega, a3 _ hm, a2 9 (by omega), o0]
          rw [show min 2 (j - 2 * (j / 2)) = j % 2 by omega,
            show min 2 (j + 1 - 2 * (j / 2)) = j % 2 + 1 by omega]
          show add32 _ (shl32 (ovM32 ty t f i j) (16 * (j % 2))) =
            add32 _ (shl32 (ovM32 ty t f i (2 * (j / 2) + j % 2)) (16 * (j % 2)))
          rw [show 2 * (j / 2) + j % 2 = j by omega]
        · rw [if_neg (by omega), a3 m hm]
          congr 1
          omega)
  rw [e1, ok_bind, flagAt_ok hpl (f := f) (hb.imp (fun h => by omega) id), ok_bind, Vec.get_ok (by omega), ok_bind,
    Vec.set_ok _ (by omega)]
  refine ⟨_, rfl, h1, ?_, ?_, ?_, ?_, ?_⟩
  · show b.f 0 = _
    rw [h2 0 (by omega), a0]
  · intro m hm
    show (if m + 1 = 9 + 1 then _ else _) = _
    rw [if_neg (by omega), h2 _ (by omega), m0 m hm]
  · show b.f 9 = _
    rw [h2 9 (by omega), o0]
  · show add32 (b.f (0 + 10)) _ = _
    rw [h3 0 (by omega)]
    simp only [Nat.mul_zero, Nat.zero_add]
    rfl
  · intro m hm0 hm
    show (if m + 10 = 9 + 1 then _ else _) = _
    rw [if_neg (by omega), h3 m hm]

/-- With nothing known about the memory behind `blockToCompress`, the last superblock is undefined. -/
theorem bucketM32_ub {out0 : Vec (Option Byte)} {s : Enc} (hs : EncOK ty t (tvM32 t) out0 s) {pl : Plan}
    (hpl : PlanOK ty t none (nblkM t) pl) {i : Nat} (hi : 2 * (i + 16) ≤ tmpLenM t) (hn : nblkM t ≤ i + 15)
    (hin : i ≤ nblkM t) :
    bucketM32 ty none s.ranks pl.flags i = ub .oob := by
  obtain ⟨b0, e0, l0, -⟩ := bucketM32_mid hs hi
  have hl := hs.rlen
  rw [bucketM32_split, e0, ok_bind]
  have key : forN 15 (fun j (b : Vec Nat) => do
        let o ← uget s.ranks (2 * (i + j + 1) + 1)
        let b9 ← b.get 9
        let f ← flagAt none pl.flags (i + j + 1)
        let x ← b.get (9 + 1 + j / 2)
        b.set (9 + 1 + j / 2) (add32 x (shl32 (add32 (sub32 o b9) (markOf ty f)) (16 * (j % 2))))) b0 = ub .oob := by
    unfold forN
    apply Hft.forFrom_ub (fun b : Vec Nat => b.len = 18) (i0 := 14) 15 0 b0 l0 (by omega) (by omega)
    · intro j b _ hj hb
      rw [uget_ok (by omega) (hs.odd (i + j + 1) (by omega)), ok_bind, Vec.get_ok (by omega), ok_bind]
      by_cases hlt : i + j + 1 < nblkM t
      · right
        rw [flagAt_ok hpl (f := fun _ => 0#8) (Or.inl hlt), ok_bind, Vec.get_ok (by omega), ok_bind,
          Vec.set_ok _ (by omega)]
        exact ⟨_, rfl, hb⟩
      · left
        unfold flagAt
        rw [hpl.len, if_neg (by omega)]
        rfl
    · intro b hb
      rw [uget_ok (by omega) (hs.odd (i + 14 + 1) (by omega)), ok_bind, Vec.get_ok (by omega), ok_bind]
      unfold flagAt
      rw [hpl.len, if_neg (by omega)]
      rfl
  rw [key]
  rfl

/-! ## `build` -/

/-- What `build` leaves. -/
structure MpeOK32 (ty : MpeType) (t : Vec Byte) (f : Nat → Byte) (g h : Junk) (aB aR : Nat) (x : Mpe) : Prop where
  rl : x.ranksLen = 18 * (nblkM t / 16 + 1)
  bl : x.bitsLen = eo ty t (nblkM t) + 8
  tl : x.textLen = t.len
  rlen : x.ranks.len = 18 * (nblkM t / 16 + 1) + room32 aR
  blen : x.bits.len = eo ty t (nblkM t) + 8 + roomBytes aB
  sup : ∀ k, k ≤ nblkM t / 16 → ∃ b, BucketM32 ty t f (16 * k) b ∧ ∀ j, j < 18 → x.ranks.f (18 * k + j) = some (b.f j)
  rn : ∀ y, 18 * (nblkM t / 16 + 1) ≤ y → x.ranks.f y = h.ranks.map fun h => h y
  st : ∀ k, k < nblkM t → ¬ HomM t k → StoredAt (kd ty t k) (blk t k) (eo ty t k) x.bits
  rest : ∀ y, eo ty t (nblkM t) ≤ y → y < eo ty t (nblkM t) + 8 → x.bits.f y = g.bits.map fun h => h y
  more : ∀ y, eo ty t (nblkM t) + 8 ≤ y → x.bits.f y = h.bits.map fun h => h y

/-- The number of bytes that are stored, with the room that is added to it, fits 32 bits. -/
def Room32 (ty : MpeType) (t : Vec Byte) : Prop := eo ty t (nblkM t) + 136 < 2 ^ 32

theorem bytesM32_eq {n : Nat} (h : n + 128 < 2 ^ 32) (aB : Nat) : bytesM32 aB n = n + roomBytes aB := by
  unfold bytesM32 add32 roomBytes
  simp only [W32]
  omega

theorem copy18 {b : Vec Nat} (hb : b.len = 18) {r : Vec (Option Nat)} {k : Nat} (hr : 18 * k + 18 ≤ r.len) :
    ∃ r', forN 18 (fun j (r : Vec (Option Nat)) => do
        let x ← b.get j
        r.set (18 * k + j) (some x)) r = ok r' ∧ r'.len = r.len ∧
      (∀ j', j' < 18 → r'.f (18 * k + j') = some (b.f j')) ∧
      ∀ y, y < 18 * k ∨ 18 * k + 18 ≤ y → r'.f y = r.f y := by
  obtain ⟨r', er, c1, c2, c3⟩ := forN_inv (body := fun j (r : Vec (Option Nat)) => do
      let x ← b.get j
      r.set (18 * k + j) (some x))
    (fun j r' => r'.len = r.len ∧ (∀ j', j' < j → r'.f (18 * k + j') = some (b.f j')) ∧
      ∀ y, y < 18 * k ∨ 18 * k + j ≤ y → r'.f y = r.f y) 18 r
    ⟨rfl, by intro j hj; omega, fun _ _ => rfl⟩
    (by
      intro j r' hj ⟨d1, d2, d3⟩
      rw [Vec.get_ok (by omega), ok_bind, Vec.set_ok _ (by omega)]
      refine ⟨_, rfl, d1, ?_, ?_⟩
      · intro j' hj'
        show (if 18 * k + j' = 18 * k + j then _ else _) = _
        by_cases hjj : j' = j
        · rw [if_pos (by omega), hjj]
        · rw [if_neg (by omega), d2 j' (by omega)]
      · intro y hy
        show (if y = 18 * k + j then _ else _) = _
        rw [if_neg (by omega), d3 y (by omega)])
  exact ⟨r', er, c1, c2, c3⟩

theorem buildMpe32_ok (ty : MpeType) (t : Vec Byte) (aB aR : Nat) {g : Junk} {f : Nat → Byte} (hg : g.flags = some f)
    (hN : 0 < nblkM t) (hlen : t.len ≤ 2 ^ 32 - 128) (hroom : Room32 ty t) :
    ∃ x, buildMpe32 ty g aB aR t = ok x ∧ MpeOK32 ty t f g g aB aR x := by
  obtain ⟨e, e1, he⟩ := emptyBlocksM_ok t
  have hl := tmpLenM_eq t
  unfold buildMpe32
  rw [emptyBlocksM32_eq hlen, e1, ok_bind, notEmptyM32_eq hlen, notEmptyM_ok he, ok_bind]
  obtain ⟨s, e2, hs⟩ := passM32_ok hlen he
  rw [e2, ok_bind]
  obtain ⟨pl, e3, hpl, hbl⟩ := planM32_ok ty hlen he g.flags hs
  rw [e3, ok_bind]
  simp only [hbl, tmpLenM32_eq hlen]
  rw [bytesM32_eq (by unfold Room32 at hroom; omega)]
  obtain ⟨en, e4, hen⟩ := encodeM32_ok hlen he hs hpl
    (out0 := memory g.bits (eo ty t (nblkM t) + 8 + roomBytes aB))
    (by show _ ≤ eo ty t (nblkM t) + 8 + roomBytes aB; omega) hN
  rw [e4, ok_bind]
  have hS : tmpLenM t / 2 / 16 = nblkM t / 16 + 1 := by omega
  have hR : tmpLenM t / (2 * 16) * 18 = 18 * (nblkM t / 16 + 1) := by omega
  rw [hS, hR]
  obtain ⟨ranks, e5, h1, h2, h3⟩ := forN_inv (body := superStepM32 ty g.flags en.ranks pl.flags)
    (fun k (r : Vec (Option Nat)) => r.len = 18 * (nblkM t / 16 + 1) + room32 aR ∧
      (∀ k', k' < k → ∃ b, BucketM32 ty t f (16 * k') b ∧ ∀ j, j < 18 → r.f (18 * k' + j) = some (b.f j)) ∧
      ∀ y, 18 * k ≤ y → r.f y = g.ranks.map fun h => h y) (nblkM t / 16 + 1)
    (memory g.ranks (18 * (nblkM t / 16 + 1) + room32 aR))
    ⟨rfl, by intro k hk; omega, fun _ _ => rfl⟩
    (by
      intro k r hk ⟨a1, a2, a3⟩
      obtain ⟨b, eb, hbk⟩ := bucketM32_ok hen hpl (f := f) (i := 16 * k) (by omega) (Or.inr hg)
      unfold superStepM32
      rw [eb, ok_bind]
      obtain ⟨r', er, c1, c2, c3⟩ := copy18 hbk.len (r := r) (k := k) (by omega)
      refine ⟨r', er, by rw [c1, a1], ?_, ?_⟩
      · intro k' hk'
        by_cases hkk : k' = k
        · subst hkk
          exact ⟨b, hbk, c2⟩
        · obtain ⟨b', hb1, hb2⟩ := a2 k' (by omega)
          refine ⟨b', hb1, fun j hj => ?_⟩
          rw [c3 _ (Or.inl (by omega)), hb2 j hj]
      · intro y hy
        rw [c3 _ (Or.inr (by omega)), a3 y (by omega)])
  rw [e5, ok_bind]
  exact ⟨_, rfl, rfl, rfl, rfl, h1, hen.len, fun k hk => h2 k (by omega), h3, hen.st,
    fun y hy _ => hen.rest y hy, fun y hy => hen.rest y (by omega)⟩

theorem buildMpe32_empty (ty : MpeType) (t : Vec Byte) (aB aR : Nat) (g : Junk) (hN : nblkM t = 0) :
    buildMpe32 ty g aB aR t = ub .oob := by
  have hge := nblkM_ge t
  have hlen : t.len ≤ 2 ^ 32 - 128 := by omega
  obtain ⟨e, e1, he⟩ := emptyBlocksM_ok t
  have hl := tmpLenM_eq t
  unfold buildMpe32
  rw [emptyBlocksM32_eq hlen, e1, ok_bind, notEmptyM32_eq hlen, notEmptyM_ok he, ok_bind]
  obtain ⟨s, e2, hs⟩ := passM32_ok hlen he
  rw [e2, ok_bind]
  obtain ⟨pl, e3, hpl, hbl⟩ := planM32_ok ty hlen he g.flags hs
  rw [e3, ok_bind]
  simp only []
  rw [encodeM32_empty (by rw [nblkM32_eq hlen]; exact hN) (by rw [hs.rlen]; omega)]
  rfl

/-- The 127 longest texts. -/
theorem buildMpe32_longest (ty : MpeType) (t : Vec Byte) (aB aR : Nat) (g : Junk) (h : 2 ^ 32 - 128 < t.len)
    (h2 : t.len < 2 ^ 32) : buildMpe32 ty g aB aR t = ub .oob := by
  have hN := nblkM32_wrap h h2
  have hl : tmpLenM32 t = 32 := by unfold tmpLenM32; rw [hN]; rfl
  unfold buildMpe32 emptyBlocksM32 notEmptyM32
  rw [hN]
  show (do
    let s ← passM32 t (fresh 0) 0
    _) = _
  have hp : ∃ s, passM32 t (fresh 0) 0 = ok s ∧ s.ranks.len = 32 := by
    unfold passM32
    rw [hN, hl]
    show ∃ s, (do
      let r ← (fresh 32).set 0 (some 0)
      let r ← r.set (0 + 1) (some 0)
      let r ← forFrom (0 + 2) (32 - (0 + 2)) (fun i r => r.set i (some 0)) r
      ok (⟨r, fresh (0 * 128), 0, 0 + 2, 0⟩ : PassM)) = ok s ∧ _
    rw [Vec.set_ok _ (by show 0 < 32; omega), ok_bind, Vec.set_ok _ (by show 0 + 1 < 32; omega), ok_bind]
    have hfill : ∀ R : Vec (Option Nat), R.len = 32 → ∃ s, (do
        let r ← forFrom (0 + 2) (32 - (0 + 2)) (fun i (r : Vec (Option Nat)) => r.set i (some 0)) R
        ok (⟨r, fresh (0 * 128), 0, 0 + 2, 0⟩ : PassM)) = ok s ∧ s.ranks.len = 32 := by
      intro R hR
      obtain ⟨r, e, hr⟩ := forFrom_inv (body := fun i (r : Vec (Option Nat)) => r.set i (some 0))
        (fun _ r => r.len = 32) (32 - (0 + 2)) (0 + 2) R hR
        (by
          intro j r h1 h2 hr
          rw [Vec.set_ok _ (by omega)]
          exact ⟨_, rfl, hr⟩)
      rw [e, ok_bind]
      exact ⟨_, rfl, hr⟩
    exact hfill _ rfl
  obtain ⟨s, e, hs⟩ := hp
  rw [e, ok_bind]
  unfold planM32
  rw [hN]
  show (do
    let en ← encodeM32 t (fresh 0) _ s.bits _ s.ranks
    _) = _
  rw [encodeM32_empty hN hs]
  rfl

/-- The size of the array of stored bytes is reduced to at most eight. -/
theorem buildMpe32_short (ty : MpeType) (t : Vec Byte) (aB aR : Nat) (g : Junk) (hlen : t.len ≤ 2 ^ 32 - 128)
    (hroom : ¬ Room32 ty t) : buildMpe32 ty g aB aR t = ub .oob := by
  obtain ⟨e, e1, he⟩ := emptyBlocksM_ok t
  have hl := tmpLenM_eq t
  unfold buildMpe32
  rw [emptyBlocksM32_eq hlen, e1, ok_bind, notEmptyM32_eq hlen, notEmptyM_ok he, ok_bind]
  obtain ⟨s, e2, hs⟩ := passM32_ok hlen he
  rw [e2, ok_bind]
  obtain ⟨pl, e3, hpl, hbl⟩ := planM32_ok ty hlen he g.flags hs
  rw [e3, ok_bind]
  simp only [hbl]
  have hnb := nblkM_lt32 hlen
  have hle := eo_le ty t (nblkM t)
  unfold Room32 at hroom
  have hN : 0 < nblkM t := by omega
  have hd := eo_diff ty t 1 (nblkM t - 1)
  rw [show 1 + (nblkM t - 1) = nblkM t by omega] at hd
  have h1 : eo ty t 1 = 0 + if HomM t 0 then 0 else sl ty t 0 := eo_succ ty t 0
  have hh : ¬ HomM t 0 := by
    intro hh
    rw [if_pos hh] at h1
    omega
  rw [if_neg hh] at h1
  have hout : (memory g.bits (bytesM32 aB (eo ty t (nblkM t) + 8))).len ≤ 8 := by
    show bytesM32 aB _ ≤ 8
    unfold bytesM32 add32
    simp only [W32]
    omega
  have := encBlock_short (ty := ty) he hs hpl (R := s.ranks) (by rw [hs.rlen]; omega) hout hN hh (by omega)
  unfold encodeM32
  rw [nblkM32_eq hlen]
  obtain ⟨m, hm⟩ : ∃ m, nblkM t = m + 1 := ⟨nblkM t - 1, by omega⟩
  rw [hm] at this ⊢
  unfold forN forFrom
  rw [this]
  rfl

theorem buildMpe32_ub (ty : MpeType) (t : Vec Byte) (aB aR : Nat) {g : Junk} (hg : g.flags = none)
    (hlen : t.len < 2 ^ 32) :
    buildMpe32 ty g aB aR t = ub .oob := by
  by_cases hN : nblkM t = 0
  · rw [buildMpe32_empty ty t aB aR g hN]
  by_cases hlen' : 2 ^ 32 - 128 < t.len
  · exact buildMpe32_longest ty t aB aR g hlen' hlen
  replace hlen : t.len ≤ 2 ^ 32 - 128 := by omega
  by_cases hroom : Room32 ty t
  case neg => exact buildMpe32_short ty t aB aR g hlen hroom
  obtain ⟨e, e1, he⟩ := emptyBlocksM_ok t
  have hl := tmpLenM_eq t
  unfold buildMpe32
  rw [emptyBlocksM32_eq hlen, e1, ok_bind, notEmptyM32_eq hlen, notEmptyM_ok he, ok_bind]
  obtain ⟨s, e2, hs⟩ := passM32_ok hlen he
  rw [e2, ok_bind]
  obtain ⟨pl, e3, hpl, hbl⟩ := planM32_ok ty hlen he g.flags hs
  rw [e3, ok_bind]
  simp only [hbl, tmpLenM32_eq hlen]
  rw [bytesM32_eq (by unfold Room32 at hroom; omega)]
  obtain ⟨en, e4, hen⟩ := encodeM32_ok hlen he hs hpl
    (out0 := memory g.bits (eo ty t (nblkM t) + 8 + roomBytes aB))
    (by show _ ≤ eo ty t (nblkM t) + 8 + roomBytes aB; omega) (by omega)
  rw [e4, ok_bind]
  have hS : tmpLenM t / 2 / 16 = nblkM t / 16 + 1 := by omega
  have hR : tmpLenM t / (2 * 16) * 18 = 18 * (nblkM t / 16 + 1) := by omega
  rw [hS, hR]
  rw [hg] at hpl ⊢
  have step : ∀ n a (r : Vec (Option Nat)), r.len = 18 * (nblkM t / 16 + 1) + room32 aR → a + n = nblkM t / 16 →
      forFrom a (n + 1) (superStepM32 ty none en.ranks pl.flags) r =
        ub .oob := by
    intro n
    induction n with
    | zero =>
      intro a r hr ha
      unfold forFrom superStepM32
      rw [bucketM32_ub hen hpl (by omega) (by omega) (by omega)]
      rfl
    | succ n ih =>
      intro a r hr ha
      unfold forFrom superStepM32
      obtain ⟨b, eb, hbk⟩ := bucketM32_ok hen hpl (f := fun _ => 0#8) (i := 16 * a) (by omega) (Or.inl (by omega))
      rw [eb, ok_bind]
      obtain ⟨r', er, c1, c2, c3⟩ := copy18 hbk.len (r := r) (k := a) (by omega)
      rw [er, ok_bind]
      exact ih (a + 1) r' (by rw [c1, hr]) (by omega)
  have := step (nblkM t / 16) 0 (memory g.ranks (18 * (nblkM t / 16 + 1) + room32 aR)) rfl (by omega)
  unfold forN
  rw [this]
  rfl

end MRS.Mran
