import Verif.Proofs.BitmapSpec
import Verif.Proofs.WordLane

/-!
# C20–C26: popcount, rank and select in words and blocks

Words and blocks are compared with the list of their bits (`Spec.bitsOf`, least significant bit
first), `Spec.ones`, `Spec.rank` and `Spec.IsSelect`.
-/

set_option autoImplicit false

namespace MRS.Props
open MRS Outcome Spec

theorem rep_bitsOf (ws : List Word) : Rep (fun j => ws.getD j 0#64) (bitsOf ws) := by
  refine ⟨fun i hi => ?_⟩
  rw [bitsOf_length] at hi
  rw [bitsOf_get ws i hi]
  rfl

/-- The words of a block that starts at `x`. -/
def blockWords (x : Ptr) (W : Nat) : List Word := (List.range W).map fun j => x.v.f (x.base + j)

/-- Its bits. -/
def blockBits (x : Ptr) (W : Nat) : List Bool := bitsOf (blockWords x W)

theorem blockBits_length (x : Ptr) (W : Nat) : (blockBits x W).length = 64 * W := by
  unfold blockBits; rw [bitsOf_length]; simp [blockWords]

theorem rep_block (x : Ptr) (W : Nat) : Rep (fun j => x.v.f (x.base + j)) (blockBits x W) := by
  refine ⟨fun i hi => ?_⟩
  have h := (rep_bitsOf (blockWords x W)).bit i hi
  rw [blockBits_length] at hi
  have hl : i / 64 < W := by omega
  unfold blockBits
  rw [h]
  unfold fbit blockWords
  show some (BitVec.getLsbD (((List.range W).map fun j => x.v.f (x.base + j)).getD (i / 64) 0#64) _) = _
  rw [List.getD_eq_getElem?_getD, List.getElem?_map, List.getElem?_range hl]
  rfl

theorem ptrOK_block {x : Ptr} {W : Nat} (h : x.base + W ≤ x.v.len) :
    PtrOK x W (fun j => x.v.f (x.base + j)) := by
  intro j hj
  unfold Ptr.at
  exact Vec.get_ok (by omega)

theorem word_ones (w : Word) {k : Nat} (hk : k ≤ 64) : ones (bitsOf [w]) k = wcnt w k := by
  have hr : Rep (fun j => [w].getD j 0#64) (bitsOf [w]) := rep_bitsOf [w]
  rw [hr.ones (by rw [bitsOf_length]; simpa using hk)]
  have := fcnt_split (fun j => [w].getD j 0#64) 0 k hk
  simpa [fcnt, psum] using this

theorem word_select {w : Word} {k p : Nat} (h : WSel w k p) : IsSelect (bitsOf [w]) k p := by
  refine ⟨?_, ?_⟩
  · have hr : Rep (fun j => [w].getD j 0#64) (bitsOf [w]) := rep_bitsOf [w]
    rw [hr.bit p (by rw [bitsOf_length]; simpa using h.lt)]
    unfold fbit
    rw [Nat.div_eq_of_lt h.lt, Nat.mod_eq_of_lt h.lt]
    exact congrArg some h.bit
  · rw [word_ones w (Nat.le_of_lt h.lt)]; exact h.cnt

theorem block_select {x : Ptr} {W k p : Nat} (h : BSel (fun j => x.v.f (x.base + j)) W k p) :
    IsSelect (blockBits x W) k p := by
  have hl := h.lt
  have hr := rep_block x W
  refine ⟨?_, ?_⟩
  · rw [hr.bit p (by rw [blockBits_length]; exact hl)]
    exact congrArg some h.bit
  · rw [hr.ones (by rw [blockBits_length]; omega)]; exact h.cnt

/-! ## Facts about the branches without an implementation -/

theorem massert_false_debug {α : Type} {b : Build} (h : b.ndebug = false) (f : Unit → Outcome α) :
    (massert b false >>= f) = abort := by
  unfold massert; rw [h]; rfl

theorem massert_false_release {α : Type} {b : Build} (h : b.ndebug = true) (f : Unit → Outcome α) :
    (massert b false >>= f) = f () := by
  unfold massert; rw [h]; rfl

theorem popcountU64_unimpl {b : Build} {m : Nat} (hp : m = 2 ∨ m = 3 ∨ m = 4) (w : Word) :
    popcountU64 b m w = (massert b false >>= fun _ => ok 0) := by
  rcases hp with rfl | rfl | rfl <;> rfl

theorem wones_zero (n : Nat) : wones (fun _ => 0#64) n = 0 := by
  show wcnt 0#64 64 = 0
  decide

theorem psum_zero_words (n : Nat) : psum (wones fun _ => 0#64) n = 0 := by
  induction n with
  | zero => rfl
  | succ n ih => show psum _ n + wones (fun _ => 0#64) n = 0; rw [ih, wones_zero]

/-- A mode whose popcount part is not a `popcount_u64` mode, through the `rank` template. -/
theorem rankGeneric_unimpl {b : Build} {W mode i : Nat} {g : Scratch} {x : Ptr}
    (hp : exPopcount mode = 2 ∨ exPopcount mode = 3) (hW : 0 < W ∧ W ≤ 8)
    (hx : x.base + W ≤ x.v.len) (hi : i < 64 * W) :
    rankGeneric b W mode g x i = if b.ndebug then ok 0 else abort := by
  unfold rankGeneric
  rw [massert_ok (decide_eq_true hi), ok_bind]
  have hu := popcountU64_unimpl (b := b) (m := exPopcount mode) (by omega)
  obtain ⟨m, em, _⟩ := rankMask_ok (o := (i + 1) % 64) (by omega)
  have hat := ptrOK_block hx
  have hr : rankInBlock b (exPopcount mode) x i = (massert b false >>= fun _ => ok 0) := by
    unfold rankInBlock
    rw [em, ok_bind, hat (i / 64) (by omega), ok_bind, hu]
  cases hb : b.ndebug with
  | false =>
    rw [massert_false_debug hb] at hr
    show (rankInBlock b (exPopcount mode) x i >>= _) = abort
    rw [hr]
    rfl
  | true =>
    rw [massert_false_release hb] at hr
    have hC : ∀ j, j < W → (do let w ← x.at j; popcountU64 b (exPopcount mode) w) =
        ok (wones (fun _ => 0#64) j) := by
      intro j hj
      rw [hat j hj, ok_bind, hu, massert_false_release hb, wones_zero]
    show (rankInBlock b (exPopcount mode) x i >>= _) = ok 0
    rw [hr, ok_bind]
    show (match exSecond mode with
      | 0 => sumLoop (i / 64) (fun j => do let w ← x.at j; popcountU64 b (exPopcount mode) w) >>=
          fun s => ok (add64 s 0)
      | 1 => unrolled W g.counts (fun j => do let w ← x.at j; popcountU64 b (exPopcount mode) w) >>=
          fun counts => counts.get (i / 64) >>= fun c => ok (add64 c 0)
      | _ => massert b false >>= fun _ => ok 0) = ok 0
    split
    · rw [sumLoop_ok hW.2 hC (by omega), ok_bind, psum_zero_words]; rfl
    · obtain ⟨v, e, hv⟩ := unrolled_ok hW.1 hW.2 g.counts hC
      rw [e, ok_bind, hv (i / 64) (by omega), ok_bind, psum_zero_words]; rfl
    · exact massert_false_release hb _

theorem ltSel_le : ∀ row ∈ Tables.ltSel, ∀ v ∈ row, v ≤ 8 := by decide +kernel

theorem ltSelAt_le {i v : Nat} (h : ltSelAt i = ok v) : v ≤ 8 := by
  unfold ltSelAt look at h
  split at h
  · rename_i row hr
    split at h
    · rename_i a ha
      cases h
      exact ltSel_le row (List.mem_of_getElem? hr) _ (List.mem_of_getElem? ha)
    · cases h
  · cases h

theorem selectBroadwordSdsl_le {w : Word} {k p : Nat} (h : selectBroadwordSdsl w k = ok p) :
    p ≤ 64 := by
  have key : ∀ base i, base ≤ 56 → plusLtSel base i = ok p → p ≤ 64 := by
    intro base i hb h
    unfold plusLtSel at h
    cases e : ltSelAt i with
    | ok v =>
      rw [e, ok_bind] at h
      cases h
      have := ltSelAt_le e
      omega
    | ub f => rw [e] at h; cases h
    | abort => rw [e] at h; cases h
  unfold selectBroadwordSdsl at h
  cases eo : psOverflowAt (BitVec.ofNat 64 k + 1#64).toNat with
  | ub f => simp only [eo] at h; cases h
  | abort => simp only [eo] at h; cases h
  | ok o =>
    simp only [eo, ok_bind] at h
    split at h
    · split at h
      · split at h
        · exact key _ _ (by decide) h
        · exact key _ _ (by decide) h
      · split at h
        · exact key _ _ (by decide) h
        · exact key _ _ (by decide) h
    · split at h
      · split at h
        · exact key _ _ (by decide) h
        · exact key _ _ (by decide) h
      · split at h
        · exact key _ _ (by decide) h
        · exact key _ _ (by decide) h

/-- With a popcount that always returns 0 the loop of the `select` template runs to the end. -/
theorem selLoop_zero {b : Build} (hb : b.ndebug = true) {x : Ptr} {W : Nat}
    (hx : x.base + W ≤ x.v.len) : ∀ n i k c, i + n = W → k < W64 →
    ∃ c', selLoop b 4 x n i k c = ok (W, k, c') := by
  intro n
  induction n with
  | zero => intro i k c hi _; exact ⟨c, by rw [show W = i by omega]; rfl⟩
  | succ n ih =>
    intro i k c hi hk
    obtain ⟨c', e⟩ := ih (i + 1) k 0 (by omega) hk
    refine ⟨c', ?_⟩
    unfold selLoop
    rw [ptrOK_block hx i (by omega), ok_bind, popcountU64_unimpl (by omega),
      massert_false_release hb, ok_bind, if_neg (Nat.not_lt_zero _), sub64_eq (Nat.zero_le _) hk]
    exact e

theorem selectGeneric_pdep {b : Build} {W k : Nat} {x : Ptr} (hW : 0 < W) (hW2 : W ≤ 8)
    (hk : k < W64) (hx : x.base + W ≤ x.v.len) :
    (b.ndebug = false → selectGeneric b W SelectMode.pdep x k = abort) ∧
    (b.ndebug = true → (x.base + W = x.v.len → selectGeneric b W SelectMode.pdep x k = ub .oob) ∧
      ∀ p, selectGeneric b W SelectMode.pdep x k = ok p → 64 * W ≤ p) := by
  have hs : selectGeneric b W SelectMode.pdep x k = (do
    let r ← selLoop b 4 x W 0 k 0
    massert b (decide (r.2.1 < r.2.2))
    let w ← x.at r.1
    let s ← selectU64 b 0 w r.2.1
    ok (add64 (mul64 r.1 64) s)) := rfl
  rw [hs]
  constructor
  · intro hb
    obtain ⟨n, rfl⟩ : ∃ n, W = n + 1 := ⟨W - 1, by omega⟩
    unfold selLoop
    rw [ptrOK_block hx 0 (by omega), ok_bind, popcountU64_unimpl (by omega),
      massert_false_debug hb]
    rfl
  · intro hb
    obtain ⟨c, e⟩ := selLoop_zero hb hx W 0 k 0 (by omega) hk
    have hmass : massert b (decide (k < c)) = ok () := by
      unfold massert; rw [hb]; simp
    rw [e, ok_bind, hmass, ok_bind]
    constructor
    · intro hl
      have : x.at W = ub .oob := by
        unfold Ptr.at Vec.get
        rw [if_neg (by omega)]
      show (x.at W >>= _) = _
      rw [this]
      rfl
    · intro p h
      change (x.at W >>= fun w => selectBroadwordSdsl w k >>= fun s => ok (add64 (mul64 W 64) s)) = ok p at h
      cases ew : x.at W with
      | ub f => rw [ew] at h; cases h
      | abort => rw [ew] at h; cases h
      | ok w =>
        rw [ew, ok_bind] at h
        cases es : selectBroadwordSdsl w k with
        | ub f => rw [es] at h; cases h
        | abort => rw [es] at h; cases h
        | ok s =>
          rw [es, ok_bind] at h
          cases h
          have := selectBroadwordSdsl_le es
          rw [mul64_eq (by simp only [W64]; omega), add64_eq (by simp only [W64]; omega)]
          omega

/-! ## C20 popcount -/

/-- `popcount_u64` in both modes, in any build. -/
theorem C20_popcount (b : Build) {mode : Nat} (hm : mode ≤ 1) (w : Word) :
    popcountU64 b mode w = ok (ones (bitsOf [w]) 64) := by
  rw [popcountU64_ok b hm, word_ones w (Nat.le_refl _)]

/-- One 64-bit lane of `popcount_m256i` / `popcount_m512i`. -/
theorem C20_popcount_lane (w : Word) : popcountLane w = ones (bitsOf [w]) 64 := by
  rw [popcountLane_eq, word_ones w (Nat.le_refl _)]

/-- `byte_counts`: byte `j` of the result is the number of ones of byte `j`. -/
theorem C20_byte_counts (w : Word) {j : Nat} (hj : j < 8) :
    (byteCounts w).toNat / 256 ^ j % 256 =
      ones (bitsOf [w]) (8 * j + 8) - ones (bitsOf [w]) (8 * j) := by
  rw [word_ones w (by omega), word_ones w (by omega), byteCounts_eq, sideways_toNat]
  have h1 := ncnt_byte w.toNat j 8 (by omega)
  have h2 := by8_pkf (f := fun j => bo (by8 w.toNat j))
    (fun j _ => Nat.lt_of_le_of_lt (bo_le _) (by decide)) hj
  show by8 (pkf fun j => bo (by8 w.toNat j)) j = _
  rw [h2]
  unfold wcnt
  unfold bo
  omega

example : (byteCounts 0xF0F0000000000001#64).toNat / 256 ^ 6 % 256 = 4 :=
  (C20_byte_counts _ (by decide)).trans (by decide)

example : popcountU64 ⟨false, true, true, true⟩ 0 0xF0F0000000000001#64 = ok 9 :=
  (C20_popcount _ (by decide) _).trans (congrArg ok (by decide))
example : popcountLane 0xF0F0000000000001#64 = 9 := (C20_popcount_lane _).trans (by decide)

/-! ## C21 select in a word -/

/-- The five `select_u64` variants. -/
theorem C21_select_u64 (b : Build) {mode : Nat} (hm : mode ≤ 4) {w : Word} {k : Nat}
    (hk : k < ones (bitsOf [w]) 64) :
    ∃ p, selectU64 b mode w k = ok p ∧ IsSelect (bitsOf [w]) k p := by
  rw [word_ones w (Nat.le_refl _)] at hk
  obtain ⟨p, e, h⟩ := selectU64_ok b hm hk
  exact ⟨p, e, word_select h⟩

example : ∃ p, selectU64 ⟨false, true, true, true⟩ 2 0xF0F0000000000001#64 7 = ok p ∧
    IsSelect (bitsOf [0xF0F0000000000001#64]) 7 p :=
  C21_select_u64 _ (by decide) (by decide)
example : IsSelect (bitsOf [0xF0F0000000000001#64]) 7 62 := ⟨by decide, by decide⟩

section
variable {b : Build} {g : Scratch} {x : Ptr}

/-! ## C22, C23 rank in a block -/

/-- All implemented modes of `rank_u256`. -/
theorem C22_rank_u256 {mode : Nat} (hm : mode ∈ rank256Modes) (hg : g.sums 0 = 0)
    (hx : x.base + 4 ≤ x.v.len) {i : Nat} (hi : i < 256) :
    rankU256 b mode g x i = ok (rank (blockBits x 4) i) := by
  rw [rankU256_ok b hm hg (ptrOK_block hx) hi]
  congr 1
  exact ((rep_block x 4).ones (by rw [blockBits_length]; omega)).symm

/-- All implemented modes of `rank_u512`. -/
theorem C23_rank_u512 {mode : Nat} (hm : mode ∈ rank512Modes) (hg : g.sums 0 = 0)
    (hx : x.base + 8 ≤ x.v.len) {i : Nat} (hi : i < 512) :
    rankU512 b mode g x i = ok (rank (blockBits x 8) i) := by
  rw [rankU512_ok b hm hg (ptrOK_block hx) hi]
  congr 1
  exact ((rep_block x 8).ones (by rw [blockBits_length]; omega)).symm

/-! ## C24 select in a block -/

/-- All implemented modes of `select_u256`. -/
theorem C24_select_u256 {mode : Nat} (hm : mode ∈ select256Modes) (hg : g.sums 0 = 0)
    (hx : x.base + 4 ≤ x.v.len) {k : Nat} (hk : k < ones (blockBits x 4) 256) :
    ∃ p, selectU256 b mode g x k = ok p ∧ IsSelect (blockBits x 4) k p := by
  rw [(rep_block x 4).ones (by rw [blockBits_length]; omega)] at hk
  obtain ⟨p, e, h⟩ := selectU256_ok b hm hg (ptrOK_block hx) hk
  exact ⟨p, e, block_select h⟩

/-- All implemented modes of `select_u512`. -/
theorem C24_select_u512 {mode : Nat} (hm : mode ∈ select512Modes) (hg : g.sums 0 = 0)
    (hx : x.base + 8 ≤ x.v.len) {k : Nat} (hk : k < ones (blockBits x 8) 512) :
    ∃ p, selectU512 b mode g x k = ok p ∧ IsSelect (blockBits x 8) k p := by
  rw [(rep_block x 8).ones (by rw [blockBits_length]; omega)] at hk
  obtain ⟨p, e, h⟩ := selectU512_ok b hm hg (ptrOK_block hx) hk
  exact ⟨p, e, block_select h⟩

/-- A block of words, some full, some empty, followed by another block. -/
def exPtr : Ptr := ⟨Vec.ofList [1#64, 0#64, 0xFFFFFFFFFFFFFFFF#64, 0x8000000000000001#64, 0#64, 6#64,
  0#64, 1#64, 9#64, 9#64], 1⟩

example : rankU256 ⟨false, true, true, true⟩ RankMode.avx2_parallel ⟨fun _ => 99, fun j => 7 * j⟩ exPtr 200 =
    ok 66 :=
  (C22_rank_u256 (by decide) rfl (by decide) (by decide)).trans (congrArg ok (by decide +kernel))
example : rankU512 ⟨false, true, true, true⟩ RankMode.avx512_unrolled ⟨fun _ => 99, fun j => 7 * j⟩ exPtr 511 =
    ok 71 :=
  (C23_rank_u512 (by decide) rfl (by decide) (by decide)).trans (congrArg ok (by decide +kernel))
example : ∃ p, selectU512 ⟨false, true, true, true⟩ SelectMode.avx512_avx512_pdep
      ⟨fun _ => 99, fun j => 7 * j⟩ exPtr 66 = ok p ∧ IsSelect (blockBits exPtr 8) 66 p :=
  C24_select_u512 (by decide) rfl (by decide) (by decide +kernel)
example : ∃ p, selectU256 ⟨false, true, true, true⟩ SelectMode.avx2_avx512_pdep
      ⟨fun _ => 99, fun j => 7 * j⟩ exPtr 65 = ok p ∧ IsSelect (blockBits exPtr 4) 65 p :=
  C24_select_u256 (by decide) rfl (by decide) (by decide +kernel)

/-! ## C25 unsupported combinations -/

/-- The block types exported by types.hpp only use implemented combinations. -/
theorem C25_exported : ∀ t ∈ exportedBlocks, t.Supported := by decide

/-- `rank_u256` with a declared mode that has no 256-bit implementation: debug builds abort,
release builds return 0 whatever the block contains. -/
theorem C25_rank_u256 {mode : Nat} (hm : mode ∈ RankMode.all) (hn : mode ∉ rank256Modes)
    (hx : x.base + 4 ≤ x.v.len) {i : Nat} (hi : i < 256) :
    rankU256 b mode g x i = if b.ndebug then ok 0 else abort := by
  have hc : ∀ m ∈ RankMode.all, m ∉ rank256Modes →
      m = RankMode.avx512_loop ∨ m = RankMode.avx512_unrolled ∨ m = RankMode.avx512_parallel := by
    decide
  rcases hc mode hm hn with rfl | rfl | rfl
  · exact rankGeneric_unimpl (g := g) (W := 4) (by decide) (by decide) hx hi
  · exact rankGeneric_unimpl (g := g) (W := 4) (by decide) (by decide) hx hi
  · exact rankGeneric_unimpl (g := g) (W := 4) (by decide) (by decide) hx hi

/-- The same for `rank_u512`. -/
theorem C25_rank_u512 {mode : Nat} (hm : mode ∈ RankMode.all) (hn : mode ∉ rank512Modes)
    (hx : x.base + 8 ≤ x.v.len) {i : Nat} (hi : i < 512) :
    rankU512 b mode g x i = if b.ndebug then ok 0 else abort := by
  have hc : ∀ m ∈ RankMode.all, m ∉ rank512Modes →
      m = RankMode.avx2_loop ∨ m = RankMode.avx2_unrolled ∨ m = RankMode.avx2_parallel := by
    decide
  rcases hc mode hm hn with rfl | rfl | rfl
  · exact rankGeneric_unimpl (g := g) (W := 8) (by decide) (by decide) hx hi
  · exact rankGeneric_unimpl (g := g) (W := 8) (by decide) (by decide) hx hi
  · exact rankGeneric_unimpl (g := g) (W := 8) (by decide) (by decide) hx hi

/-- `select_u256` with a declared mode that has no 256-bit implementation: debug builds abort;
release builds return 0 or, for `select_modes::pdep`, leave the block. -/
theorem C25_select_u256 {mode : Nat} (hm : mode ∈ SelectMode.all) (hn : mode ∉ select256Modes)
    (hx : x.base + 4 ≤ x.v.len) {k : Nat} (hk : k < 2 ^ 64) :
    (b.ndebug = false → selectU256 b mode g x k = abort) ∧
    (b.ndebug = true → mode ≠ SelectMode.pdep → selectU256 b mode g x k = ok 0) ∧
    (b.ndebug = true → mode = SelectMode.pdep →
      (x.base + 4 = x.v.len → selectU256 b mode g x k = ub .oob) ∧
      ∀ p, selectU256 b mode g x k = ok p → 256 ≤ p) := by
  have hc : ∀ m ∈ SelectMode.all, m ∉ select256Modes →
      m = SelectMode.avx512_avx512_pdep ∨ m = SelectMode.pdep := by decide
  rcases hc mode hm hn with rfl | rfl
  · have h : selectU256 b SelectMode.avx512_avx512_pdep g x k = (massert b false >>= fun _ => ok 0) := rfl
    rw [h]
    exact ⟨fun h => massert_false_debug h _, fun h _ => massert_false_release h _,
      fun _ h => absurd h (by decide)⟩
  · have h := selectGeneric_pdep (b := b) (x := x) (W := 4) (k := k) (by decide) (by decide) hk hx
    exact ⟨h.1, fun _ h => absurd rfl h, fun hb _ => h.2 hb⟩

/-- The same for `select_u512`. -/
theorem C25_select_u512 {mode : Nat} (hm : mode ∈ SelectMode.all) (hn : mode ∉ select512Modes)
    (hx : x.base + 8 ≤ x.v.len) {k : Nat} (hk : k < 2 ^ 64) :
    (b.ndebug = false → selectU512 b mode g x k = abort) ∧
    (b.ndebug = true → mode ≠ SelectMode.pdep → selectU512 b mode g x k = ok 0) ∧
    (b.ndebug = true → mode = SelectMode.pdep →
      (x.base + 8 = x.v.len → selectU512 b mode g x k = ub .oob) ∧
      ∀ p, selectU512 b mode g x k = ok p → 512 ≤ p) := by
  have hc : ∀ m ∈ SelectMode.all, m ∉ select512Modes →
      m = SelectMode.avx2_avx512_pdep ∨ m = SelectMode.pdep := by decide
  rcases hc mode hm hn with rfl | rfl
  · have h : selectU512 b SelectMode.avx2_avx512_pdep g x k = (massert b false >>= fun _ => ok 0) := rfl
    rw [h]
    exact ⟨fun h => massert_false_debug h _, fun h _ => massert_false_release h _,
      fun _ h => absurd h (by decide)⟩
  · have h := selectGeneric_pdep (b := b) (x := x) (W := 8) (k := k) (by decide) (by decide) hk hx
    exact ⟨h.1, fun _ h => absurd rfl h, fun hb _ => h.2 hb⟩

/-- The last block of an array, all ones: the answers would be 256 and 3. -/
def exLast : Ptr := ⟨⟨4, fun _ => BitVec.allOnes 64⟩, 0⟩

example : rankU256 ⟨true, true, true, true⟩ RankMode.avx512_loop .init exLast 255 = ok 0 ∧
    rankU256 ⟨false, true, true, true⟩ RankMode.avx512_loop .init exLast 255 = abort :=
  ⟨C25_rank_u256 (by decide) (by decide) (by decide) (by decide),
    C25_rank_u256 (by decide) (by decide) (by decide) (by decide)⟩
example : selectU256 ⟨true, true, true, true⟩ SelectMode.pdep .init exLast 3 = ub .oob :=
  ((C25_select_u256 (by decide) (by decide) (by decide) (k := 3) (by decide)).2.2 rfl rfl).1 rfl
/-- When another block follows, the answer for bit 3 is 259. -/
example : selectU256 ⟨true, true, true, true⟩ SelectMode.pdep .init
    ⟨⟨8, fun _ => BitVec.allOnes 64⟩, 0⟩ 3 = ok 259 := by decide +kernel

end

/-! ## C26 blocks of one word -/

section
variable {b : Build} {x : Ptr}

/-- `block64_type::rank`. -/
theorem C26_rank64 (hx : x.base < x.v.len) {i : Nat} (hi : i < 64) :
    rankBlock64 b x i = ok (rank (blockBits x 1) i) := by
  rw [rankBlock64_ok b (ptrOK_block (W := 1) (by omega)) hi]
  congr 1
  exact ((rep_block x 1).ones (by rw [blockBits_length]; omega)).symm

/-- `block64_type::select`. -/
theorem C26_select64 (hx : x.base < x.v.len) {k : Nat} (hk : k < ones (blockBits x 1) 64) :
    ∃ p, selectBlock64 b x k = ok p ∧ IsSelect (blockBits x 1) k p := by
  rw [(rep_block x 1).ones (by rw [blockBits_length]; omega)] at hk
  obtain ⟨p, e, h⟩ := selectBlock64_ok b (ptrOK_block (W := 1) (by omega)) hk
  exact ⟨p, e, block_select h⟩

example : rankBlock64 ⟨false, true, true, true⟩ ⟨exPtr.v, 3⟩ 63 = ok 2 :=
  (C26_rank64 (by decide) (by decide)).trans (congrArg ok (by decide +kernel))
example : ∃ p, selectBlock64 ⟨false, true, true, true⟩ ⟨exPtr.v, 3⟩ 1 = ok p ∧
    IsSelect (blockBits ⟨exPtr.v, 3⟩ 1) 1 p := C26_select64 (by decide) (by decide +kernel)
example : IsSelect (blockBits ⟨exPtr.v, 3⟩ 1) 1 63 := ⟨by decide +kernel, by decide +kernel⟩

end

end MRS.Props
