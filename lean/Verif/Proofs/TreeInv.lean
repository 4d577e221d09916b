import Verif.Proofs.TreeBuild

/-! # The invariant of a whole segment tree -/

set_option autoImplicit false

namespace MRS
open Outcome Spec

/-- Removes 64-bit wrapping where the context bounds the operands, then closes the linear goal. -/
macro "arith64" : tactic => `(tactic|
  ((try simp (disch := (simp only [W64]; omega)) only [add64_eq, mul64_eq, Nat.mod_eq_of_lt]) <;> omega))

/-- Number of values covered by one node of the topmost of the given levels (root first). -/
def span (leaf : NodeCfg) : List NodeCfg → Nat
  | [] => leaf.fanout
  | c :: cs => c.fanout * span leaf cs

/-- Number of nodes of each level, root first. -/
def lvlCounts (leaf : NodeCfg) (n : Nat) : List NodeCfg → List Nat
  | [] => [ceilDiv n leaf.fanout]
  | c :: cs => ceilDiv n (c.fanout * span leaf cs) :: lvlCounts leaf n cs

/-- Total size of the given levels in bytes. -/
def lvlBytes (leaf : NodeCfg) (n : Nat) : List NodeCfg → Nat
  | [] => ceilDiv n leaf.fanout * leaf.bytes
  | c :: cs => ceilDiv n (c.fanout * span leaf cs) * c.bytes + lvlBytes leaf n cs

/-- The levels, root first, stored one after the other from offset `off`. -/
def LvlRep (M : Nat) (A : Nat → Nat) (n : Nat) (m : Mem) (leaf : NodeCfg) : Nat → List NodeCfg → Prop
  | off, [] => LeafLvl M A n m leaf off
  | off, c :: cs => InnerLvl A n m c (span leaf cs) off ∧
      LvlRep M A n m leaf (off + ceilDiv n (c.fanout * span leaf cs) * c.bytes) cs

/-- Every node of every level is suitably aligned. -/
def LvlAlign (b : Build) (addr n : Nat) (leaf : NodeCfg) : Nat → List NodeCfg → Prop
  | off, [] => ∀ idx, idx < ceilDiv n leaf.fanout → AlignOK b leaf addr (off + idx * leaf.bytes)
  | off, c :: cs =>
      (∀ idx, idx < ceilDiv n (c.fanout * span leaf cs) → AlignOK b c addr (off + idx * c.bytes)) ∧
      LvlAlign b addr n leaf (off + ceilDiv n (c.fanout * span leaf cs) * c.bytes) cs

/-- The header and every node are suitably aligned. -/
structure TreeAlign (b : Build) (addr n : Nat) (leaf : NodeCfg) (cs : List NodeCfg) : Prop where
  hdr : b.strictAlign = true → addr % 4 = 0
  lvl : LvlAlign b addr n leaf (4 * (cs.length + 1)) cs

theorem LvlAlign.of_lax {b : Build} (h : b.strictAlign = false) (addr n : Nat) (leaf : NodeCfg) :
    ∀ (cs : List NodeCfg) (off : Nat), LvlAlign b addr n leaf off cs := by
  intro cs
  induction cs with
  | nil => intro off idx _ hs; rw [h] at hs; cases hs
  | cons c cs ih => exact fun off => ⟨fun idx _ hs => (by rw [h] at hs; cases hs), ih _⟩

theorem TreeAlign.of_lax {b : Build} (h : b.strictAlign = false) (addr n : Nat) (leaf : NodeCfg)
    (cs : List NodeCfg) : TreeAlign b addr n leaf cs :=
  ⟨fun hs => (by rw [h] at hs; cases hs), LvlAlign.of_lax h addr n leaf cs _⟩

/-- A segment tree over the values `A 0 .. A (n-1)`, all at most `M`. -/
structure TreeInv (leaf : NodeCfg) (cs : List NodeCfg) (M : Nat) (A : Nat → Nat) (n : Nat)
    (t : Tree) : Prop where
  size : t.size = n
  num : t.num = some 0
  ptr : t.ptr = some (4 * (cs.length + 1))
  npos : 0 < n
  nspan : n ≤ span leaf cs
  nle : n ≤ 2 ^ 24
  le : ∀ j, A j ≤ M
  zero : ∀ j, n ≤ j → A j = 0
  msize : t.mem.size = 4 * (cs.length + 1) + lvlBytes leaf n cs
  hdr : ∀ l k, (lvlCounts leaf n cs)[l]? = some k → rd t.mem (l * 4) 4 = k
  lvl : LvlRep M A n t.mem leaf (4 * (cs.length + 1)) cs

/-! ## Capacity of the levels -/

theorem LevelFits.mono {M M' : Nat} {c : NodeCfg} {step : Nat} (h : LevelFits M' c step)
    (hM : M ≤ M') : LevelFits M c step := by
  have h1 : c.fanout * step * M ≤ c.fanout * step * M' := Nat.mul_le_mul_left _ hM
  have h2 : c.seg * step * M ≤ c.seg * step * M' := Nat.mul_le_mul_left _ hM
  exact ⟨by have := h.sum; omega, by have := h.key; omega⟩

theorem LevelSimd.mono {M M' : Nat} {c : NodeCfg} {step : Nat} (h : LevelSimd M' c step)
    (hM : M ≤ M') : LevelSimd M c step := by
  have h1 : c.fanout * step * M ≤ c.fanout * step * M' := Nat.mul_le_mul_left _ hM
  have h2 : (c.seg + 1) * step * M ≤ (c.seg + 1) * step * M' := Nat.mul_le_mul_left _ hM
  exact ⟨by have := h.sum; omega, by have := h.key; omega⟩

/-! ## Convenient forms of the level lemmas -/

section
variable {b : Build} {A : Nat → Nat} {M n : Nat} {m : Mem} {c : NodeCfg} {step off : Nat}

theorem inner_sum' (wf : c.WF) (hA : ∀ j, A j ≤ M) (hf : LevelFits M c step)
    (hl : InnerLvl A n m c step off) {o idx child lo hi : Nat} (hstep : 0 < step)
    (hidx : idx * (c.fanout * step) < n) (hc : child < c.fanout)
    (ho : o = off + idx * c.bytes) (hlo : lo = idx * (c.fanout * step)) (hhi : hi = lo + child * step)
    (ha : ∀ idx, idx < ceilDiv n (c.fanout * step) → AlignOK b c m.addr (off + idx * c.bytes)) :
    nodeSum b c m o child = ok (psum A hi - psum A lo) := by
  have hF : 0 < c.fanout * step := by
    rw [wf.fanout_eq]; exact Nat.mul_pos (Nat.mul_pos wf.num_pos wf.seg_pos) hstep
  have h := (ceilDiv_lt_iff hF).2 hidx
  subst ho hlo hhi
  exact inner_sum_ok wf hA hf hl h hc (ha idx h)

theorem inner_update' {o idx child k i lo : Nat} {sign : Bool} (wf : c.WF)
    (hna : c.sumAligned = false) (hA : ∀ j, A j ≤ M)
    (hf : LevelFits M c step) (hl : InnerLvl A n m c step off) (hstep : 0 < step)
    (hidx : idx * (c.fanout * step) < n) (hc : child < c.fanout)
    (ho : o = off + idx * c.bytes) (hlo : lo = idx * (c.fanout * step)) (hk : k = child + 1)
    (ha : ∀ idx, idx < ceilDiv n (c.fanout * step) → AlignOK b c m.addr (off + idx * c.bytes))
    (hi1 : lo + child * step ≤ i) (hi2 : i < lo + child * step + step)
    (hp : sign = true → 1 ≤ A i) :
    ∃ m', nodeUpdate b c m o k sign = ok m' ∧ InnerLvl (updA A i sign) n m' c step off ∧
      SameOff m m' off (off + ceilDiv n (c.fanout * step) * c.bytes) := by
  have hF : 0 < c.fanout * step := by
    rw [wf.fanout_eq]; exact Nat.mul_pos (Nat.mul_pos wf.num_pos wf.seg_pos) hstep
  have h := (ceilDiv_lt_iff hF).2 hidx
  subst ho hlo hk
  obtain ⟨m', e, h1, h2⟩ := inner_update_ok wf hA hf hl h hc (ha idx h) (.of_unaligned hna _ _) hi1 hi2 hp
  refine ⟨m', e, h1, h2.mono (by omega) ?_⟩
  have : (idx + 1) * c.bytes ≤ ceilDiv n (c.fanout * step) * c.bytes := Nat.mul_le_mul_right _ h
  rw [Nat.succ_mul] at this
  omega

theorem inner_search' {o idx x lo : Nat} (wf : c.WF) (hA : ∀ j, A j ≤ M) (hf : LevelFits M c step)
    (hg : c.guard ≠ .assertLt) (hl : InnerLvl A n m c step off) (hstep : 0 < step)
    (hidx : idx * (c.fanout * step) < n)
    (ho : o = off + idx * c.bytes) (hlo : lo = idx * (c.fanout * step))
    (ha : ∀ idx, idx < ceilDiv n (c.fanout * step) → AlignOK b c m.addr (off + idx * c.bytes))
    (hxw : x < W64) {hi : Nat} (hhi : hi = lo + c.fanout * step) (hx : x < psum A hi - psum A lo)
    (hs : c.simd b = true → SimdOK c (innerS A lo step) x) :
    ∃ p lo' hi', nodeSearch b c m o x = ok (p + 1, psum A lo' - psum A lo) ∧
      p < c.fanout ∧ lo' = lo + p * step ∧ hi' = lo' + step ∧ psum A lo' - psum A lo ≤ x ∧
      x < psum A hi' - psum A lo := by
  have hF : 0 < c.fanout * step := by
    rw [wf.fanout_eq]; exact Nat.mul_pos (Nat.mul_pos wf.num_pos wf.seg_pos) hstep
  have h := (ceilDiv_lt_iff hF).2 hidx
  subst ho hlo hhi
  obtain ⟨p, e, h1, h2, h3⟩ := inner_search_ok wf hA hf hg hl h (ha idx h) hxw hx hs
  exact ⟨p, _, _, e, h1, rfl, rfl, h2, h3⟩

theorem leaf_sum' (wf : c.WF) (hf : LevelFits M c 1) (hl : LeafLvl M A n m c off)
    {o idx child lo hi : Nat} (hc : child < c.fanout) (hn : idx * c.fanout + child < n)
    (ho : o = off + idx * c.bytes) (hlo : lo = idx * c.fanout) (hhi : hi = lo + child + 1)
    (ha : ∀ idx, idx < ceilDiv n c.fanout → AlignOK b c m.addr (off + idx * c.bytes)) :
    nodeSum b c m o child = ok (psum A hi - psum A lo) := by
  have hF : 0 < c.fanout := by
    rw [wf.fanout_eq]; exact Nat.mul_pos wf.num_pos wf.seg_pos
  have h := (ceilDiv_lt_iff hF).2 (show idx * c.fanout < n by omega)
  subst ho hlo hhi
  exact leaf_sum_ok wf hf hl h hc hn (ha idx h)

theorem leaf_update' {o idx child i : Nat} {sign : Bool} (wf : c.WF) (hf : LevelFits M c 1)
    (hl : LeafLvl M A n m c off) (hc : child < c.fanout)
    (ho : o = off + idx * c.bytes)
    (ha : ∀ idx, idx < ceilDiv n c.fanout → AlignOK b c m.addr (off + idx * c.bytes))
    (hu : UpOK b c m.addr (off + idx * c.bytes))
    (hi : i = idx * c.fanout + child) (hn : i < n)
    (hp : sign = true → 1 ≤ A i) (hM : sign = false → A i + 1 ≤ M) :
    ∃ m', nodeUpdate b c m o child sign = ok m' ∧ LeafLvl M (updA A i sign) n m' c off ∧
      SameOff m m' off (off + ceilDiv n c.fanout * c.bytes) := by
  have hF : 0 < c.fanout := by
    rw [wf.fanout_eq]; exact Nat.mul_pos wf.num_pos wf.seg_pos
  have h := (ceilDiv_lt_iff hF).2 (show idx * c.fanout < n by omega)
  subst ho
  obtain ⟨m', e, h1, h2⟩ := leaf_update_ok wf hf hl h hc (ha idx h) hu hi hn hp hM
  refine ⟨m', e, h1, h2.mono (by omega) ?_⟩
  have : (idx + 1) * c.bytes ≤ ceilDiv n c.fanout * c.bytes := Nat.mul_le_mul_right _ h
  rw [Nat.succ_mul] at this
  omega

theorem leaf_search' {o idx x lo : Nat} (wf : c.WF) (hf : LevelFits M c 1)
    (hsimd : LevelSimd M c 1) (hz : ∀ j, n ≤ j → A j = 0)
    (hl : LeafLvl M A n m c off) (hidx : idx * c.fanout < n)
    (ho : o = off + idx * c.bytes) (hlo : lo = idx * c.fanout)
    (ha : ∀ idx, idx < ceilDiv n c.fanout → AlignOK b c m.addr (off + idx * c.bytes))
    (hxw : x < W64) {hi : Nat} (hhi : hi = lo + c.fanout) (hx : x < psum A hi - psum A lo) :
    ∃ p lo', nodeSearch b c m o x = ok (p, psum A lo' - psum A lo) ∧
      p < c.fanout ∧ lo' = lo + p ∧ lo' < n ∧ psum A lo' - psum A lo ≤ x ∧
      x < psum A (lo' + 1) - psum A lo := by
  have hF : 0 < c.fanout := by
    rw [wf.fanout_eq]; exact Nat.mul_pos wf.num_pos wf.seg_pos
  have h := (ceilDiv_lt_iff hF).2 hidx
  subst ho hlo hhi
  obtain ⟨p, e, h1, h2, h3, h4⟩ := leaf_search_ok wf hf hsimd hz hl h (ha idx h) hxw hx
  exact ⟨p, _, e, h1, rfl, h2, h3, h4⟩

end

theorem psum_lt_idx {A : Nat → Nat} {n lo hi : Nat} (hz : ∀ j, n ≤ j → A j = 0)
    (h : psum A lo < psum A hi) : lo < n := by
  rcases Nat.lt_or_ge lo n with h1 | h1
  · exact h1
  · have h2 : psum A hi ≤ psum A lo := by
      rcases Nat.le_total lo hi with h3 | h3
      · rw [psum_beyond hz h1, psum_beyond hz (Nat.le_trans h1 h3)]; exact Nat.le_refl _
      · exact psum_mono A h3
    omega

theorem inner_simd' {A : Nat → Nat} {M : Nat} {c : NodeCfg} {step : Nat} (wf : c.WF)
    (hA : ∀ j, A j ≤ M) (hs : LevelSimd M c step) {lo hi x : Nat} (hhi : hi = lo + c.fanout * step)
    (hx : x < psum A hi - psum A lo) : SimdOK c (innerS A lo step) x := by
  subst hhi
  exact inner_simd wf hA hs hx

theorem psum_total_lt {A : Nat → Nat} {M n : Nat} (hA : ∀ j, A j ≤ M) (hM : M ≤ 512)
    (hn : n ≤ 2 ^ 24) (k : Nat) (hz : ∀ j, n ≤ j → A j = 0) : psum A k ≤ 2 ^ 33 := by
  have h1 : psum A k ≤ psum A n := by
    rcases Nat.le_total k n with h | h
    · exact psum_mono A h
    · rw [psum_beyond hz h]; exact Nat.le_refl _
  have h2 := psum_diff_le hA 0 n
  have h3 : n * M ≤ 2 ^ 24 * 512 := Nat.mul_le_mul hn hM
  rw [Nat.zero_add] at h2
  have h4 : psum A 0 = 0 := rfl
  omega

/-- What `search(x)` must return. -/
structure Searched (A : Nat → Nat) (n x : Nat) (r : Nat × Nat) : Prop where
  lt : r.1 < n
  sum : r.2 = psum A r.1
  lo : psum A r.1 ≤ x
  hi : x < psum A (r.1 + 1)

theorem Tree.base_ok {t : Tree} {p : Nat} (h : t.ptr = some p) : t.base = ok p := by
  unfold Tree.base; rw [h]

theorem Tree.nn_ok {b : Build} {t : Tree} {l : Nat} (h : t.num = some 0)
    (hb : l * 4 + 4 ≤ t.mem.size) (ha : b.strictAlign = true → t.mem.addr % 4 = 0) :
    t.nn b l = ok (rd t.mem (l * 4) 4) := by
  unfold Tree.nn; rw [h]
  simp only [Nat.zero_add]
  rw [load_ok hb]
  intro hs; have := ha hs; omega

end MRS
