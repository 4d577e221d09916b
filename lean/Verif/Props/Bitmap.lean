import Verif.Proofs.History

/-!
# C01–C11, C19, C40: the public interface of `mutable_bitmap`

`c` ranges over all instances (`fam`, `Height`, block type, build flags), `ops` over all sequences
of `build` and `flip` calls on one object that respect the documented preconditions (`Life`),
`g` over the contents left in the function-local static arrays (whose entry `sums[0]` is 0 from
program start and never written).  `c.logical ops` is the bitmap the caller believes to hold, a
list of booleans computed by `Spec` only.
-/

set_option autoImplicit false

namespace MRS.Props
open MRS Outcome Spec

/-! ## Concrete instances used as non-triviality witnesses -/

/-- `mutable_bitmap<avx2::segment_tree<1>, block256_type_a>`, debug build with SIMD. -/
def exCfg : Config := ⟨⟨false, true, true, false⟩, .avx2, 1, block256A⟩

/-- `mutable_bitmap<avx512::segment_tree<1>, block512_type_a>`, release build, misaligned accesses
forbidden. -/
def exCfg512 : Config := ⟨⟨true, true, true, true⟩, .avx512, 1, block512A⟩

theorem exCfg_valid : exCfg.Valid 16 5 :=
  ⟨by decide, by decide, by decide, by decide, by decide⟩

theorem exCfg512_valid : exCfg512.Valid 4096 5 :=
  ⟨by decide, by decide, by decide, by decide, by decide⟩

theorem exCfg_debug (R : List Bool) : exCfg.DebugOK R := .of_fam (by decide) R

/-- Five words, two blocks of 256 bits, the second one padded; then two flips, one in the padding. -/
def exOps : List Op :=
  buildFlips 16 [5#64, 0#64, 0x8000000000000000#64, 0#64, 1#64] [0, 500]

theorem exOps_life : exCfg.Life exOps :=
  life_buildFlips exCfg_valid (exCfg_debug _) (by decide +kernel)

theorem exOps_life512 : exCfg512.Life
    (buildFlips 4096 [5#64, 0#64, 0x8000000000000000#64, 0#64, 1#64] [0, 500]) :=
  life_buildFlips exCfg512_valid (Or.inl rfl) (by decide +kernel)

example : exCfg.logical exOps ≠ [] ∧ (exCfg.logical exOps).length = 512 ∧
    ones (exCfg.logical exOps) 512 = 4 := by decide +kernel

/-! ## C01 access -/

/-- Bits after a sequence of flips: inverted once per occurrence of the position. -/
theorem flips_get (is : List Nat) : ∀ (B : List Bool) (i : Nat) (h : i < B.length),
    (flips B is)[i]? = some (B[i] ^^ decide (is.count i % 2 = 1)) := by
  induction is with
  | nil => intro B i h; simp [flips, h]
  | cons j is ih =>
    intro B i h
    rw [flips_cons, ih (Spec.flip B j) i (by rw [flip_length]; exact h)]
    have hg := flip_get (i := j) h
    obtain ⟨_, hg⟩ := List.getElem?_eq_some_iff.1 hg
    rw [hg, List.count_cons]
    by_cases e : i = j
    · subst e
      simp only [if_true, beq_self_eq_true]
      congr 1
      by_cases hp : is.count i % 2 = 1
      · simp [hp, show ¬ (is.count i + 1) % 2 = 1 by omega]
      · simp [hp, show (is.count i + 1) % 2 = 1 by omega]
    · have : ¬ (j == i) = true := by simpa using fun h => e h.symm
      simp [e, this]

theorem content_get {m : Nat} {ws : List Word} {is : List Nat} {i : Nat}
    (hi : i < (content m ws is).length) :
    (content m ws is)[i]? = some ((if i < 64 * ws.length then
      (ws.getD (i / 64) 0#64).getLsbD (i % 64) else false) ^^ decide (is.count i % 2 = 1)) := by
  unfold content at hi ⊢
  rw [flips_length] at hi
  rw [flips_get is _ i hi]
  have h2 := rebuilt_get (m := m) (old := []) (ws := ws) (i := i) (by rw [rebuilt_nil]; exact hi)
  rw [rebuilt_nil] at h2
  obtain ⟨_, h2⟩ := List.getElem?_eq_some_iff.1 h2
  rw [h2]; simp

/-- C01: after any valid life, `access(i)` is the `i`-th bit of the logical bitmap. -/
theorem C01_access {c : Config} {ops : List Op} (h : c.Life ops) :
    ∃ bm, c.run ops = ok bm ∧
      ∀ i (hi : i < (c.logical ops).length), bmAccess c bm i = ok (c.logical ops)[i] := by
  obtain ⟨bm, e, ha⟩ := Config.run_ok h
  exact ⟨bm, e, fun i hi => ha.access hi⟩

/-- C01 for a build followed by flips, in terms of the input words and the number of flips. -/
theorem C01_access_build_flips {c : Config} {addr : Nat} {ws : List Word} {is : List Nat}
    (h : c.Life (buildFlips addr ws is)) :
    ∃ bm, c.run (buildFlips addr ws is) = ok bm ∧
      bmSize bm = (pad (bitsOf ws) c.blk.width.bits).length ∧
      ∀ i, i < bmSize bm →
        bmAccess c bm i =
          ok ((if i < 64 * ws.length then (ws.getD (i / 64) 0#64).getLsbD (i % 64) else false) ^^
            decide (is.count i % 2 = 1)) := by
  obtain ⟨bm, e, ha⟩ := Config.run_ok h
  rw [logical_buildFlips] at ha
  have hs := ha.size
  unfold content at hs
  rw [flips_length] at hs
  refine ⟨bm, e, hs, ?_⟩
  intro i hlt
  rw [hs] at hlt
  have hc : i < (content c.blk.width.bits ws is).length := by unfold content; rw [flips_length]; exact hlt
  rw [ha.access hc]
  obtain ⟨_, h1⟩ := List.getElem?_eq_some_iff.1 (content_get hc)
  rw [h1]

example : ∃ bm, exCfg.run exOps = ok bm ∧ bmAccess exCfg bm 2 = ok true ∧
    bmAccess exCfg bm 0 = ok false ∧ bmAccess exCfg bm 500 = ok true := by
  obtain ⟨bm, e, h⟩ := C01_access exOps_life
  exact ⟨bm, e, (h 2 (by decide +kernel)).trans (congrArg ok (by decide +kernel)),
    (h 0 (by decide +kernel)).trans (congrArg ok (by decide +kernel)),
    (h 500 (by decide +kernel)).trans (congrArg ok (by decide +kernel))⟩

/-! ## C02 rank -/

/-- C02: `rank(i)` is the number of ones at positions `0..i`. -/
theorem C02_rank {c : Config} {ops : List Op} (h : c.Life ops) :
    ∃ bm, c.run ops = ok bm ∧ ∀ g : Scratch, g.sums 0 = 0 →
      ∀ i, i < (c.logical ops).length → bmRank c g bm i = ok (Spec.rank (c.logical ops) i) := by
  obtain ⟨bm, e, ha⟩ := Config.run_ok h
  exact ⟨bm, e, fun g hg i hi => ha.rank hg hi⟩

example : ∃ bm, exCfg.run exOps = ok bm ∧ ∀ g : Scratch, g.sums 0 = 0 →
    bmRank exCfg g bm 511 = ok 4 ∧ bmRank exCfg g bm 191 = ok 2 := by
  obtain ⟨bm, e, h⟩ := C02_rank exOps_life
  exact ⟨bm, e, fun g hg => ⟨(h g hg 511 (by decide +kernel)).trans (congrArg ok (by decide +kernel)),
    (h g hg 191 (by decide +kernel)).trans (congrArg ok (by decide +kernel))⟩⟩

/-! ## C03 select -/

/-- C03: for `k` below the number of ones, `select(k)` is the position of the `k`-th one.
The side condition `SelectSafe` only concerns `avx2` trees of height 4 with SIMD code over 512-bit
blocks (see C28). -/
theorem C03_select {c : Config} {ops : List Op} (h : c.Life ops)
    (hs : c.SelectSafe (ones (c.logical ops) (c.logical ops).length)) :
    ∃ bm, c.run ops = ok bm ∧ ∀ g : Scratch, g.sums 0 = 0 →
      ∀ k, k < ones (c.logical ops) (c.logical ops).length →
        ∃ p, bmSelect c g bm k = ok p ∧ IsSelect (c.logical ops) k p := by
  obtain ⟨bm, e, ha⟩ := Config.run_ok h
  exact ⟨bm, e, fun g hg k hk => ha.select hg hs hk⟩

/-- The position is unique, so C03 determines the answer. -/
theorem C03_select_unique {B : List Bool} {k p q : Nat} (hp : IsSelect B k p) (hq : IsSelect B k q) :
    p = q := isSelect_unique hp hq

example : ∃ bm, exCfg.run exOps = ok bm ∧ ∀ g : Scratch, g.sums 0 = 0 →
    bmSelect exCfg g bm 3 = ok 500 := by
  obtain ⟨bm, e, h⟩ := C03_select exOps_life (fun _ hH => absurd hH (by decide))
  refine ⟨bm, e, fun g hg => ?_⟩
  obtain ⟨p, ep, hp⟩ := h g hg 3 (by decide +kernel)
  rw [ep, isSelect_unique hp (q := 500) ⟨by decide +kernel, by decide +kernel⟩]

/-! ## C04 flip -/

/-- C04: `flip(i)` inverts bit `i`, changes no other bit and keeps the size. -/
theorem C04_flip {c : Config} {ops : List Op} (h : c.Life ops) {bm : Bitmap} (e : c.run ops = ok bm)
    {i : Nat} (hi : i < bmSize bm) :
    ∃ bm' v, bmFlip c bm i = ok bm' ∧ bmSize bm' = bmSize bm ∧
      bmAccess c bm i = ok v ∧ bmAccess c bm' i = ok (!v) ∧
      ∀ j, j < bmSize bm → j ≠ i → ∃ w, bmAccess c bm j = ok w ∧ bmAccess c bm' j = ok w := by
  have ha := Config.run_alive h e
  rw [ha.size] at hi ⊢
  obtain ⟨bm', e', ha'⟩ := ha.flip hi
  have hl := flip_length (c.logical ops) i
  have hacc : ∀ j (hj : j < (c.logical ops).length), bmAccess c bm' j =
      ok (if j = i then !(c.logical ops)[j] else (c.logical ops)[j]) := by
    intro j hj
    rw [ha'.access (by rw [hl]; exact hj)]
    obtain ⟨_, hg⟩ := List.getElem?_eq_some_iff.1 (flip_get (i := i) hj)
    rw [hg]
  refine ⟨bm', _, e', by rw [ha'.size, hl], ha.access hi, ?_, ?_⟩
  · rw [hacc i hi, if_pos rfl]
  · intro j hj hne
    exact ⟨_, ha.access hj, by rw [hacc j hj, if_neg hne]⟩

example : ∃ bm bm', exCfg.run exOps = ok bm ∧ bmFlip exCfg bm 2 = ok bm' ∧
    bmAccess exCfg bm 2 = ok true ∧ bmAccess exCfg bm' 2 = ok false := by
  obtain ⟨bm, e, h⟩ := C01_access exOps_life
  have hs := (Config.run_alive exOps_life e).size
  obtain ⟨bm', v, e', _, h1, h2, _⟩ := C04_flip exOps_life e (i := 2) (by rw [hs]; decide +kernel)
  have : bmAccess exCfg bm 2 = ok true :=
    (h 2 (by decide +kernel)).trans (congrArg ok (by decide +kernel))
  rw [this] at h1
  injection h1 with h1
  exact ⟨bm, bm', e, e', this, by rw [h2, ← h1]; rfl⟩

/-! ## C05, C06 algebra of flips -/

/-- Two objects give the same answers to every valid query on `N` bits with `T` ones. -/
structure SameAnswers (c₁ c₂ : Config) (bm₁ bm₂ : Bitmap) (N T : Nat) : Prop where
  access : ∀ i, i < N → ∃ v, bmAccess c₁ bm₁ i = ok v ∧ bmAccess c₂ bm₂ i = ok v
  rank : ∀ g₁ g₂ : Scratch, g₁.sums 0 = 0 → g₂.sums 0 = 0 → ∀ i, i < N →
    ∃ r, bmRank c₁ g₁ bm₁ i = ok r ∧ bmRank c₂ g₂ bm₂ i = ok r
  select : c₁.SelectSafe T → c₂.SelectSafe T → ∀ g₁ g₂ : Scratch, g₁.sums 0 = 0 → g₂.sums 0 = 0 →
    ∀ k, k < T → ∃ p, bmSelect c₁ g₁ bm₁ k = ok p ∧ bmSelect c₂ g₂ bm₂ k = ok p

theorem sameAnswers_of_alive {c₁ c₂ : Config} {bm₁ bm₂ : Bitmap} {B : List Bool}
    (h₁ : Alive c₁ bm₁ B) (h₂ : Alive c₂ bm₂ B) :
    SameAnswers c₁ c₂ bm₁ bm₂ B.length (ones B B.length) := by
  refine ⟨fun i hi => ⟨_, h₁.access hi, h₂.access hi⟩,
    fun g₁ g₂ e₁ e₂ i hi => ⟨_, h₁.rank e₁ hi, h₂.rank e₂ hi⟩, ?_⟩
  intro s₁ s₂ g₁ g₂ e₁ e₂ k hk
  obtain ⟨p, ep, hp⟩ := h₁.select e₁ s₁ hk
  obtain ⟨q, eq, hq⟩ := h₂.select e₂ s₂ hk
  exact ⟨p, ep, by rw [isSelect_unique hp hq]; exact eq⟩

theorem flip_flip (B : List Bool) (i : Nat) : Spec.flip (Spec.flip B i) i = B := by
  apply List.ext_getElem?
  intro t
  unfold Spec.flip
  rw [List.getElem?_modify, List.getElem?_modify]
  by_cases e : i = t
  · simp only [e, if_true]
    cases B[t]? <;> simp
  · simp [e]

theorem flip_comm (B : List Bool) (i j : Nat) :
    Spec.flip (Spec.flip B i) j = Spec.flip (Spec.flip B j) i := by
  apply List.ext_getElem?
  intro t
  unfold Spec.flip
  simp only [List.getElem?_modify]
  by_cases e : i = t <;> by_cases f : j = t <;> simp [e, f]

theorem flips_perm {is js : List Nat} (h : is.Perm js) (B : List Bool) : flips B is = flips B js := by
  induction h generalizing B with
  | nil => rfl
  | cons x _ ih => rw [flips_cons, flips_cons, ih]
  | swap x y l => simp only [flips_cons]; rw [flip_comm]
  | trans _ _ ih1 ih2 => rw [ih1, ih2]

/-- C05: flipping the same bit twice restores every answer. -/
theorem C05_flip_involution {c : Config} {ops : List Op} (h : c.Life ops) {bm : Bitmap}
    (e : c.run ops = ok bm) {i : Nat} (hi : i < bmSize bm) :
    ∃ bm₁ bm₂, bmFlip c bm i = ok bm₁ ∧ bmFlip c bm₁ i = ok bm₂ ∧ bmSize bm₂ = bmSize bm ∧
      SameAnswers c c bm bm₂ (bmSize bm) (ones (c.logical ops) (c.logical ops).length) := by
  have ha := Config.run_alive h e
  rw [ha.size] at hi ⊢
  obtain ⟨bm₁, e₁, h₁⟩ := ha.flip hi
  obtain ⟨bm₂, e₂, h₂⟩ := h₁.flip (i := i) (by rw [flip_length]; exact hi)
  rw [flip_flip] at h₂
  exact ⟨bm₁, bm₂, e₁, e₂, h₂.size, sameAnswers_of_alive ha h₂⟩

example : exCfg.Life (exOps ++ [.flip 3, .flip 3]) ∧
    exCfg.logical (exOps ++ [.flip 3, .flip 3]) = exCfg.logical exOps := by
  refine ⟨?_, by decide +kernel⟩
  exact life_buildFlips (is := [0, 500, 3, 3]) exCfg_valid (exCfg_debug _) (by decide +kernel)

/-- C06: permuted flip histories give the same answers. -/
theorem C06_flips_commute {c : Config} {addr₁ addr₂ : Nat} {ws : List Word} {is js : List Nat}
    (hp : is.Perm js) (hl₁ : c.Life (buildFlips addr₁ ws is))
    (hl₂ : c.Life (buildFlips addr₂ ws js)) :
    ∃ bm₁ bm₂, c.run (buildFlips addr₁ ws is) = ok bm₁ ∧ c.run (buildFlips addr₂ ws js) = ok bm₂ ∧
      bmSize bm₁ = bmSize bm₂ ∧
      SameAnswers c c bm₁ bm₂ (bmSize bm₁)
        (ones (content c.blk.width.bits ws is) (content c.blk.width.bits ws is).length) := by
  obtain ⟨bm₁, e₁, h₁⟩ := Config.run_ok hl₁
  obtain ⟨bm₂, e₂, h₂⟩ := Config.run_ok hl₂
  rw [logical_buildFlips] at h₁ h₂
  have : content c.blk.width.bits ws js = content c.blk.width.bits ws is := by
    unfold content; rw [flips_perm hp]
  rw [this] at h₂
  refine ⟨bm₁, bm₂, e₁, e₂, by rw [h₁.size, h₂.size], ?_⟩
  rw [h₁.size]
  exact sameAnswers_of_alive h₁ h₂

example : [3, 500, 3, 7].Perm [7, 3, 3, 500] ∧
    exCfg.Life (buildFlips 16 (List.replicate 5 1#64) [3, 500, 3, 7]) ∧
    exCfg.Life (buildFlips 16 (List.replicate 5 1#64) [7, 3, 3, 500]) :=
  ⟨by decide, life_buildFlips exCfg_valid (exCfg_debug _) (by decide +kernel),
    life_buildFlips exCfg_valid (exCfg_debug _) (by decide +kernel)⟩

/-! ## C07, C08 rank and select are inverse -/

theorem rank_of_isSelect {B : List Bool} {k p : Nat} (h : IsSelect B k p) : Spec.rank B p = k + 1 := by
  obtain ⟨hl, hb⟩ := List.getElem?_eq_some_iff.1 h.1
  unfold Spec.rank
  rw [ones_succ hl, h.2, hb]; rfl

theorem ones_mono {B : List Bool} {a b : Nat} (h : a ≤ b) : ones B a ≤ ones B b := by
  obtain ⟨d, rfl⟩ := Nat.exists_eq_add_of_le h
  unfold Spec.ones
  rw [List.take_add, List.count_append]
  omega

/-- C07: the bit at `select(k)` is set and `rank(select(k)) = k + 1`. -/
theorem C07_rank_select {c : Config} {ops : List Op} (h : c.Life ops)
    (hs : c.SelectSafe (ones (c.logical ops) (c.logical ops).length)) {bm : Bitmap}
    (e : c.run ops = ok bm) {g g' : Scratch} (hg : g.sums 0 = 0) (hg' : g'.sums 0 = 0) {k : Nat}
    (hk : k < ones (c.logical ops) (c.logical ops).length) :
    ∃ p, bmSelect c g bm k = ok p ∧ p < bmSize bm ∧ bmAccess c bm p = ok true ∧
      bmRank c g' bm p = ok (k + 1) := by
  have ha := Config.run_alive h e
  obtain ⟨p, ep, hp⟩ := ha.select hg hs hk
  obtain ⟨hl, hb⟩ := List.getElem?_eq_some_iff.1 hp.1
  exact ⟨p, ep, by rw [ha.size]; exact hl, by rw [ha.access hl, hb],
    by rw [ha.rank hg' hl, rank_of_isSelect hp]⟩

/-- C08: for a set bit `i`, `select(rank(i) - 1) = i`. -/
theorem C08_select_rank {c : Config} {ops : List Op} (h : c.Life ops)
    (hs : c.SelectSafe (ones (c.logical ops) (c.logical ops).length)) {bm : Bitmap}
    (e : c.run ops = ok bm) {g g' : Scratch} (hg : g.sums 0 = 0) (hg' : g'.sums 0 = 0) {i : Nat}
    (hi : i < bmSize bm) (hb : bmAccess c bm i = ok true) :
    ∃ r, bmRank c g' bm i = ok r ∧ 1 ≤ r ∧ bmSelect c g bm (r - 1) = ok i := by
  have ha := Config.run_alive h e
  rw [ha.size] at hi
  rw [ha.access hi] at hb
  injection hb with hb
  have hsel : IsSelect (c.logical ops) (ones (c.logical ops) i) i :=
    ⟨by rw [List.getElem?_eq_getElem hi, hb], rfl⟩
  have hr := rank_of_isSelect hsel
  have hk : ones (c.logical ops) i < ones (c.logical ops) (c.logical ops).length := by
    have := ones_mono (B := c.logical ops) (show i + 1 ≤ (c.logical ops).length from hi)
    unfold Spec.rank at hr
    omega
  obtain ⟨p, ep, hp⟩ := ha.select hg hs hk
  refine ⟨_, ha.rank hg' hi, by omega, ?_⟩
  rw [hr, Nat.add_sub_cancel, ep, isSelect_unique hp hsel]

example : ∃ bm, exCfg.run exOps = ok bm ∧ bmSize bm = 512 ∧ bmAccess exCfg bm 500 = ok true ∧
    ∀ g : Scratch, g.sums 0 = 0 → ∃ r, bmRank exCfg g bm 500 = ok r ∧
      bmSelect exCfg g bm (r - 1) = ok 500 := by
  obtain ⟨bm, e, h⟩ := C01_access exOps_life
  have hs : bmSize bm = 512 :=
    (Config.run_alive exOps_life e).size.trans (by decide +kernel)
  have ht : bmAccess exCfg bm 500 = ok true :=
    (h 500 (by decide +kernel)).trans (congrArg ok (by decide +kernel))
  refine ⟨bm, e, hs, ht, fun g hg => ?_⟩
  obtain ⟨r, h1, _, h2⟩ := C08_select_rank exOps_life (fun _ hH => absurd hH (by decide)) e hg hg
    (i := 500) (by omega) ht
  exact ⟨r, h1, h2⟩

/-! ## C09 rank counts -/

/-- C09: `rank` starts at bit 0, grows by the next bit, never exceeds `i + 1` and ends at the
number of ones. -/
theorem C09_rank_steps {c : Config} {ops : List Op} (h : c.Life ops) {bm : Bitmap}
    (e : c.run ops = ok bm) {g : Scratch} (hg : g.sums 0 = 0) (hpos : 0 < bmSize bm) :
    (∃ v, bmAccess c bm 0 = ok v ∧ bmRank c g bm 0 = ok v.toNat) ∧
    (∀ i, i + 1 < bmSize bm → ∃ r v, bmRank c g bm i = ok r ∧ bmAccess c bm (i + 1) = ok v ∧
      bmRank c g bm (i + 1) = ok (r + v.toNat)) ∧
    (∀ i j, i ≤ j → j < bmSize bm → ∃ r s, bmRank c g bm i = ok r ∧ bmRank c g bm j = ok s ∧
      r ≤ s ∧ s ≤ j + 1) ∧
    bmRank c g bm (bmSize bm - 1) = ok ((c.logical ops).count true) := by
  have ha := Config.run_alive h e
  rw [ha.size] at hpos ⊢
  have hv : ∀ b : Bool, (if b = true then 1 else 0) = b.toNat := by intro b; cases b <;> rfl
  refine ⟨⟨_, ha.access hpos, ?_⟩, ?_, ?_, ?_⟩
  · rw [ha.rank hg hpos]
    unfold Spec.rank
    rw [ones_succ hpos, hv]
    simp [Spec.ones]
  · intro i hi
    refine ⟨_, _, ha.rank hg (by omega), ha.access hi, ?_⟩
    rw [ha.rank hg hi]
    unfold Spec.rank
    rw [ones_succ hi, hv]
  · intro i j hij hj
    refine ⟨_, _, ha.rank hg (by omega), ha.rank hg hj, ones_mono (by omega), ?_⟩
    unfold Spec.rank Spec.ones
    exact Nat.le_trans List.count_le_length (by rw [List.length_take]; omega)
  · rw [ha.rank hg (by omega)]
    unfold Spec.rank Spec.ones
    rw [Nat.sub_add_cancel hpos, List.take_length]

example : ∃ bm, exCfg.run exOps = ok bm ∧ bmSize bm = 512 ∧
    ∀ g : Scratch, g.sums 0 = 0 → bmRank exCfg g bm 511 = ok 4 := by
  obtain ⟨bm, e, ha⟩ := Config.run_ok exOps_life
  have hs : bmSize bm = 512 := ha.size.trans (by decide +kernel)
  refine ⟨bm, e, hs, fun g hg => ?_⟩
  have := (C09_rank_steps exOps_life e hg (by omega)).2.2.2
  rw [hs] at this
  rw [this]
  decide +kernel

/-! ## C10 size and padding -/

/-- C10: a fresh object built from `ws` has `size()` equal to the number of bits rounded up to whole
blocks; its words are the input followed by zeros. -/
theorem C10_size_padding {c : Config} {addr : Nat} {ws : List Word}
    (hlife : c.Life [.build addr ws]) :
    ∃ bm q, c.run [.build addr ws] = ok bm ∧
      bmSize bm = c.blk.width.bits * q ∧ 64 * ws.length ≤ bmSize bm ∧
      bmSize bm < 64 * ws.length + c.blk.width.bits ∧
      bm.bits.toList = ws ++ List.replicate (bm.bits.len - ws.length) 0#64 := by
  obtain ⟨bm, e, hinv, hf⟩ := rebuild_words hlife.1.1.sup hlife.1.1.some
    hlife.1.1.blocks hlife.1.1.height hlife.1.1.aligned hlife.1.2 rfl
    (Alive.start c).rep
  have hW := Width.words_pos c.blk.width
  have hge := ceilDiv_mul_ge (m := ws.length) hW
  have hlt : c.blk.width.words * ceilDiv ws.length c.blk.width.words <
      ws.length + c.blk.width.words := by
    unfold ceilDiv
    have := Nat.mul_div_le (ws.length + c.blk.width.words - 1) c.blk.width.words
    omega
  refine ⟨bm, ceilDiv ws.length c.blk.width.words, ?_, ?_, ?_, ?_, ?_⟩
  · show (do let bm ← bmBuild c addr (Vec.ofList ws) ws.length Bitmap.empty; ok bm) = ok bm
    rw [e, ok_bind]
  · rw [hinv.size, hinv.len, Width.bits_eq, Nat.mul_assoc]
  · rw [hinv.size, hinv.len]; omega
  · rw [hinv.size, hinv.len, Width.bits_eq]; omega
  · have hl := hinv.len
    apply List.ext_getElem?
    intro t
    unfold Vec.toList
    rw [List.getElem?_map]
    by_cases h1 : t < bm.bits.len
    · rw [List.getElem?_range h1]
      show some (bm.bits.f t) = _
      rw [hf.2]
      unfold builtWords
      by_cases h2 : t < ws.length
      · rw [if_pos h2, List.getElem?_append_left h2, List.getElem?_eq_getElem h2]
        show some (ws.getD t 0#64) = _
        rw [List.getD_eq_getElem?_getD, List.getElem?_eq_getElem h2]; rfl
      · rw [if_neg h2, List.getElem?_append_right (by omega), List.getElem?_replicate,
          if_pos (show t - ws.length < bm.bits.len - ws.length by omega)]
        rfl
    · rw [List.getElem?_eq_none (by simpa using h1), List.getElem?_eq_none]
      · rfl
      · rw [List.length_append, List.length_replicate]; omega

example : ∃ bm, exCfg.run [.build 16 [1#64, 2#64, 3#64, 4#64, 5#64]] = ok bm ∧ bmSize bm = 512 ∧
    bm.bits.toList = [1#64, 2#64, 3#64, 4#64, 5#64, 0#64, 0#64, 0#64] := by
  obtain ⟨bm, q, e, h1, h2, h3, h4⟩ := C10_size_padding (c := exCfg) (addr := 16)
    (ws := [1#64, 2#64, 3#64, 4#64, 5#64]) ⟨⟨exCfg_valid, exCfg_debug _⟩, trivial⟩
  have hs : bmSize bm = 512 := by
    have e1 : exCfg.blk.width.bits = 256 := rfl
    have e2 : ([1#64, 2#64, 3#64, 4#64, 5#64] : List Word).length = 5 := rfl
    rw [e1] at h1 h3; rw [e2] at h2 h3; omega
  refine ⟨bm, e, hs, ?_⟩
  have ha := Config.run_alive (c := exCfg) (ops := [.build 16 [1#64, 2#64, 3#64, 4#64, 5#64]])
    ⟨⟨exCfg_valid, exCfg_debug _⟩, trivial⟩ e
  have hl : bm.bits.len = 8 := by have := ha.len; rw [← ha.size, hs] at this; omega
  rw [h4, hl]; rfl

/-! ## C11 no undefined behaviour -/

/-- C11: valid calls never read or write out of bounds, never shift too far, never count the zeros
of zero, never fail an assertion, never reach an unsupported branch: every outcome is a value. -/
theorem C11_no_undefined_behaviour {c : Config} {ops : List Op} (h : c.Life ops) :
    ∃ bm, c.run ops = ok bm ∧
      (∀ i, i < bmSize bm → (∃ v, bmAccess c bm i = ok v) ∧ (∃ bm', bmFlip c bm i = ok bm') ∧
        ∀ g : Scratch, g.sums 0 = 0 → ∃ r, bmRank c g bm i = ok r) ∧
      (c.SelectSafe (ones (c.logical ops) (c.logical ops).length) →
        ∀ g : Scratch, g.sums 0 = 0 → ∀ k, k < ones (c.logical ops) (c.logical ops).length →
          ∃ p, bmSelect c g bm k = ok p) := by
  obtain ⟨bm, e, ha⟩ := Config.run_ok h
  refine ⟨bm, e, ?_, ?_⟩
  · intro i hi
    rw [ha.size] at hi
    obtain ⟨bm', e', _⟩ := ha.flip hi
    exact ⟨⟨_, ha.access hi⟩, ⟨bm', e'⟩, fun g hg => ⟨_, ha.rank hg hi⟩⟩
  · intro hs g hg k hk
    obtain ⟨p, ep, _⟩ := ha.select hg hs hk
    exact ⟨p, ep⟩

example : exCfg512.Life (buildFlips 4096 [5#64, 0#64, 0x8000000000000000#64, 0#64, 1#64] [0, 500]) ∧
    exCfg512.b.strictAlign = true := ⟨exOps_life512, rfl⟩

/-! ## C19 the configuration does not matter -/

/-- The first `N` bits do not depend on the block size. -/
theorem content_take {m₁ m₂ : Nat} {ws : List Word} {is : List Nat} {N : Nat}
    (h₁ : N ≤ (content m₁ ws is).length) (h₂ : N ≤ (content m₂ ws is).length) :
    (content m₁ ws is).take N = (content m₂ ws is).take N := by
  apply List.ext_getElem?
  intro t
  by_cases ht : t < N
  · rw [List.getElem?_take_of_lt ht, List.getElem?_take_of_lt ht, content_get (by omega),
      content_get (by omega)]
  · rw [List.getElem?_eq_none (by rw [List.length_take]; omega),
      List.getElem?_eq_none (by rw [List.length_take]; omega)]

/-- Beyond the flipped positions and the input there are only zeros. -/
theorem content_tail {m : Nat} {ws : List Word} {is : List Nat} {N : Nat} (hw : 64 * ws.length ≤ N)
    (hi : ∀ i ∈ is, i < N) (hN : N ≤ (content m ws is).length) :
    ones (content m ws is) (content m ws is).length = ones (content m ws is) N := by
  have key : ∀ d, N + d ≤ (content m ws is).length →
      ones (content m ws is) (N + d) = ones (content m ws is) N := by
    intro d
    induction d with
    | zero => intro _; rfl
    | succ d ih =>
      intro hd
      have hlt : N + d < (content m ws is).length := by omega
      rw [← Nat.add_assoc, ones_succ hlt, ih (by omega)]
      obtain ⟨_, hg⟩ := List.getElem?_eq_some_iff.1 (content_get hlt)
      have h0 : is.count (N + d) = 0 := List.count_eq_zero.2 (fun hm => by have := hi _ hm; omega)
      have hf : (content m ws is)[N + d] = false := by
        rw [hg, if_neg (show ¬ N + d < 64 * ws.length by omega), h0]; rfl
      rw [hf]; rfl
  have := key ((content m ws is).length - N) (by omega)
  rwa [show N + ((content m ws is).length - N) = (content m ws is).length by omega] at this

/-- C19: two instances with any tree family, height, block type and build flags, fed the same words
and the same flips (valid for both), give the same answers on all common positions; `select` agrees
for every `k` below the number of ones. -/
theorem C19_configuration_independence {c₁ c₂ : Config} {addr₁ addr₂ : Nat} {ws : List Word}
    {is : List Nat} (hl₁ : c₁.Life (buildFlips addr₁ ws is))
    (hl₂ : c₂.Life (buildFlips addr₂ ws is)) :
    ∃ bm₁ bm₂, c₁.run (buildFlips addr₁ ws is) = ok bm₁ ∧ c₂.run (buildFlips addr₂ ws is) = ok bm₂ ∧
      SameAnswers c₁ c₂ bm₁ bm₂ (min (bmSize bm₁) (bmSize bm₂))
        (ones (content c₁.blk.width.bits ws is) (content c₁.blk.width.bits ws is).length) ∧
      ones (content c₁.blk.width.bits ws is) (content c₁.blk.width.bits ws is).length =
        ones (content c₂.blk.width.bits ws is) (content c₂.blk.width.bits ws is).length := by
  obtain ⟨bm₁, e₁, h₁⟩ := Config.run_ok hl₁
  obtain ⟨bm₂, e₂, h₂⟩ := Config.run_ok hl₂
  have hi₁ := life_buildFlips_lt hl₁
  have hi₂ := life_buildFlips_lt hl₂
  rw [logical_buildFlips] at h₁ h₂
  have l₁ : (content c₁.blk.width.bits ws is).length = (pad (bitsOf ws) c₁.blk.width.bits).length := by
    unfold content; rw [flips_length]
  have l₂ : (content c₂.blk.width.bits ws is).length = (pad (bitsOf ws) c₂.blk.width.bits).length := by
    unfold content; rw [flips_length]
  have w₁ : 64 * ws.length ≤ (content c₁.blk.width.bits ws is).length := by
    rw [l₁]; unfold pad; rw [List.length_append, bitsOf_length]; omega
  have w₂ : 64 * ws.length ≤ (content c₂.blk.width.bits ws is).length := by
    rw [l₂]; unfold pad; rw [List.length_append, bitsOf_length]; omega
  refine ⟨bm₁, bm₂, e₁, e₂, ?_⟩
  rw [h₁.size, h₂.size]
  rw [← l₁] at hi₁
  rw [← l₂] at hi₂
  generalize hN : min (content c₁.blk.width.bits ws is).length
    (content c₂.blk.width.bits ws is).length = N
  have n₁ : N ≤ (content c₁.blk.width.bits ws is).length := by omega
  have n₂ : N ≤ (content c₂.blk.width.bits ws is).length := by omega
  have t₁ := content_tail (m := c₁.blk.width.bits) (ws := ws) (is := is) (N := N) (by omega)
    (fun i hi => by have := hi₁ i hi; have := hi₂ i hi; omega) n₁
  have t₂ := content_tail (m := c₂.blk.width.bits) (ws := ws) (is := is) (N := N) (by omega)
    (fun i hi => by have := hi₁ i hi; have := hi₂ i hi; omega) n₂
  have ht := content_take n₁ n₂
  have hones : ∀ i, i ≤ N → ones (content c₁.blk.width.bits ws is) i =
      ones (content c₂.blk.width.bits ws is) i := by
    intro i hi
    unfold Spec.ones
    have := congrArg (List.take i) ht
    rw [List.take_take, List.take_take, Nat.min_eq_left hi] at this
    rw [this]
  have hget : ∀ i, i < N → (content c₁.blk.width.bits ws is)[i]? =
      (content c₂.blk.width.bits ws is)[i]? := by
    intro i hi
    rw [content_get (by omega), content_get (by omega)]
  have htot : ones (content c₁.blk.width.bits ws is) (content c₁.blk.width.bits ws is).length =
      ones (content c₂.blk.width.bits ws is) (content c₂.blk.width.bits ws is).length := by
    rw [t₁, t₂, hones N (Nat.le_refl _)]
  refine ⟨⟨?_, ?_, ?_⟩, htot⟩
  · intro i hi
    refine ⟨_, h₁.access (by omega), ?_⟩
    rw [h₂.access (by omega)]
    have := hget i hi
    rw [List.getElem?_eq_getElem (by omega), List.getElem?_eq_getElem (by omega)] at this
    injection this with this
    rw [this]
  · intro g₁ g₂ hg₁ hg₂ i hi
    refine ⟨_, h₁.rank hg₁ (by omega), ?_⟩
    rw [h₂.rank hg₂ (by omega)]
    unfold Spec.rank
    rw [hones (i + 1) (by omega)]
  · intro s₁ s₂ g₁ g₂ hg₁ hg₂ k hk
    obtain ⟨p, ep, hp⟩ := h₁.select hg₁ s₁ hk
    rw [htot] at s₂ hk
    obtain ⟨q, eq, hq⟩ := h₂.select hg₂ s₂ hk
    refine ⟨p, ep, ?_⟩
    -- the answer lies below both sizes
    have hpN : p < N := by
      rcases Nat.lt_or_ge p N with hlt | hge
      · exact hlt
      · exfalso
        have := ones_mono (B := content c₁.blk.width.bits ws is) hge
        rw [hp.2] at this
        rw [← htot, t₁] at hk
        omega
    have hp' : IsSelect (content c₂.blk.width.bits ws is) k p :=
      ⟨by rw [← hget p hpN]; exact hp.1, by rw [← hones p (by omega)]; exact hp.2⟩
    rw [isSelect_unique hp' hq]
    exact eq

example : exCfg.Life exOps ∧
    exCfg512.Life (buildFlips 4096 [5#64, 0#64, 0x8000000000000000#64, 0#64, 1#64] [0, 500]) ∧
    exCfg.fam ≠ exCfg512.fam ∧ exCfg.blk.width ≠ exCfg512.blk.width :=
  ⟨exOps_life, exOps_life512, by decide, by decide⟩

/-! ## C40 the number of ones -/

theorem flip_ones {B : List Bool} {i : Nat} (hi : i < B.length) :
    (Spec.flip B i).count true + (if B[i] then 1 else 0) = B.count true + if B[i] then 0 else 1 := by
  induction B generalizing i with
  | nil => exact absurd hi (Nat.not_lt_zero i)
  | cons b B ih =>
    cases i with
    | zero => cases b <;> simp [Spec.flip]
    | succ i =>
      have h := ih (i := i) (by simpa using hi)
      have e : Spec.flip (b :: B) (i + 1) = b :: Spec.flip B i := by simp [Spec.flip]
      rw [e, List.count_cons, List.count_cons]
      simp only [List.getElem_cons_succ]
      omega

/-- C40: a flip changes the number of ones, `rank(size()-1)`, by one in the right direction. -/
theorem C40_ones_move_by_one {c : Config} {ops : List Op} (h : c.Life ops) {bm : Bitmap}
    (e : c.run ops = ok bm) {g : Scratch} (hg : g.sums 0 = 0) {i : Nat} (hi : i < bmSize bm) :
    ∃ bm' v r r', bmFlip c bm i = ok bm' ∧ bmAccess c bm i = ok v ∧
      bmRank c g bm (bmSize bm - 1) = ok r ∧ bmRank c g bm' (bmSize bm' - 1) = ok r' ∧
      (v = false → r' = r + 1) ∧ (v = true → r = r' + 1) := by
  have ha := Config.run_alive h e
  rw [ha.size] at hi ⊢
  obtain ⟨bm', e', ha'⟩ := ha.flip hi
  have hl := flip_length (c.logical ops) i
  have hr := ha'.rank hg (i := bmSize bm' - 1) (by rw [ha'.size]; omega)
  rw [ha'.size] at hr
  refine ⟨bm', _, _, _, e', ha.access hi, ha.rank hg (by omega), by rw [ha'.size]; exact hr, ?_, ?_⟩
  all_goals
    intro hv
    have := flip_ones hi
    unfold Spec.rank Spec.ones
    rw [Nat.sub_add_cancel (by omega), Nat.sub_add_cancel (by omega), List.take_length,
      List.take_length]
    rw [hv] at this
    simp at this
    omega

example : ∃ bm bm', exCfg.run exOps = ok bm ∧ bmFlip exCfg bm 1 = ok bm' ∧
    ∀ g : Scratch, g.sums 0 = 0 → bmRank exCfg g bm' 511 = ok 5 := by
  obtain ⟨bm, e, ha⟩ := Config.run_ok exOps_life
  obtain ⟨bm', e', ha'⟩ := ha.flip (i := 1) (by decide +kernel)
  exact ⟨bm, bm', e, e', fun g hg => by rw [ha'.rank hg (by decide +kernel)]; decide +kernel⟩

end MRS.Props
