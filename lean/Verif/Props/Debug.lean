import Verif.Proofs.Debug
import Verif.Props.Rebuild

/-!
# C33 and C41: assertions

C33: do debug builds reject valid calls?  As wished for the property is false; the exact condition
under which a sequence of calls that is valid in a release build stops at an assertion is given.

C41: whatever is called, a debug build that returns a result returns the result of the release build.
-/

set_option autoImplicit false

namespace MRS.Props
open MRS Outcome Spec

/-! ## C33 -/

/-- C33 as a user would want it: calls that are valid when assertions are off do not fail an
assertion when they are on. -/
def C33_full : Prop :=
  ∀ (c : Config) (ops : List Op), c.release.Life ops → ∃ bm, c.run ops = ok bm ∧
    (∀ i, i < bmSize bm → bmAccess c bm i ≠ abort) ∧
    (∀ g : Scratch, g.sums 0 = 0 → ∀ i, i < bmSize bm → bmRank c g bm i ≠ abort) ∧
    ∀ g : Scratch, g.sums 0 = 0 → ∀ k, k < ones (c.logical ops) (c.logical ops).length →
      bmSelect c g bm k ≠ abort

theorem valid_release {c : Config} {addr nw : Nat} (h : c.release.Valid addr nw) : c.Valid addr nw :=
  ⟨h.sup, h.some, h.fits, h.height, h.align⟩

/-- Which valid sequences stop: exactly those containing a `build` that leaves a block with more ones
than the assertion on the values allows (`Config.DebugOK` is part of `Config.Life`). -/
theorem exec_debug {c : Config} : ∀ (ops : List Op) {bm : Bitmap} {B : List Bool}, Alive c bm B →
    c.release.OpsOK B ops →
    (c.OpsOK B ops ∧ ∃ bm', c.exec bm ops = ok bm') ∨ (¬ c.OpsOK B ops ∧ c.exec bm ops = abort) := by
  intro ops
  induction ops with
  | nil => intro bm B _ _; exact Or.inl ⟨trivial, bm, rfl⟩
  | cons o os ih =>
    intro bm B ha ho
    have key : (c.OpOK B o) ∨ (¬ c.OpOK B o ∧ c.step bm o = abort) := by
      cases o with
      | flip i => exact Or.inl ho.1
      | build addr ws =>
        have hv := valid_release ho.1.1
        by_cases hd : c.DebugOK (rebuilt c.blk.width.bits B ws)
        · exact Or.inl ⟨hv, hd⟩
        · refine Or.inr ⟨fun h => hd h.2, ?_⟩
          have hb : c.b.ndebug = false := by
            cases hb : c.b.ndebug with
            | false => rfl
            | true => exact absurd (Or.inl hb) hd
          rcases bmBuild_lock c addr (Vec.ofList ws) ws.length bm with h | h
          · exact h
          · obtain ⟨bm', e', _⟩ := rebuild_rep (c := c.release) ho.1.1 ho.1.2 ha.len ha.rep
            rw [e'] at h
            exact absurd (bmBuild_checked hb hv.some hv.blocks ha.len ha.rep h) hd
    rcases key with hk | ⟨hk, e⟩
    · obtain ⟨bm1, e1, h1⟩ := ha.step hk
      rcases ih h1 ho.2 with ⟨h2, bm2, e2⟩ | ⟨h2, e2⟩
      · exact Or.inl ⟨⟨hk, h2⟩, bm2, by unfold Config.exec; rw [e1, ok_bind]; exact e2⟩
      · exact Or.inr ⟨fun h => h2 h.2, by unfold Config.exec; rw [e1, ok_bind]; exact e2⟩
    · exact Or.inr ⟨fun h => hk h.1, by unfold Config.exec; rw [e]; rfl⟩

/-- C33, exactly: a sequence of calls that is valid with assertions off runs through with assertions
on iff no `build` in it leaves a block with too many ones; otherwise it stops at an assertion. -/
theorem C33_iff {c : Config} {ops : List Op} (h : c.release.Life ops) :
    ((∃ bm, c.run ops = ok bm) ↔ c.Life ops) ∧ (c.run ops = abort ↔ ¬ c.Life ops) := by
  rcases exec_debug ops (Alive.start c) h with ⟨hl, bm, e⟩ | ⟨hl, e⟩
  · have e : c.run ops = ok bm := e
    have hl : c.Life ops := hl
    exact ⟨⟨fun _ => hl, fun _ => ⟨bm, e⟩⟩, ⟨fun h => (by rw [e] at h; cases h), fun h => absurd hl h⟩⟩
  · have e : c.run ops = abort := e
    have hl : ¬ c.Life ops := hl
    exact ⟨⟨fun ⟨bm, h⟩ => (by rw [e] at h; cases h), fun h => absurd h hl⟩, ⟨fun _ => hl, fun _ => e⟩⟩

/-- What `C33_iff` says of a single `build` on a fresh object: it stops iff some block of the input
has more ones than the assertion allows (512 for `avx2`, 256 for `avx512`). -/
theorem C33_build {c : Config} {addr : Nat} {ws : List Word} (h : c.Valid addr ws.length)
    (hd : c.b.ndebug = false) :
    c.run [.build addr ws] = abort ↔
      ∃ q, ones (pad (bitsOf ws) c.blk.width.bits) (c.blk.width.bits * q) + c.fam.family.maxVal <
        ones (pad (bitsOf ws) c.blk.width.bits) (c.blk.width.bits * (q + 1)) := by
  have hl : c.release.Life [.build addr ws] :=
    ⟨⟨⟨h.sup, h.some, h.fits, h.height, h.align⟩, Or.inl rfl⟩, trivial⟩
  rw [(C33_iff hl).2]
  constructor
  · intro hn
    refine Classical.byContradiction fun hq => hn ⟨⟨h, Or.inr fun q => ?_⟩, trivial⟩
    rw [rebuilt_nil]
    exact Nat.le_of_not_lt fun hlt => hq ⟨q, hlt⟩
  · rintro ⟨q, hq⟩ hlife
    have hlife : c.DebugOK (rebuilt c.blk.width.bits [] ws) := hlife.1.2
    rcases hlife with h1 | h1
    · rw [hd] at h1; cases h1
    · have := h1 q
      rw [rebuilt_nil] at this
      omega

/-- What holds: outside `avx512` trees over 512-bit blocks nothing is rejected, except `select` at
the bad ranks of C28.  Missing: that combination, and those ranks. -/
theorem C33_partial {c : Config} {ops : List Op} (hf : ¬ (c.fam = .avx512 ∧ c.blk.width = .w512))
    (h : c.release.Life ops) : ∃ bm, c.run ops = ok bm ∧
    (∀ i, i < bmSize bm → bmAccess c bm i ≠ abort) ∧
    (∀ g : Scratch, g.sums 0 = 0 → ∀ i, i < bmSize bm → bmRank c g bm i ≠ abort) ∧
    ∀ g : Scratch, g.sums 0 = 0 → ∀ k, k < ones (c.logical ops) (c.logical ops).length →
      ¬ c.SelectBad (c.logical ops) k → bmSelect c g bm k ≠ abort := by
  have hl : ∀ (ops : List Op) (B : List Bool), c.release.OpsOK B ops → c.OpsOK B ops := by
    intro ops
    induction ops with
    | nil => intro B _; trivial
    | cons o os ih =>
      intro B h
      refine ⟨?_, ih _ h.2⟩
      cases o with
      | build addr ws => exact ⟨valid_release h.1.1, .of_fam hf _⟩
      | flip i => exact h.1
  obtain ⟨bm, e, ha⟩ := Config.run_ok (hl ops [] h)
  refine ⟨bm, e, fun i hi => ?_, fun g hg i hi => ?_, fun g hg k hk hs => ?_⟩
  · rw [ha.size] at hi; rw [ha.access hi]; intro h; cases h
  · rw [ha.size] at hi; rw [ha.rank hg hi]; intro h; cases h
  · obtain ⟨p, ep, _⟩ := ha.select_sharp hg hs hk
    rw [ep]; intro h; cases h

/-- `mutable_bitmap<avx512::segment_tree<1>, block512_type_a>`, debug build. -/
def dbgCfg : Config := ⟨⟨false, true, true, false⟩, .avx512, 1, block512A⟩

/-- Eight words of ones: one block with 512 ones. -/
def dbgOps : List Op := [.build 16 (List.replicate 8 0xFFFFFFFFFFFFFFFF#64)]

theorem dbg_valid : dbgCfg.Valid 16 (List.replicate 8 0xFFFFFFFFFFFFFFFF#64).length :=
  ⟨by decide, by decide, by decide, by decide, by decide⟩

theorem dbg_abort : dbgCfg.run dbgOps = abort :=
  (C33_build dbg_valid rfl).2 ⟨0, by decide +kernel⟩

/-- C33 is false of the code. -/
theorem C33_false : ¬ C33_full := by
  intro h
  obtain ⟨bm, e, _⟩ := h dbgCfg dbgOps
    ⟨⟨⟨by decide, by decide, by decide, by decide, by decide⟩, Or.inl rfl⟩, trivial⟩
  rw [dbg_abort] at e
  cases e

/-- The hypotheses of `C33_partial` are met by a debug build of the same bitmap over 256-bit blocks. -/
example : (⟨⟨false, true, true, false⟩, .avx512, 1, block256A⟩ : Config).release.Life dbgOps :=
  ⟨⟨⟨by decide, by decide, by decide, by decide, by decide⟩, Or.inl rfl⟩, trivial⟩

/-- `C33_iff` on a block with 256 ones: accepted. -/
example : ∃ bm, dbgCfg.run [.build 16 (List.replicate 4 0xFFFFFFFFFFFFFFFF#64)] = ok bm := by
  have hv : dbgCfg.Valid 16 (List.replicate 4 0xFFFFFFFFFFFFFFFF#64).length :=
    ⟨by decide, by decide, by decide, by decide, by decide⟩
  refine (C33_iff (c := dbgCfg) (ops := [.build 16 (List.replicate 4 0xFFFFFFFFFFFFFFFF#64)]) ⟨⟨⟨by decide, by decide, by decide, by decide, by decide⟩, Or.inl rfl⟩,
    trivial⟩).1.2 ⟨⟨hv, Or.inr fun q => ?_⟩, trivial⟩
  have hlen : (rebuilt dbgCfg.blk.width.bits [] (List.replicate 4 0xFFFFFFFFFFFFFFFF#64)).length = 512 := by
    decide +kernel
  by_cases hq : q = 0
  · subst hq; decide +kernel
  · rw [ones_of_le (i := dbgCfg.blk.width.bits * q) (by
      rw [hlen]
      show 512 ≤ 512 * q
      omega) (Nat.mul_le_mul_left _ (Nat.le_succ q))]
    omega

/-! ## C41 -/

/-- C41: any sequence of `build` and `flip` calls, valid or not, on any object: with assertions on it
either stops at an assertion or ends (or fails) exactly as with assertions off. -/
theorem C41_mutators (c : Config) (bm : Bitmap) (ops : List Op) :
    c.exec bm ops = abort ∨ c.exec bm ops = c.release.exec bm ops := exec_lock c ops bm

/-- C41: the same for the queries, on any object and any argument; for `select`, whose assertions
read the index, a result with assertions on is the result with assertions off. -/
theorem C41_queries (c : Config) (g : Scratch) (bm : Bitmap) (i : Nat) :
    (bmAccess c bm i = abort ∨ bmAccess c bm i = bmAccess c.release bm i) ∧
    (bmRank c g bm i = abort ∨ bmRank c g bm i = bmRank c.release g bm i) ∧
    ∀ p, bmSelect c g bm i = ok p → bmSelect c.release g bm i = ok p :=
  ⟨bmAccess_lock c bm i, bmRank_lock c g bm i, bmSelect_sub c g bm i⟩

/-- A case in which the first alternative of `C41_mutators` is the true one: the witness of C33
succeeds in the release build. -/
example : dbgCfg.run dbgOps = abort ∧ ∃ bm, dbgCfg.release.run dbgOps = ok bm := by
  refine ⟨dbg_abort, ?_⟩
  obtain ⟨bm, e, _⟩ := Config.run_ok (c := dbgCfg.release) (ops := dbgOps)
    ⟨⟨⟨by decide, by decide, by decide, by decide, by decide⟩, Or.inl rfl⟩, trivial⟩
  exact ⟨bm, e⟩

/-- And one in which the second is. -/
example : ∃ bm, dbgCfg.run [.build 16 [1#64]] = ok bm ∧ dbgCfg.release.run [.build 16 [1#64]] = ok bm := by
  have hd : dbgCfg.DebugOK (rebuilt dbgCfg.blk.width.bits [] [1#64]) := by
    refine Or.inr fun q => ?_
    have hall : ∀ i, ones (rebuilt dbgCfg.blk.width.bits [] [1#64]) i ≤ 1 := by
      intro i
      unfold ones
      refine Nat.le_trans (List.Sublist.count_le _ (List.take_sublist _ _)) ?_
      decide +kernel
    have := hall (dbgCfg.blk.width.bits * (q + 1))
    have hm : dbgCfg.fam.family.maxVal = 256 := rfl
    omega
  obtain ⟨bm, e, _⟩ := Config.run_ok (c := dbgCfg) (ops := [.build 16 [1#64]])
    ⟨⟨⟨by decide, by decide, by decide, by decide, by decide⟩, hd⟩, trivial⟩
  refine ⟨bm, e, ?_⟩
  have e : dbgCfg.exec Bitmap.empty [.build 16 [1#64]] = ok bm := e
  rcases C41_mutators dbgCfg Bitmap.empty [.build 16 [1#64]] with h | h
  · rw [h] at e; cases e
  · rw [h] at e; exact e

end MRS.Props
