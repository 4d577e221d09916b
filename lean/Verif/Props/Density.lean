import Verif.Proofs.SelectBad

/-!
# C28: `select` at every density

The property as wished for is false; the exact set of ranks at which `select` fails is
`Config.SelectBad` (Model/Usage.lean), stated with `ones` on the logical bitmap only.
-/

set_option autoImplicit false

namespace MRS.Props
open MRS Outcome Spec

/-- C28 as a user would want it: in every configuration, after every valid life, `select(k)` is the
position of the `k`-th one. -/
def C28_full : Prop :=
  ∀ (c : Config) (ops : List Op), c.Life ops → ∃ bm, c.run ops = ok bm ∧
    ∀ g : Scratch, g.sums 0 = 0 → ∀ k, k < ones (c.logical ops) (c.logical ops).length →
      ∃ p, bmSelect c g bm k = ok p ∧ IsSelect (c.logical ops) k p

/-- What holds: `select(k)` is right at every rank that is not bad.  Missing: the bad ranks. -/
theorem C28_partial {c : Config} {ops : List Op} (h : c.Life ops) :
    ∃ bm, c.run ops = ok bm ∧ ∀ g : Scratch, g.sums 0 = 0 →
      ∀ k, k < ones (c.logical ops) (c.logical ops).length → ¬ c.SelectBad (c.logical ops) k →
        ∃ p, bmSelect c g bm k = ok p ∧ IsSelect (c.logical ops) k p := by
  obtain ⟨bm, e, ha⟩ := Config.run_ok h
  exact ⟨bm, e, fun g hg k hk hs => ha.select_sharp hg hs hk⟩

/-- At a bad rank `select` never returns: debug builds fail an assertion, release builds read
outside the index. -/
theorem C28_fails {c : Config} {ops : List Op} (h : c.Life ops) :
    ∃ bm, c.run ops = ok bm ∧ ∀ (g : Scratch) (k : Nat),
      k < ones (c.logical ops) (c.logical ops).length → c.SelectBad (c.logical ops) k →
        bmSelect c g bm k = if c.b.ndebug then ub .oob else abort := by
  obtain ⟨bm, e, ha⟩ := Config.run_ok h
  exact ⟨bm, e, fun g k hk hs => ha.select_bad g hs hk⟩

/-- Hence the bad ranks are exactly the failing ones. -/
theorem C28_iff {c : Config} {ops : List Op} (h : c.Life ops) :
    ∃ bm, c.run ops = ok bm ∧ ∀ g : Scratch, g.sums 0 = 0 →
      ∀ k, k < ones (c.logical ops) (c.logical ops).length →
        ((∃ p, bmSelect c g bm k = ok p ∧ IsSelect (c.logical ops) k p) ↔
          ¬ c.SelectBad (c.logical ops) k) := by
  obtain ⟨bm, e, ha⟩ := Config.run_ok h
  refine ⟨bm, e, fun g hg k hk => ⟨?_, fun hs => ha.select_sharp hg hs hk⟩⟩
  rintro ⟨p, ep, -⟩ hs
  rw [ha.select_bad g hs hk] at ep
  unfold badSelect at ep
  split at ep <;> cases ep

theorem ones_diff_le (B : List Bool) (a d : Nat) : ones B (a + d) ≤ ones B a + d := by
  unfold ones
  rw [List.take_add, List.count_append]
  have h1 := List.count_le_length (a := true) (l := (B.drop a).take d)
  have h2 := List.length_take_le d (B.drop a)
  omega

theorem ones_le_ones (B : List Bool) {a b : Nat} (h : a ≤ b) : ones B a ≤ ones B b := by
  obtain ⟨d, rfl⟩ := Nat.exists_eq_add_of_le h
  unfold ones
  rw [List.take_add, List.count_append]
  omega

/-- No bad rank unless the tree is an `avx2` tree of height 4 with SIMD code, the blocks have 512
bits and the bitmap holds at least `2^31` ones. -/
theorem C28_where {c : Config} {B : List Bool} {k : Nat} (h : c.SelectBad B k)
    (hl : B.length ≤ 2 ^ 24 * c.blk.width.bits) (hk : k < ones B B.length) :
    c.fam = .avx2 ∧ c.H = 4 ∧ c.b.simd2 = true ∧ c.blk.width = .w512 ∧
      2 ^ 31 ≤ ones B B.length := by
  obtain ⟨h1, h2, h3, h4⟩ := h
  have htop : ∀ i, ones B i ≤ ones B B.length := by
    intro i
    rcases Nat.le_total i B.length with hi | hi
    · exact ones_le_ones B hi
    · unfold ones
      rw [List.take_of_length_le hi, List.take_of_length_le (Nat.le_refl _)]
      exact Nat.le_refl _
  have hall : ones B (c.blk.width.bits * (32 * 524288)) = ones B B.length := by
    unfold ones
    rw [List.take_of_length_le (by rw [Nat.mul_comm]; omega),
      List.take_of_length_le (Nat.le_refl _)]
  have hd : ∀ a d, ones B (c.blk.width.bits * (a + d)) ≤
      ones B (c.blk.width.bits * a) + d * c.blk.width.bits := by
    intro a d
    rw [Nat.mul_add, Nat.mul_comm d]
    exact ones_diff_le _ _ _
  refine ⟨h1, h2, h3, ?_, ?_⟩
  · refine Classical.byContradiction fun hw => ?_
    have : c.blk.width.bits ≤ 256 := by
      cases hw' : c.blk.width with
      | w64 => decide
      | w256 => decide
      | w512 => exact absurd hw' hw
    exact not_bad_of_safe (P := fun q => ones B (c.blk.width.bits * q)) hd (fun a => htop _)
      (by show k < ones B (c.blk.width.bits * (32 * 524288)); rw [hall]; exact hk)
      (Or.inl this) h4
  · refine Classical.byContradiction fun hw => ?_
    exact not_bad_of_safe (P := fun q => ones B (c.blk.width.bits * q)) hd (fun a => htop _)
      (by show k < ones B (c.blk.width.bits * (32 * 524288)); rw [hall]; exact hk)
      (Or.inr (by omega)) h4

/-! ## The witness: a full bitmap of maximal size -/

/-- `mutable_bitmap<avx2::segment_tree<4>, block512_type_a>`, release build with SIMD. -/
def fullCfg : Config := ⟨⟨true, true, true, false⟩, .avx2, 4, block512A⟩

/-- `build` from `n` words with all bits set. -/
def fullOps (n : Nat) : List Op := [.build 16 (List.replicate n 0xFFFFFFFFFFFFFFFF#64)]

theorem bitsOf_full (n : Nat) :
    bitsOf (List.replicate n 0xFFFFFFFFFFFFFFFF#64) = List.replicate (64 * n) true := by
  induction n with
  | zero => rfl
  | succ n ih =>
    rw [List.replicate_succ, bitsOf_cons, ih, Nat.mul_succ, Nat.add_comm, ← List.replicate_append_replicate]
    congr 1

theorem ones_full (n i : Nat) : ones (List.replicate n true) i = min i n := by
  unfold ones
  rw [List.take_replicate, List.count_replicate_self]

/-- Whole blocks of ones; no padding. -/
theorem fullOps_logical {n : Nat} (hn : n % 8 = 0) :
    fullCfg.logical (fullOps n) = List.replicate (64 * n) true := by
  show rebuilt 512 [] (List.replicate n 0xFFFFFFFFFFFFFFFF#64) = _
  rw [rebuilt_nil]
  unfold pad
  rw [bitsOf_full, List.length_replicate]
  rw [show (512 - 64 * n % 512) % 512 = 0 by omega]
  rw [List.replicate_zero, List.append_nil]

/-- Valid from just above `2^19` blocks (height 4) to the maximum of `2^24` blocks. -/
theorem fullOps_life {n : Nat} (h1 : 2 ^ 22 < n) (h2 : n ≤ 2 ^ 27) : fullCfg.Life (fullOps n) := by
  refine ⟨⟨?_, Or.inl rfl⟩, trivial⟩
  show fullCfg.Valid 16 (List.replicate n 0xFFFFFFFFFFFFFFFF#64).length
  rw [List.length_replicate]
  refine ⟨by decide, by omega, ?_, ?_, by decide⟩
  · show n * 64 ≤ 2 ^ 24 * 512
    omega
  · show 4 = avx2Height ((n + 8 - 1) / 8)
    unfold avx2Height
    rw [if_neg (by omega), if_neg (by omega), if_neg (by omega), if_pos (by omega)]

/-- In a bitmap full of ones every rank `31 * 2^28` or more is bad: it lies `2^31` behind the first
child of the last segment. -/
theorem fullOps_bad {n k : Nat} (hn : n % 8 = 0) (hk : 31 * 2 ^ 28 ≤ k) :
    fullCfg.SelectBad (fullCfg.logical (fullOps n)) k := by
  rw [fullOps_logical hn]
  refine ⟨rfl, rfl, rfl, Or.inr ?_⟩
  show ones _ (512 * (23 * 524288)) + 2 ^ 31 ≤ _
  rw [ones_full]
  omega

/-- So are the ranks in the last child of the first full group, of a bitmap less than half as
large. -/
theorem fullOps_bad_group {n k : Nat} (hn : n % 8 = 0) (h1 : 15 * 2 ^ 22 ≤ n)
    (hk : 14 * 2 ^ 28 ≤ k) (hk' : k < 15 * 2 ^ 28) :
    fullCfg.SelectBad (fullCfg.logical (fullOps n)) k := by
  rw [fullOps_logical hn]
  refine ⟨rfl, rfl, rfl, Or.inl ⟨1, by omega, by omega, ?_⟩⟩
  show ones _ (512 * (15 * 524288)) = ones _ (512 * (7 * 524288)) + 2 ^ 31 ∧
    ones _ (512 * (14 * 524288)) ≤ _ ∧ _ < ones _ (512 * (15 * 524288))
  rw [ones_full, ones_full, ones_full]
  omega

/-- C28 is false of the code. -/
theorem C28_false : ¬ C28_full := by
  intro h
  obtain ⟨n, hn⟩ : ∃ n, n = 2 ^ 27 := ⟨_, rfl⟩
  have hlife := fullOps_life (n := n) (by omega) (by omega)
  obtain ⟨bm, e, hs⟩ := h fullCfg (fullOps n) hlife
  have hk : 31 * 2 ^ 28 < ones (fullCfg.logical (fullOps n)) (fullCfg.logical (fullOps n)).length := by
    rw [fullOps_logical (by omega), List.length_replicate, ones_full]
    omega
  obtain ⟨bm', e', hbad⟩ := C28_fails hlife
  have : bm' = bm := by rw [e] at e'; injection e' with h; exact h.symm
  subst this
  obtain ⟨p, ep, -⟩ := hs Scratch.init rfl _ hk
  rw [hbad _ _ hk (fullOps_bad (by omega) (Nat.le_refl _))] at ep
  cases ep

/-- The hypotheses of `C28_partial` and `C28_fails` are met by the same bitmap: rank 0 is good, rank
`14 * 2^28` of a bitmap with `15 * 2^19` full blocks is not. -/
example {n : Nat} (hn : n = 15 * 2 ^ 22) : ∃ bm, fullCfg.run (fullOps n) = ok bm ∧
    (∃ p, bmSelect fullCfg Scratch.init bm 0 = ok p ∧ IsSelect (fullCfg.logical (fullOps n)) 0 p) ∧
    bmSelect fullCfg Scratch.init bm (14 * 2 ^ 28) = ub .oob := by
  have hlife := fullOps_life (n := n) (by omega) (by omega)
  obtain ⟨bm, e, hg⟩ := C28_partial hlife
  obtain ⟨bm', e', hbad⟩ := C28_fails hlife
  have : bm' = bm := by rw [e] at e'; injection e' with h; exact h.symm
  subst this
  have hlen : ones (fullCfg.logical (fullOps n)) (fullCfg.logical (fullOps n)).length = 64 * n := by
    rw [fullOps_logical (by omega), List.length_replicate, ones_full, Nat.min_self]
  refine ⟨_, e, hg _ rfl _ (by omega) ?_, hbad _ _ (by omega)
    (fullOps_bad_group (by omega) (by omega) (Nat.le_refl _) (by omega))⟩
  rw [fullOps_logical (by omega)]
  rintro ⟨-, -, -, ⟨s, h1, h3, hf, hlo, -⟩ | hb⟩
  · have hlo : ones (List.replicate (64 * n) true) (512 * ((8 * s + 6) * 524288)) ≤ 0 := hlo
    rw [ones_full] at hlo
    omega
  · have hb : ones (List.replicate (64 * n) true) (512 * (23 * 524288)) + 2 ^ 31 ≤ 0 := hb
    omega

end MRS.Props
