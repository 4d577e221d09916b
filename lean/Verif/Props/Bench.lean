import Verif.Proofs.Bench
import Verif.Props.Words
import Verif.Props.Util

/-!
# C106: the benchmarks of words and blocks

Every benchmark draws only queries within the bitmap, and the number it prints after `# ignore:` is the
sum of the right results, whatever algorithm is timed.  Two programs deviate: the benchmark of the
search divides by zero if it draws a bucket without ones, and the benchmark of vector population counts
prints the count of a single word.
-/

set_option autoImplicit false

namespace MRS.Props
open MRS Outcome Spec Bench

theorem block_ok {bits : Vec Word} {a W : Nat} (h : a + W ≤ bits.len) :
    PtrOK ⟨bits, a⟩ W (fun j => bits.f (a + j)) := ptrOK_block (x := ⟨bits, a⟩) h

theorem sum_take (x : Ptr) {W k : Nat} (hk : k < W) :
    (((blockWords x W).take (k + 1)).map BitVec.toNat).sum =
      psum (fun l => (x.v.f (x.base + l)).toNat) (k + 1) := by
  have : ∀ m, m ≤ W → (((blockWords x W).take m).map BitVec.toNat).sum =
      psum (fun l => (x.v.f (x.base + l)).toNat) m := by
    intro m
    induction m with
    | zero => intro _; rfl
    | succ m ih =>
      intro hm
      have hl : m < (blockWords x W).length := by simp [blockWords]; omega
      rw [List.take_succ_eq_append_getElem hl, List.map_append, List.sum_append, ih (by omega), psum_succ]
      simp [blockWords]
  exact this (k + 1) hk

section
variable {n : Nat} {bits : Vec Word} (hb : n ≤ 64 * bits.len) (hw : n < 2 ^ 64) (seed : Word) (b : Build)
include hb hw

/-! ## Rank -/

/-- perf_rank256: query `j` asks for the rank at the position that draw `2j + 1` gives in the block that
draw `2j` gives, and the printed number is a hundred times the sum of these ranks, for all modes and
whatever the static arrays hold. -/
theorem C106_rank256 (hn : 256 ≤ n) {mode : Nat} (hm : mode ∈ rank256Modes) {g : Nat → Nat → Scratch}
    (hg : ∀ run i, (g run i).sums 0 = 0) :
    rankRound 4 (rankU256 b mode) g seed bits n = ok (100 * ((List.range 10000).map fun j =>
      rank (blockBits ⟨bits, start 4 n seed (2 * j)⟩ 4) ((smNth seed (2 * j + 1)).toNat % 256)).sum
        % 2 ^ 64) := by
  unfold rankRound
  rw [genFixed_ok (W := 4) hn (by decide) hb hw seed (by decide), ok_bind]
  simp only [Nat.zero_add]
  rw [measure_ok (v := fun q => rank (blockBits q.1 4) q.2), List.map_map]
  · rfl
  · intro run i q hq
    obtain ⟨j, _, rfl⟩ := List.mem_map.1 hq
    have := start_le (W := 4) hn (by decide) seed (2 * j)
    exact C22_rank_u256 hm (hg run i) (by show start 4 n seed (2 * j) + 4 ≤ bits.len; omega)
      (Nat.mod_lt _ (by decide))

/-- perf_rank512. -/
theorem C106_rank512 (hn : 512 ≤ n) {mode : Nat} (hm : mode ∈ rank512Modes) {g : Nat → Nat → Scratch}
    (hg : ∀ run i, (g run i).sums 0 = 0) :
    rankRound 8 (rankU512 b mode) g seed bits n = ok (100 * ((List.range 10000).map fun j =>
      rank (blockBits ⟨bits, start 8 n seed (2 * j)⟩ 8) ((smNth seed (2 * j + 1)).toNat % 512)).sum
        % 2 ^ 64) := by
  unfold rankRound
  rw [genFixed_ok (W := 8) hn (by decide) hb hw seed (by decide), ok_bind]
  simp only [Nat.zero_add]
  rw [measure_ok (v := fun q => rank (blockBits q.1 8) q.2), List.map_map]
  · rfl
  · intro run i q hq
    obtain ⟨j, _, rfl⟩ := List.mem_map.1 hq
    have := start_le (W := 8) hn (by decide) seed (2 * j)
    exact C23_rank_u512 hm (hg run i) (by show start 8 n seed (2 * j) + 8 ≤ bits.len; omega)
      (Nat.mod_lt _ (by decide))

/-- perf_rank64: a query with `k > 0` counts the first `k` bits of a word, one with `k = 0` all 64 of
them, so the printed number is a hundred times the sum of the ranks at `(k + 63) % 64`. -/
theorem C106_rank64 (hn : 256 ≤ n) :
    rank64Round b seed bits n = ok (100 * ((List.range 10000).map fun j =>
      rank (blockBits ⟨bits, start 4 n seed (2 * j)⟩ 1)
        (((smNth seed (2 * j + 1)).toNat % 64 + 63) % 64)).sum % 2 ^ 64) := by
  unfold rank64Round
  rw [genFixed_ok (W := 4) hn (by decide) hb hw seed (by decide), ok_bind]
  simp only [Nat.zero_add]
  rw [measure_ok (v := fun q => rank (blockBits q.1 1) ((q.2 + 63) % 64)), List.map_map]
  · rfl
  · intro run i q hq
    obtain ⟨j, _, rfl⟩ := List.mem_map.1 hq
    have := start_le (W := 4) hn (by decide) seed (2 * j)
    have hx : PtrOK ⟨bits, start 4 n seed (2 * j)⟩ 1 (fun l => bits.f (start 4 n seed (2 * j) + l)) :=
      block_ok (by omega)
    show rank64Query b ⟨bits, start 4 n seed (2 * j)⟩ ((smNth seed (2 * j + 1)).toNat % 64) = _
    rw [rank64Query_ok b hx (Nat.mod_lt _ (by decide))]
    refine congrArg ok ?_
    unfold Spec.rank
    have hl : ((smNth seed (2 * j + 1)).toNat % 64 + 63) % 64 + 1 ≤ 64 := by omega
    show _ = ones (blockBits ⟨bits, start 4 n seed (2 * j)⟩ 1)
      (((smNth seed (2 * j + 1)).toNat % 64 + 63) % 64 + 1)
    rw [(rep_block ⟨bits, start 4 n seed (2 * j)⟩ 1).ones (by rw [blockBits_length]; omega)]
    have := fcnt_split (fun l => bits.f (start 4 n seed (2 * j) + l)) 0 _ hl
    rw [Nat.mul_zero, Nat.zero_add] at this
    rw [this]
    exact (Nat.zero_add _).symm

/-! ## Prefix sums -/

/-- perf_prefix_sum256, perf_prefix_sum512: all three modes print a hundred times the sum of the prefix
sums of the words drawn, modulo `2^64`. -/
theorem C106_prefix {W : Nat} {ps : Lanes → Lanes}
    (hW : W = 4 ∧ ps = prefixsum256 ∨ W = 8 ∧ ps = prefixsum512) (hn : 64 * W ≤ n)
    (g : Nat → Nat → Nat → Nat)
    {alg : (Nat → Nat) → Ptr → Nat → Outcome Nat}
    (ha : alg = (fun _ => prefixLoop) ∨ alg = prefixUnrolled W ∨ alg = (fun _ => prefixParallel W ps)) :
    prefixRound W alg g seed bits n = ok (100 * ((List.range 10000).map fun j =>
      (((blockWords ⟨bits, start W n seed (2 * j)⟩ W).take ((smNth seed (2 * j + 1)).toNat % W + 1)).map
        BitVec.toNat).sum % 2 ^ 64).sum % 2 ^ 64) := by
  have h0 : 0 < W := by rcases hW with ⟨rfl, _⟩ | ⟨rfl, _⟩ <;> decide
  have hps : PsMod W ps := by
    rcases hW with ⟨rfl, rfl⟩ | ⟨rfl, rfl⟩
    · exact psMod256
    · exact psMod512
  unfold prefixRound
  rw [genFixed_ok hn h0 hb hw seed h0, ok_bind]
  simp only [Nat.zero_add]
  rw [measure_ok (v := fun q => (((blockWords q.1 W).take (q.2 + 1)).map BitVec.toNat).sum % W64),
    List.map_map]
  · rfl
  · intro run i q hq
    obtain ⟨j, _, rfl⟩ := List.mem_map.1 hq
    have hs := start_le hn h0 seed (2 * j)
    have hx : PtrOK ⟨bits, start W n seed (2 * j)⟩ W (fun l => bits.f (start W n seed (2 * j) + l)) :=
      block_ok (by omega)
    have hk : (smNth seed (2 * j + 1)).toNat % W < W := Nat.mod_lt _ h0
    have e : alg (g run i) ⟨bits, start W n seed (2 * j)⟩ ((smNth seed (2 * j + 1)).toNat % W) =
        ok (psum (fun l => (bits.f (start W n seed (2 * j) + l)).toNat)
          ((smNth seed (2 * j + 1)).toNat % W + 1) % W64) := by
      rcases ha with rfl | rfl | rfl
      · exact prefixLoop_ok hx hk
      · exact prefixUnrolled_ok hx _ hk
      · exact prefixParallel_ok hps hx hk
    refine e.trans (congrArg (fun v => ok (v % W64)) ?_)
    exact (sum_take ⟨bits, start W n seed (2 * j)⟩ hk).symm

/-! ## Population counts -/

/-- perf_popcnt256, perf_popcnt512 with `broadword` or `builtin`: a hundred times the ones of the blocks
drawn. -/
theorem C106_popcnt {W pcm : Nat} (hW : W = 4 ∨ W = 8) (hp : pcm ≤ 1) (hn : 64 * W ≤ n) :
    popcntRound b W pcm seed bits n = ok (100 * ((List.range 10000).map fun j =>
      ones (blockBits ⟨bits, start W n seed j⟩ W) (64 * W)).sum % 2 ^ 64) := by
  have h0 : 0 < W := by omega
  unfold popcntRound
  rw [genPtrs_ok hn h0 hb hw seed, ok_bind]
  simp only [Nat.zero_add]
  rw [measure_ok (v := fun x => ones (blockBits x W) (64 * W)), List.map_map]
  · rfl
  · intro run i q hq
    obtain ⟨j, _, rfl⟩ := List.mem_map.1 hq
    have hs := start_le hn h0 seed j
    rw [popcountWords_ok b hp (by omega) (block_ok (W := W) (by omega)),
      (rep_block ⟨bits, start W n seed j⟩ W).ones (by rw [blockBits_length]; omega)]

/-- With `avx2` and `avx512` they print the ones of the first word of the last block drawn: the sum is
assigned where the others add. -/
theorem C106_popcnt_vec {W : Nat} (hW : W = 4 ∨ W = 8) (hn : 64 * W ≤ n) :
    popcntVecRound W seed bits n =
      ok (ones (blockBits ⟨bits, start W n seed 9999⟩ 1) 64) := by
  have h0 : 0 < W := by omega
  have hs : ∀ j, start W n seed j + W ≤ bits.len := fun j => by
    have := start_le hn h0 seed j
    omega
  unfold popcntVecRound
  rw [genPtrs_ok hn h0 hb hw seed, ok_bind]
  simp only [Nat.zero_add]
  rw [measureLast_ok h0 (x := ⟨bits, start W n seed 9999⟩)
    (ws := fun l => bits.f (start W n seed 9999 + l)) _ _ (block_ok (hs _))]
  · refine congrArg ok ?_
    rw [(rep_block ⟨bits, start W n seed 9999⟩ 1).ones (by rw [blockBits_length]; omega)]
    have := fcnt_split (fun l => bits.f (start W n seed 9999 + l)) 0 64 (Nat.le_refl _)
    rw [Nat.mul_zero, Nat.zero_add] at this
    rw [this]
    exact (Nat.zero_add _).symm
  · intro y hy
    obtain ⟨j, _, rfl⟩ := List.mem_map.1 hy
    exact ⟨_, block_ok (hs j)⟩
  · rw [show (10000 : Nat) = 9999 + 1 from rfl, List.range_succ, List.map_append]
    exact List.getLast?_concat ..

/-- perf_popcnt_for_avx_select256, perf_popcnt_for_avx_select512: both modes print a hundred times the
ones of the first words of the blocks drawn. -/
theorem C106_lanes {W : Nat} (h0 : 0 < W) (hn : 64 * W ≤ n) {pc : Ptr → Outcome Lanes}
    (hpc : pc = popcountArr W ∨ pc = popcountVec W) :
    lanesRound W pc seed bits n = ok (100 * ((List.range 1000000).map fun j =>
      ones (blockBits ⟨bits, start W n seed j⟩ 1) 64).sum % 2 ^ 64) := by
  unfold lanesRound
  rw [genPtrs_ok hn h0 hb hw seed, ok_bind]
  simp only [Nat.zero_add]
  rw [measureLanes_ok (c := fun x => ones (blockBits x 1) 64), List.map_map]
  · rfl
  · intro y hy
    obtain ⟨j, _, rfl⟩ := List.mem_map.1 hy
    have hs := start_le hn h0 seed j
    have hx : PtrOK ⟨bits, start W n seed j⟩ W (fun l => bits.f (start W n seed j + l)) :=
      block_ok (by omega)
    have e : ones (blockBits ⟨bits, start W n seed j⟩ 1) 64 =
        wones (fun l => bits.f (start W n seed j + l)) 0 := by
      rw [(rep_block ⟨bits, start W n seed j⟩ 1).ones (by rw [blockBits_length]; omega)]
      exact (fcnt_words (fun l => bits.f (start W n seed j + l)) 1).trans (Nat.zero_add _)
    show ∃ v, pc _ = ok v ∧ v 0 = ones (blockBits ⟨bits, start W n seed j⟩ 1) 64
    rw [e]
    rcases hpc with rfl | rfl
    · obtain ⟨v, ev, hv⟩ := popcountArr_ok hx
      exact ⟨v, ev, hv 0 h0⟩
    · obtain ⟨v, ev, hv⟩ := popcountVec_ok hx
      exact ⟨v, ev, hv 0 h0⟩

/-! ## Select -/

/-- What the three benchmarks of `select` have in common: if some bucket has a one, drawing the queries
ends, each query asks for a one that exists within the first `n` bits, and the printed number is a
hundred times the sum of the positions of these ones. -/
theorem selectRound_ok {W : Nat} (h0 : 0 < W) (hn : 64 * W ≤ n) {cnt : Ptr → Outcome Nat}
    (hc : ∀ x : Ptr, x.base + W ≤ x.v.len → cnt x = ok (ones (blockBits x W) (64 * W)))
    {alg : Scratch → Ptr → Nat → Outcome Nat}
    (ha : ∀ (g : Scratch) (x : Ptr) (k : Nat), g.sums 0 = 0 → x.base + W ≤ x.v.len → k < ones (blockBits x W) (64 * W) →
      ∃ p, alg g x k = ok p ∧ IsSelect (blockBits x W) k p)
    {q : Nat} (hq : q < n / (64 * W)) (hone : 0 < ones (blockBits ⟨bits, q * W⟩ W) (64 * W))
    {fuel : Nat} (hf : 10000 * 2 ^ 64 ≤ fuel) :
    ∃ qs, genSelect W n cnt seed bits fuel 10000 0 = ok qs ∧ qs.length = 10000 ∧
      (∀ p ∈ qs, p.1.v = bits ∧ p.1.base % W = 0 ∧ 64 * (p.1.base + W) ≤ n ∧
        p.2 < ones (blockBits p.1 W) (64 * W)) ∧
      ∃ v : Ptr × Nat → Nat, (∀ p ∈ qs, IsSelect (blockBits p.1 W) p.2 (v p)) ∧
        ∀ g : Nat → Nat → Scratch, (∀ run i, (g run i).sums 0 = 0) →
          selectRound W cnt alg g fuel seed bits n = ok (100 * (qs.map v).sum % 2 ^ 64) := by
  obtain ⟨qs, e, hl, hqs⟩ := genSelect_ok hn h0 hb hw seed
    (c := fun x => ones (blockBits x W) (64 * W)) (fun x hv hx => hc x (by rw [hv]; exact hx)) hq hone
    10000 fuel 0 hf
  have hin : ∀ p ∈ qs, p.1.base + W ≤ p.1.v.len := fun p hp => by
    obtain ⟨h1, -, h2, -⟩ := hqs p hp
    rw [h1]; omega
  obtain ⟨v, hv⟩ : ∃ v : Ptr × Nat → Nat, ∀ p ∈ qs, IsSelect (blockBits p.1 W) p.2 (v p) := by
    refine ⟨fun p => match alg Scratch.init p.1 p.2 with | ok r => r | _ => 0, fun p hp => ?_⟩
    obtain ⟨r, er, hr⟩ := ha Scratch.init p.1 p.2 rfl (hin p hp) (hqs p hp).2.2.2
    show IsSelect _ _ (match alg Scratch.init p.1 p.2 with | ok r => r | _ => 0)
    rw [er]; exact hr
  refine ⟨qs, e, hl, hqs, v, hv, fun g hg => ?_⟩
  unfold selectRound
  rw [e, ok_bind, measure_ok (v := v)]
  intro run i p hp
  obtain ⟨r, er, hr⟩ := ha (g run i) p.1 p.2 (hg run i) (hin p hp) (hqs p hp).2.2.2
  show alg (g run i) p.1 p.2 = _
  rw [er, isSelect_unique hr (hv p hp)]

end

/-- A block with a one, at bit `i` of the array, is not empty. -/
theorem block_one {bits : Vec Word} {W i : Nat} (h0 : 0 < W)
    (hbit : fbit bits.f i = true) : 0 < ones (blockBits ⟨bits, i / (64 * W) * W⟩ W) (64 * W) := by
  rw [(rep_block ⟨bits, i / (64 * W) * W⟩ W).ones (by rw [blockBits_length]; omega)]
  have hd := Nat.div_add_mod i (64 * W)
  have hm := Nat.mod_lt i (show 0 < 64 * W by omega)
  have e : 64 * (i / (64 * W) * W) = 64 * W * (i / (64 * W)) := by
    rw [Nat.mul_assoc, Nat.mul_comm W]
  have hf : fbit (fun j => bits.f (i / (64 * W) * W + j)) (i % (64 * W)) = true := by
    rw [fbit_shift, e, hd]; exact hbit
  refine Nat.lt_of_lt_of_le ?_ (fcnt_mono _ (show i % (64 * W) + 1 ≤ 64 * W from hm))
  show 0 < fcnt (fun j => bits.f (i / (64 * W) * W + j)) (i % (64 * W) + 1)
  rw [fcnt_ind, psum_succ]
  unfold ind
  rw [hf]
  exact Nat.lt_of_lt_of_le Nat.zero_lt_one (Nat.le_add_left _ _)

/-- The algorithms that a benchmark of `select` for buckets of `W` words can time, with the way it
counts the ones of a bucket: perf_select64, perf_select256, perf_select512. -/
inductive SelectBench (b : Build) : (W : Nat) → (Ptr → Outcome Nat) →
    (Scratch → Ptr → Nat → Outcome Nat) → Prop
  | w64 (mode : Nat) (hm : mode ≤ 4) : SelectBench b 1 (count64 b) (fun _ => select64Query b mode)
  | w256 (mode : Nat) (hm : mode ∈ select256Modes) (g : Scratch) (hg : g.sums 0 = 0) : SelectBench b 4
      (fun x => rankU256 b RankMode.broadword_unrolled g x 255) (selectU256 b mode)
  | w512 (mode : Nat) (hm : mode ∈ select512Modes) (g : Scratch) (hg : g.sums 0 = 0) : SelectBench b 8
      (fun x => rankU512 b RankMode.broadword_unrolled g x 511) (selectU512 b mode)

theorem fcnt_zeros (t : Nat) : fcnt (fun _ => 0#64) t = 0 := by
  induction t with
  | zero => rfl
  | succ t ih =>
    rw [fcnt_ind, psum_succ, ← fcnt_ind, ih]
    unfold ind fbit
    rw [BitVec.getLsbD_zero]
    rfl

theorem block_one_word (x : Ptr) : blockBits x 1 = bitsOf [x.v.f x.base] := by
  unfold blockBits blockWords
  rfl

theorem SelectBench.ok {b : Build} {W : Nat} {cnt : Ptr → Outcome Nat}
    {alg : Scratch → Ptr → Nat → Outcome Nat} (h : SelectBench b W cnt alg) :
    0 < W ∧ W ≤ 8 ∧ (∀ x : Ptr, x.base + W ≤ x.v.len → cnt x = ok (ones (blockBits x W) (64 * W))) ∧
    (∀ (g : Scratch) (x : Ptr) (k : Nat), g.sums 0 = 0 → x.base + W ≤ x.v.len →
      k < ones (blockBits x W) (64 * W) → ∃ p, alg g x k = ok p ∧ IsSelect (blockBits x W) k p) := by
  cases h with
  | w64 mode hm =>
    refine ⟨by decide, by decide, fun x hx => ?_, fun g x k _ hx hk => ?_⟩
    · unfold count64
      rw [ptrOK_block hx 0 (by decide), ok_bind, C20_popcount b (Nat.le_refl _), block_one_word]
      rfl
    · rw [block_one_word] at hk ⊢
      obtain ⟨p, e, hp⟩ := C21_select_u64 b hm hk
      refine ⟨p, ?_, hp⟩
      show (do let w ← x.at 0; selectU64 b mode w k) = _
      rw [ptrOK_block hx 0 (by decide), ok_bind]
      exact e
  | w256 mode hm g0 hg0 =>
    exact ⟨by decide, by decide, fun x hx => C22_rank_u256 (by decide) hg0 hx (by decide),
      fun g x k hg hx hk => C24_select_u256 hm hg hx hk⟩
  | w512 mode hm g0 hg0 =>
    exact ⟨by decide, by decide, fun x hx => C23_rank_u512 (by decide) hg0 hx (by decide),
      fun g x k hg hx hk => C24_select_u512 hm hg hx hk⟩

/-- The benchmarks of `select` on the bits that `create_random_bits` makes: for every density, all seeds
and all sizes, drawing the queries ends, and what is printed does not depend on the algorithm. -/
theorem C106_select (b : Build) {nw : Nat} (h4 : 4 ≤ nw) (hnw : nw * 64 < 2 ^ 64)
    (threshold bitsSeed seed : Word) (W : Nat) {sizes : List Nat}
    (hs : ∀ n ∈ sizes, 256 ≤ n ∧ 64 * W ∣ n ∧ n ≤ 64 * nw) {fuel : Nat} (hf : 10000 * 2 ^ 64 ≤ fuel) :
    ∃ sums : List Nat, sums.length = sizes.length ∧
      ∀ cnt alg, SelectBench b W cnt alg → ∀ g : Nat → Nat → Nat → Scratch,
        (∀ n run i, (g n run i).sums 0 = 0) →
        selectProgram W cnt alg g fuel nw sizes threshold bitsSeed seed = Outcome.ok sums := by
  obtain ⟨k, bits, ec, hl, -, ⟨i, hi, hbit⟩, -⟩ := C34 nw threshold bitsSeed h4 hnw
  rw [toList_bit bits (by rw [hl]; omega)] at hbit
  have hbit := Option.some.inj hbit
  rcases Classical.em (∃ cnt alg, SelectBench b W cnt alg) with hex | hex
  case inr =>
    exact ⟨List.replicate sizes.length 0, List.length_replicate, fun cnt alg h => absurd ⟨cnt, alg, h⟩ hex⟩
  obtain ⟨cnt0, alg0, h0⟩ := hex
  obtain ⟨hW, -, -, -⟩ := h0.ok
  -- one size
  have one : ∀ n, 256 ≤ n ∧ 64 * W ∣ n ∧ n ≤ 64 * nw → ∃ s, ∀ cnt alg, SelectBench b W cnt alg →
      ∀ g : Nat → Nat → Scratch, (∀ run i, (g run i).sums 0 = 0) →
        selectRound W cnt alg g fuel seed bits n = Outcome.ok s := by
    rintro n ⟨h256, ⟨d, hd⟩, hn⟩
    have hd0 : 0 < d := by
      rcases Nat.eq_zero_or_pos d with h | h
      · rw [h] at hd; omega
      · exact h
    have hge : 64 * W ≤ n := by rw [hd]; exact Nat.le_mul_of_pos_right _ hd0
    have hq : i / (64 * W) < n / (64 * W) := by
      rw [hd, Nat.mul_div_cancel_left _ (by omega)]
      exact Nat.div_lt_of_lt_mul (by omega)
    have hone := block_one hW hbit
    obtain ⟨-, -, c1, c2⟩ := h0.ok
    obtain ⟨qs, e, -, hqs, v, hv, -⟩ := selectRound_ok (by rw [hl]; exact hn) (by omega) seed hW hge
      c1 c2 hq hone hf
    refine ⟨100 * (qs.map v).sum % 2 ^ 64, fun cnt alg h g hg => ?_⟩
    obtain ⟨-, -, c1', c2'⟩ := h.ok
    obtain ⟨qs', e', -, hqs', v', hv', r⟩ := selectRound_ok (by rw [hl]; exact hn) (by omega) seed hW hge
      c1' c2' hq hone hf
    rw [r g hg]
    have hqq : qs = qs' := by
      have : genSelect W n cnt0 seed bits fuel 10000 0 = genSelect W n cnt seed bits fuel 10000 0 :=
        genSelect_congr hge hW (by rw [hl]; exact hn) (by omega) seed
          (fun x hv hx => (c1 x (by rw [hv]; exact hx)).trans (c1' x (by rw [hv]; exact hx)).symm) fuel 10000 0
      rw [e, e'] at this
      exact Outcome.ok.inj this
    subst hqq
    rw [List.map_congr_left fun p hp => isSelect_unique (hv' p hp) (hv p hp)]
  -- all sizes
  have all : ∀ l : List Nat, (∀ n ∈ l, 256 ≤ n ∧ 64 * W ∣ n ∧ n ≤ 64 * nw) → ∃ sums : List Nat,
      sums.length = l.length ∧ ∀ cnt alg, SelectBench b W cnt alg → ∀ g : Nat → Nat → Nat → Scratch,
        (∀ n run i, (g n run i).sums 0 = 0) → l.foldr (fun n rest => do
          let s ← selectRound W cnt alg (g n) fuel seed bits n
          let ss ← rest
          Outcome.ok (s :: ss)) (Outcome.ok []) = Outcome.ok sums := by
    intro l
    induction l with
    | nil => intro _; exact ⟨[], rfl, fun _ _ _ _ _ => rfl⟩
    | cons n l ih =>
      intro h
      obtain ⟨s, hs⟩ := one n (h n List.mem_cons_self)
      obtain ⟨ss, hlen, hss⟩ := ih fun m hm => h m (List.mem_cons_of_mem _ hm)
      refine ⟨s :: ss, by rw [List.length_cons, List.length_cons, hlen], fun cnt alg hb g hg => ?_⟩
      rw [List.foldr_cons, hs cnt alg hb (g n) (hg n), ok_bind, hss cnt alg hb g hg, ok_bind]
  obtain ⟨sums, hlen, hsums⟩ := all sizes hs
  refine ⟨sums, hlen, fun cnt alg h g hg => ?_⟩
  unfold selectProgram
  rw [ec, ok_bind]
  exact hsums cnt alg h g hg

/-- Without a one among the first `n` bits drawing would never end. -/
theorem C106_select_needs_one {b : Build} {W : Nat} {cnt : Ptr → Outcome Nat}
    {alg : Scratch → Ptr → Nat → Outcome Nat} (h : SelectBench b W cnt alg) {nw n : Nat}
    (hn : 64 * W ≤ n) (hb : n ≤ 64 * nw) (hw : n < 2 ^ 64) (seed : Word) (fuel : Nat)
    (g : Nat → Nat → Scratch) :
    selectRound W cnt alg g fuel seed (Vec.ofList (List.replicate nw 0#64)) n = ub .diverges := by
  obtain ⟨h0, -, hc, -⟩ := h.ok
  have hl : (Vec.ofList (List.replicate nw 0#64)).len = nw := List.length_replicate
  unfold selectRound
  rw [genSelect_diverges hn h0 (by rw [hl]; exact hb) hw seed (m := 9999) _ fuel 0]
  · rfl
  · intro x hv hx
    rw [hc x (by rw [hv]; exact hx), (rep_block x W).ones (by rw [blockBits_length]; omega)]
    refine congrArg Outcome.ok ?_
    rw [fcnt_congr (g := fun _ => 0#64)]
    · exact fcnt_zeros _
    · intro j _
      rw [fbit_shift, hv, zeros_fbit]
      unfold fbit
      exact BitVec.getLsbD_zero.symm

/-! ## Search -/

section
variable {n : Nat} {bits : Vec Word} (hb : n ≤ 64 * bits.len) (hw : n < 2 ^ 64) (seed : Word) (b : Build)
include hb hw

theorem counts_block {W : Nat} {cnts : Vec Word} (hl : cnts.len = bits.len)
    (hc : ∀ i, i < bits.len → (cnts.f i).toNat = wcnt (bits.f i) 64) {a : Nat} (ha : 64 * (a + W) ≤ n)
    {m : Nat} (hm : m ≤ W) :
    psum (fun j => (cnts.f (a + j)).toNat) m = ones (blockBits ⟨bits, a⟩ W) (64 * m) := by
  rw [(rep_block ⟨bits, a⟩ W).ones (by rw [blockBits_length]; omega), fcnt_words]
  exact psum_congr fun j hj => hc (a + j) (by omega)

/-- perf_search256, perf_search512 if every block drawn has a one: query `j` takes the number that draw
`2j + 1` gives below the number of ones of the block that draw `2j` gives, and the result is what remains
of it in the word where it falls.  Both modes print a hundred times the sum of these.  What is missing
is the case of a block without ones, see `C106_search_divides_by_zero`. -/
theorem C106_search_partial {W : Nat} {ps : Lanes → Lanes}
    (hW : W = 4 ∧ ps = prefixsum256 ∨ W = 8 ∧ ps = prefixsum512) (hn : 64 * W ≤ n)
    (hone : ∀ a, a % W = 0 → 64 * (a + W) ≤ n → 0 < ones (blockBits ⟨bits, a⟩ W) (64 * W)) :
    ∃ v : Nat → Nat,
      (∀ j, ∃ q, q < W ∧ v j < ones (bitsOf [bits.f (start W n seed (2 * j) + q)]) 64 ∧
        (smNth seed (2 * j + 1)).toNat % ones (blockBits ⟨bits, start W n seed (2 * j)⟩ W) (64 * W) =
          ones (blockBits ⟨bits, start W n seed (2 * j)⟩ W) (64 * q) + v j) ∧
      ∀ (g : Nat → Nat → Nat → Nat), (∀ run i, g run i 0 = 0) →
        ∀ alg, alg = (fun _ => searchLoop b W) ∨ alg = searchVec W ps →
          searchRound b W alg g seed bits n = ok (100 * ((List.range 10000).map v).sum % 2 ^ 64) := by
  have hW' : W = 4 ∨ W = 8 := by omega
  have h0 : 0 < W := by omega
  have hps : PsMod W ps := by
    rcases hW with ⟨rfl, rfl⟩ | ⟨rfl, rfl⟩
    · exact psMod256
    · exact psMod512
  obtain ⟨cnts, ec, hl, hc⟩ := countWords_ok b bits
  have hst := fun t => start_le hn h0 seed t
  have hmod : ∀ t, start W n seed t % W = 0 := fun t => Nat.mul_mod_left _ _
  have htot : ∀ t, psum (fun j => (cnts.f (start W n seed t + j)).toNat) W =
      ones (blockBits ⟨bits, start W n seed t⟩ W) (64 * W) := fun t =>
    counts_block hb hw hl hc (hst t) (Nat.le_refl _)
  have hsmall : ∀ t, psum (fun j => (cnts.f (start W n seed t + j)).toNat) W ≤ 512 := by
    intro t
    rw [psum_congr (g := wones fun j => bits.f (start W n seed t + j))
      (fun j hj => hc (start W n seed t + j) (by have := hst t; omega))]
    exact psum_wones_lt _ (Nat.le_refl W) (by omega)
  have hpos : ∀ t, 0 < psum (fun j => (cnts.f (start W n seed t + j)).toNat) W := by
    intro t
    rw [htot]
    exact hone _ (hmod t) (hst t)
  have hx : ∀ t, PtrOK ⟨cnts, start W n seed t⟩ W (fun j => cnts.f (start W n seed t + j)) :=
    fun t => block_ok (by have := hst t; omega)
  have hk : ∀ j, (smNth seed (2 * j + 1)).toNat %
      psum (fun l => (cnts.f (start W n seed (2 * j) + l)).toNat) W <
      psum (fun l => (cnts.f (start W n seed (2 * j) + l)).toNat) W := fun j => Nat.mod_lt _ (hpos _)
  have hall : ∀ j, ∃ r, IsRest (fun l => (cnts.f (start W n seed (2 * j) + l)).toNat) W
      ((smNth seed (2 * j + 1)).toNat %
        psum (fun l => (cnts.f (start W n seed (2 * j) + l)).toNat) W) r := fun j => by
    obtain ⟨r, -, h⟩ := searchVec_ok hW' hps (hx (2 * j)) (g := fun _ => 0) rfl (hk j)
      (Nat.lt_of_le_of_lt (hsmall _) (by decide))
    exact ⟨r, h⟩
  refine ⟨fun j => (hall j).choose, fun j => ?_, ?_⟩
  · have hr := (hall j).choose_spec
    show ∃ q, q < W ∧ (hall j).choose < _ ∧ _ = _ + (hall j).choose
    generalize (hall j).choose = r at hr
    obtain ⟨q, hq, e, hlt⟩ := hr
    refine ⟨q, hq, ?_, ?_⟩
    · rw [word_ones _ (Nat.le_refl _), ← hc _ (by have := hst (2 * j); omega)]
      exact hlt
    · have e1 := htot (2 * j)
      have e2 := counts_block hb hw hl hc (hst (2 * j)) (Nat.le_of_lt hq)
      rw [← e1, ← e2]
      exact e
  · intro g hg alg ha
    unfold searchRound
    rw [ec, ok_bind, genSearch_ok hn h0 (by rw [hl]; exact hb) hw seed
      (fun t => ⟨Nat.lt_of_le_of_lt (hsmall t) (by decide), hpos t⟩), ok_bind]
    simp only [Nat.zero_add]
    have hres : ∀ run i j, alg (g run i) ⟨cnts, start W n seed (2 * j)⟩ ((smNth seed (2 * j + 1)).toNat %
        psum (fun l => (cnts.f (start W n seed (2 * j) + l)).toNat) W) = ok (hall j).choose := by
      intro run i j
      rcases ha with rfl | rfl
      · obtain ⟨r, e, h⟩ := searchLoop_ok b (hx (2 * j)) (hk j)
          (Nat.lt_trans (hk j) (Nat.lt_of_le_of_lt (hsmall _) (by decide)))
        rw [isRest_unique (hall j).choose_spec h]; exact e
      · obtain ⟨r, e, h⟩ := searchVec_ok hW' hps (hx (2 * j)) (hg run i) (hk j)
          (Nat.lt_of_le_of_lt (hsmall _) (by decide))
        rw [isRest_unique (hall j).choose_spec h]; exact e
    rw [measure_map (v := fun j => (hall j).choose)]
    exact fun run i j => hres run i j

/-- If the first block drawn has no ones, the program divides by zero, for every algorithm. -/
theorem C106_search_divides_by_zero {W : Nat} (h0 : 0 < W) (hn : 64 * W ≤ n)
    (hz : ones (blockBits ⟨bits, start W n seed 0⟩ W) (64 * W) = 0)
    (alg : (Nat → Nat) → Ptr → Nat → Outcome Nat) (g : Nat → Nat → Nat → Nat) :
    searchRound b W alg g seed bits n = ub .divZero := by
  obtain ⟨cnts, ec, hl, hc⟩ := countWords_ok b bits
  unfold searchRound
  have e := genSearch_zero hn h0 (cnts := cnts) (by rw [hl]; exact hb) hw seed 9999 0 (by
    rw [counts_block hb hw hl hc (start_le hn h0 seed 0) (Nat.le_refl _)]; exact hz)
  rw [ec, ok_bind, e]
  rfl

end

/-- The two modes of the search differ once the sums reach `2^63`: the vector comparison is signed. -/
theorem C106_search_signed : searchLoop ⟨false, true, true, true⟩ 4
      ⟨Vec.ofList [0x8000000000000000#64, 1#64, 0#64, 0#64], 0⟩ 5 = ok 5 ∧
    searchVec 4 prefixsum256 (fun _ => 0) ⟨Vec.ofList [0x8000000000000000#64, 1#64, 0#64, 0#64], 0⟩ 5 =
      ok 0x8000000000000004 := by
  decide +kernel

/-! ## Examples -/

/-- Two blocks of 512 bits, each with a one. -/
def exBits : Vec Word := Vec.ofList [1#64, 0#64, 0xF0#64, 0x8000000000000001#64, 0#64, 6#64, 0#64, 1#64,
  9#64, 0#64, 0xFFFFFFFFFFFFFFFF#64, 0#64, 0#64, 0#64, 0#64, 3#64]

/-- `sizes` of perf_select256.cpp:20-25. -/
def perfSizes : List Nat := (List.range 25).map fun i => 2 ^ (8 + i)

example : rankRound 4 (rankU256 ⟨true, true, true, true⟩ RankMode.avx2_parallel) (fun _ _ => Scratch.init)
    71#64 exBits 1024 = ok (100 * ((List.range 10000).map fun j =>
      rank (blockBits ⟨exBits, start 4 1024 71#64 (2 * j)⟩ 4) ((smNth 71#64 (2 * j + 1)).toNat % 256)).sum
        % 2 ^ 64) :=
  C106_rank256 (by decide) (by decide) _ _ (by decide) (by decide) (fun _ _ => rfl)
example : rankRound 8 (rankU512 ⟨true, true, true, true⟩ RankMode.avx512_parallel)
    (fun _ _ => Scratch.init) 71#64 exBits 1024 = ok (100 * ((List.range 10000).map fun j =>
      rank (blockBits ⟨exBits, start 8 1024 71#64 (2 * j)⟩ 8) ((smNth 71#64 (2 * j + 1)).toNat % 512)).sum
        % 2 ^ 64) :=
  C106_rank512 (by decide) (by decide) _ _ (by decide) (by decide) (fun _ _ => rfl)
example : ∃ s, rank64Round ⟨true, true, true, true⟩ 71#64 exBits 1024 = ok s :=
  ⟨_, C106_rank64 (by decide) (by decide) _ _ (by decide)⟩
example : ∃ s, prefixRound 4 (fun _ => prefixParallel 4 prefixsum256) (fun _ _ _ => 0) 71#64 exBits 1024
    = ok s ∧ prefixRound 4 (prefixUnrolled 4) (fun _ _ _ => 9) 71#64 exBits 1024 = ok s :=
  ⟨_, C106_prefix (by decide) (by decide) _ (.inl ⟨rfl, rfl⟩) (by decide) _ (.inr (.inr rfl)),
    C106_prefix (ps := prefixsum256) (by decide) (by decide) _ (.inl ⟨rfl, rfl⟩) (by decide) _ (.inr (.inl rfl))⟩
example : ∃ s, popcntRound ⟨true, true, true, true⟩ 4 0 71#64 exBits 1024 = ok s :=
  ⟨_, C106_popcnt (by decide) (by decide) _ _ (.inl rfl) (by decide) (by decide)⟩
example : ∃ s, popcntVecRound 8 71#64 exBits 1024 = ok s :=
  ⟨_, C106_popcnt_vec (by decide) (by decide) _ (.inr rfl) (by decide)⟩
example : ∃ s, lanesRound 4 (popcountArr 4) 71#64 exBits 256 = ok s :=
  ⟨_, C106_lanes (by decide) (by decide) _ (by decide) (by decide) (.inl rfl)⟩
/-- The constants of perf_select256.cpp. -/
example (threshold : Word) : ∃ sums : List Nat, sums.length = 25 ∧
    selectProgram 4 (fun x => rankU256 ⟨true, true, true, true⟩ RankMode.broadword_unrolled Scratch.init x 255)
      (selectU256 ⟨true, true, true, true⟩ SelectMode.avx2_avx512_pdep) (fun _ _ _ => Scratch.init)
      (10000 * 2 ^ 64) (2 ^ 26) perfSizes threshold 13#64 71#64 = ok sums := by
  obtain ⟨sums, hl, h⟩ := C106_select ⟨true, true, true, true⟩ (nw := 2 ^ 26) (by decide) (by decide)
    threshold 13#64 71#64 4 (sizes := perfSizes) (by decide) (Nat.le_refl (10000 * 2 ^ 64))
  exact ⟨sums, hl, h _ _ (.w256 _ (by decide) _ rfl) _ (fun _ _ _ => rfl)⟩
example : selectRound 1 (count64 ⟨true, true, true, true⟩) (fun _ => select64Query ⟨true, true, true, true⟩ 4)
    (fun _ _ => Scratch.init) 1000 71#64 (Vec.ofList (List.replicate 8 0#64)) 512 = ub .diverges :=
  C106_select_needs_one (.w64 4 (by decide)) (by decide) (by decide) (by decide) _ _ _
example : ∃ s, searchRound ⟨false, true, true, true⟩ 4 (fun _ => searchLoop ⟨false, true, true, true⟩ 4)
      (fun _ _ _ => 0) 71#64 exBits 1024 = ok s ∧
    searchRound ⟨false, true, true, true⟩ 4 (searchVec 4 prefixsum256) (fun _ _ j => j) 71#64 exBits 1024
      = ok s := by
  obtain ⟨v, -, h⟩ := C106_search_partial (n := 1024) (bits := exBits) (by decide) (by decide) 71#64
    ⟨false, true, true, true⟩ (.inl ⟨rfl, rfl⟩) (by decide) (by
      intro a h1 h2
      have : ∀ a : Fin 13, a.1 % 4 = 0 → 0 < ones (blockBits ⟨exBits, a.1⟩ 4) (64 * 4) := by decide +kernel
      exact this ⟨a, by omega⟩ h1)
  exact ⟨_, h _ (fun _ _ => rfl) _ (.inl rfl), h _ (fun _ _ => rfl) _ (.inr rfl)⟩
/-- A single block without ones. -/
example (alg : (Nat → Nat) → Ptr → Nat → Outcome Nat) :
    searchRound ⟨true, true, true, true⟩ 4 alg (fun _ _ _ => 0) 71#64
      (Vec.ofList [0#64, 0#64, 0#64, 0#64, 1#64]) 256 = ub .divZero :=
  C106_search_divides_by_zero (by decide) (by decide) _ _ (by decide) (by decide) (by decide +kernel) _ _

end MRS.Props
