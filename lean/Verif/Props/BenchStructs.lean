import Verif.Proofs.BenchStructs
import Verif.Props.Tests
import Verif.Props.Poppy

/-!
# C107: benchmarks of whole bitmaps

src/perf_mutable_bitmap.cpp and src/perf_immutable_bitmap.cpp (`poppy_wrapper`), and the option `-i`.
`k` and `v` are the number of ones and the words that `create_random_bits` makes.
-/

set_option autoImplicit false

namespace MRS.Props
open MRS MRS.Bench Outcome Spec

/-! ## mutable_bitmap -/

theorem flips_twice {B : List Bool} (is : List Nat) : flips (flips B is) is = B := by
  apply List.ext_getElem?
  intro t
  by_cases ht : t < B.length
  · have h1 := flips_get is B t ht
    have ht' : t < (flips B is).length := by rw [flips_length]; exact ht
    have h2 := flips_get is (flips B is) t ht'
    rw [List.getElem?_eq_getElem ht'] at h1
    rw [h2, Option.some.inj h1, List.getElem?_eq_getElem ht]
    cases B[t] <;> cases decide (List.count t is % 2 = 1) <;> rfl
  · rw [List.getElem?_eq_none (by rw [flips_length, flips_length]; omega),
      List.getElem?_eq_none (by omega)]

theorem pad_rank {D : List Bool} {m i : Nat} (hi : i < D.length) : rank (pad D m) i = rank D i := by
  unfold rank ones pad
  rw [List.take_append_of_le_length (by omega)]

theorem pad_ones (D : List Bool) (m : Nat) : ones (pad D m) (pad D m).length = ones D D.length := by
  unfold ones pad
  rw [List.take_length, List.take_length, List.count_append, List.count_replicate]
  simp

theorem pad_select {D : List Bool} {m k p : Nat} (h : IsSelect (pad D m) k p) : IsSelect D k p := by
  obtain ⟨h1, h2⟩ := h
  unfold pad at h1 h2
  have hp : p < D.length := by
    apply Classical.byContradiction
    intro hp
    rw [List.getElem?_append_right (by omega), List.getElem?_replicate] at h1
    split at h1 <;> cases h1
  rw [List.getElem?_append_left hp] at h1
  refine ⟨h1, ?_⟩
  rw [← h2]
  unfold ones
  rw [List.take_append_of_le_length (by omega)]

section
variable {c : Config} {addr n k : Nat} {threshold bitsSeed : Word} {v : Vec Word}

/-- What the program has before it draws queries. -/
theorem bench_setup (h : c.Valid addr ((n + 63) / 64)) (hn : 256 ≤ n)
    (e : createRandomBits (Vec.ofList (List.replicate ((n + 63) / 64) 0#64)) threshold bitsSeed =
      ok (k, v))
    (hd : c.DebugOK (pad (bitsOf v.toList) c.blk.width.bits)) :
    ∃ bm, bmBuild c addr (Vec.ofList v.toList) v.toList.length Bitmap.empty = ok bm ∧
      Alive c bm (pad (bitsOf v.toList) c.blk.width.bits) ∧
      k = ones (bitsOf v.toList) (bitsOf v.toList).length ∧ 0 < k ∧ n ≤ (bitsOf v.toList).length ∧
      (pad (bitsOf v.toList) c.blk.width.bits).length < 2 ^ 34 := by
  have hw : c.blk.width.bits ≤ 512 := by cases c.blk.width <;> decide
  have hfit := h.fits
  have hmul : 2 ^ 24 * c.blk.width.bits ≤ 2 ^ 24 * 512 := Nat.mul_le_mul_left _ hw
  obtain ⟨k', v', e', hv, hk, ⟨i, hi, hbit⟩, -⟩ := C34 ((n + 63) / 64) threshold bitsSeed (by omega) (by omega)
  rw [e] at e'
  obtain ⟨rfl, rfl⟩ := Prod.mk.inj (Outcome.ok.inj e')
  have hlen : v.toList.length = (n + 63) / 64 := by rw [toList_length, hv]
  have hbl : (bitsOf v.toList).length = 64 * ((n + 63) / 64) := by rw [bitsOf_length, hlen]
  obtain ⟨bm, eb, ha⟩ := (Alive.start c).step (o := .build addr v.toList)
    ⟨by rw [hlen]; exact h, by rw [rebuilt_nil]; exact hd⟩
  refine ⟨bm, eb, ?_, by rw [hk, hbl], ?_, by omega, ?_⟩
  · rw [← rebuilt_nil]; exact ha
  · rw [hk, ← hbl]
    unfold ones
    rw [List.take_length]
    exact List.count_pos_iff.2 (List.mem_of_getElem? hbit)
  · unfold pad
    rw [List.length_append, List.length_replicate, hbl]
    have := Nat.mod_lt (c.blk.width.bits - 64 * ((n + 63) / 64) % c.blk.width.bits)
      (Width.bits_pos c.blk.width)
    omega

variable (h : c.Valid addr ((n + 63) / 64)) (hn : 256 ≤ n)
  (e : createRandomBits (Vec.ofList (List.replicate ((n + 63) / 64) 0#64)) threshold bitsSeed =
    ok (k, v))
  (hd : c.DebugOK (pad (bitsOf v.toList) c.blk.width.bits))
  {g : Nat → Nat → Nat → Scratch} (hg : ∀ m run i, (g m run i).sums 0 = 0) (seed : Word)
include h hn e hd

theorem round_setup (op : String) : ∃ bm qs, Alive c bm (pad (bitsOf v.toList) c.blk.width.bits) ∧
    qs = (List.range 10000).map (draw seed (if op = "select" then k else n)) ∧
    bitmapRound c op addr n threshold bitsSeed seed g =
      forty (fun m bm => measureBitmap c op (g m) qs bm) bm := by
  obtain ⟨bm, eb, ha, hk, h0, hle, hlt⟩ := bench_setup h hn e hd
  have hM : 0 < (if op = "select" then k else n) := by split <;> omega
  have e2 := drawBelow_ok hM seed numQueries 0
  simp only [Nat.zero_add] at e2
  refine ⟨bm, _, ha, rfl, ?_⟩
  unfold bitmapRound
  rw [e, ok_bind]
  simp only
  rw [eb, ok_bind, e2, ok_bind]
  rfl

include hg

/-- C107: `rank` on every configuration: each of the forty lines shows a hundred times the sum of the
ranks at the positions drawn. -/
theorem C107_rank : ∃ bm, bitmapRound c "rank" addr n threshold bitsSeed seed g =
    ok (List.replicate 40 (100 * ((List.range 10000).map fun j =>
      rank (bitsOf v.toList) ((smNth seed j).toNat % n)).sum % 2 ^ 64), bm) := by
  obtain ⟨-, -, -, -, -, hle, -⟩ := bench_setup h hn e hd
  obtain ⟨bm, qs, ha, hq, er⟩ := round_setup h hn e hd (g := g) seed "rank"
  have hlen : (bitsOf v.toList).length ≤ (pad (bitsOf v.toList) c.blk.width.bits).length := by
    unfold pad; rw [List.length_append]; omega
  rw [if_neg (by decide)] at hq
  have hm : ∀ m, measure (fun run i q => bmRank c (g m run i) bm q) qs =
      ok (100 * ((List.range 10000).map fun j =>
        rank (bitsOf v.toList) ((smNth seed j).toNat % n)).sum % W64) := by
    intro m
    rw [hq]
    exact measure_map (q := draw seed n)
      (v := fun j => rank (bitsOf v.toList) ((smNth seed j).toNat % n)) (fun run i j => by
        have hj : draw seed n j < n := Nat.mod_lt _ (by omega)
        rw [ha.rank (hg m run i) (by omega), pad_rank (by omega)]
        rfl) 10000
  rw [er]
  obtain ⟨bm', e', -⟩ := forty_ok (P := fun b => b = bm)
    (f := fun m bm => measureBitmap c "rank" (g m) qs bm) (fun m b hb => by
      subst hb
      refine ⟨b, ?_, rfl⟩
      unfold measureBitmap
      rw [if_pos rfl, hm m, ok_bind]) rfl
  exact ⟨bm', e'⟩

/-- C107: `select`: each line shows a hundred times the sum of the positions of the ones drawn. -/
theorem C107_select (hs : c.SelectSafe k) : k = ones (bitsOf v.toList) (bitsOf v.toList).length ∧
    ∃ p : Nat → Nat, (∀ j, IsSelect (bitsOf v.toList) ((smNth seed j).toNat % k) (p j)) ∧
    ∃ bm, bitmapRound c "select" addr n threshold bitsSeed seed g =
      ok (List.replicate 40 (100 * ((List.range 10000).map p).sum % 2 ^ 64), bm) := by
  obtain ⟨-, -, -, hk, h0, hle, -⟩ := bench_setup h hn e hd
  refine ⟨hk, ?_⟩
  obtain ⟨bm, qs, ha, hq, er⟩ := round_setup h hn e hd (g := g) seed "select"
  rw [if_pos rfl] at hq
  have hb : ones (pad (bitsOf v.toList) c.blk.width.bits) (pad (bitsOf v.toList) c.blk.width.bits).length = k := by
    rw [pad_ones, hk]
  have hsel : ∀ j, ∃ p, IsSelect (bitsOf v.toList) ((smNth seed j).toNat % k) p ∧
      ∀ g : Scratch, g.sums 0 = 0 → bmSelect c g bm (draw seed k j) = ok p := by
    intro j
    have hj : draw seed k j < k := Nat.mod_lt _ h0
    obtain ⟨p, -, hp⟩ := ha.select (g := g 0 0 0) (hg 0 0 0) (by rw [hb]; exact hs) (by rw [hb]; exact hj)
    refine ⟨p, pad_select hp, fun g' hg' => ?_⟩
    obtain ⟨p', ep, hp'⟩ := ha.select hg' (by rw [hb]; exact hs) (by rw [hb]; exact hj)
    rw [ep, isSelect_unique hp' hp]
  refine ⟨fun j => (hsel j).choose, fun j => (hsel j).choose_spec.1, ?_⟩
  generalize hp : (fun j => (hsel j).choose) = p
  have hp' : ∀ j (g : Scratch), g.sums 0 = 0 → bmSelect c g bm (draw seed k j) = ok (p j) := by
    intro j; rw [← hp]; exact (hsel j).choose_spec.2
  have hm : ∀ m, measure (fun run i q => bmSelect c (g m run i) bm q) qs =
      ok (100 * ((List.range 10000).map p).sum % W64) := by
    intro m
    rw [hq]
    exact measure_map (q := draw seed k) (fun run i j => hp' j _ (hg m run i)) 10000
  rw [er]
  obtain ⟨bm', e', -⟩ := forty_ok (P := fun b => b = bm)
    (f := fun m bm => measureBitmap c "select" (g m) qs bm) (fun m b hb => by
      subst hb
      refine ⟨b, ?_, rfl⟩
      unfold measureBitmap
      rw [if_neg (by decide), if_pos rfl, hm m, ok_bind]) rfl
  exact ⟨bm', e'⟩

/-- C107: `flip`: every position drawn is flipped a hundred times between two lines, so every line shows
the number of ones of the bitmap that was built, and in the end the bitmap is as it was. -/
theorem C107_flip : ∃ bm, bitmapRound c "flip" addr n threshold bitsSeed seed g =
    ok (List.replicate 40 k, bm) ∧
    ∀ (g' : Scratch) (i : Nat), g'.sums 0 = 0 → i < n → bmRank c g' bm i = ok (rank (bitsOf v.toList) i) := by
  obtain ⟨-, -, -, hk, h0, hle, hlt⟩ := bench_setup h hn e hd
  obtain ⟨bm, qs, ha, hq, er⟩ := round_setup h hn e hd (g := g) seed "flip"
  have hlen : (bitsOf v.toList).length ≤ (pad (bitsOf v.toList) c.blk.width.bits).length := by
    unfold pad; rw [List.length_append]; omega
  have hpo := pad_ones (bitsOf v.toList) c.blk.width.bits
  have hpr := fun i hi => pad_rank (D := bitsOf v.toList) (m := c.blk.width.bits) (i := i) hi
  generalize pad (bitsOf v.toList) c.blk.width.bits = B at ha hlen hpo hpr hlt
  rw [if_neg (by decide)] at hq
  have hqs : ∀ q ∈ qs, q < B.length := by
    intro q hq'
    rw [hq] at hq'
    obtain ⟨j, -, rfl⟩ := List.mem_map.1 hq'
    have hj : draw seed n j < n := Nat.mod_lt _ (by omega)
    omega
  rw [er]
  obtain ⟨bm', e', ha'⟩ := forty_ok (P := fun b => Alive c b B) (v := k)
    (f := fun m bm => measureBitmap c "flip" (g m) qs bm) (fun m b hb => by
      obtain ⟨b1, e1, h1⟩ := flipLoop_ok hqs (flips_twice qs) hb
      refine ⟨b1, ?_, h1⟩
      unfold measureBitmap
      rw [if_neg (by decide), if_neg (by decide), if_pos rfl, e1, ok_bind, h1.size,
        sub64_eq (by omega) (by simp only [W64]; omega), h1.rank (hg m 100 0) (by omega), ok_bind]
      unfold rank
      rw [Nat.sub_add_cancel (by omega), hpo, hk]) ha
  refine ⟨bm', e', fun g' i hg' hi => ?_⟩
  rw [ha'.rank hg' (by omega), hpr i (by omega)]

end

/-! ## poppy -/

/-- Bitmaps of less than 2048 bits, the first three sizes of the program: the constructor writes past an
empty array, whatever the operation. -/
theorem C107_poppy_short {n : Nat} (h1 : 256 ≤ n) (h2 : n ≤ 1984) (b : Build) (op : String)
    (threshold bitsSeed seed : Word) (g1 g2 : Nat → Nat) (g3 : Nat → Nat → Nat) :
    poppyRound b op n threshold bitsSeed seed g1 g2 g3 = ub .oob := by
  obtain ⟨k, v, e, hv, -⟩ := C34 ((n + 63) / 64) threshold bitsSeed (by omega) (by omega)
  have hlen : v.toList.length = (n + 63) / 64 := by rw [toList_length, hv]
  have eb : Poppy.wrapBuild g1 g2 g3 v.toList = ub .oob := C58_short g1 g2 g3 (by rw [hlen]; omega)
  unfold poppyRound
  rw [e, ok_bind]
  simp only
  rw [eb]
  rfl

section
variable {n : Nat} (h1 : 2048 ∣ n) (h0 : 0 < n) (h2 : n ≤ 2 ^ 32 - 8192) (b : Build)
  (threshold bitsSeed seed : Word) (g1 g2 : Nat → Nat) (g3 : Nat → Nat → Nat)
include h1 h0 h2

theorem poppy_setup : ∃ k v o, createRandomBits (Vec.ofList (List.replicate ((n + 63) / 64) 0#64)) threshold
      bitsSeed = ok (k, v) ∧ 64 * v.toList.length = n ∧ Poppy.wrapBuild g1 g2 g3 v.toList = ok o ∧
    poppyRound b "rank" n threshold bitsSeed seed g1 g2 g3 =
      forty (fun _ o => measurePoppy b "rank" ((List.range 10000).map (draw seed n)) o) o := by
  obtain ⟨k, v, e, hv, -⟩ := C34 ((n + 63) / 64) threshold bitsSeed (by omega) (by omega)
  have hlen : v.toList.length = (n + 63) / 64 := by rw [toList_length, hv]
  have hl : 64 * v.toList.length = n := by rw [hlen]; omega
  obtain ⟨o, eo⟩ := (C58_construct_iff (ws := v.toList) (n := v.toList.length * 64) g1 g2 g3 (by omega)
    (by omega)).2 ⟨by omega, samplesFit_small (by omega) (by omega) _⟩
  have ew := C61_adapter (g1 := g1) (g2 := g2) (g3 := g3) (ws := v.toList) (by omega) eo
  have e2 := drawBelow_ok h0 seed numQueries 0
  simp only [Nat.zero_add] at e2
  refine ⟨k, v, o, e, hl, eo, ?_⟩
  unfold poppyRound
  rw [e, ok_bind]
  simp only
  rw [show Poppy.wrapBuild g1 g2 g3 v.toList = ok o from eo, ok_bind, ew, ok_bind, if_neg (by decide), e2,
    ok_bind]
  rfl

theorem poppy_answered (h : 64 * (n / 64) = n) : Spec.Poppy.answered n = n := by
  unfold Spec.Poppy.answered
  rw [if_pos (by omega)]
  omega

/-- C107 (partial): `rank` through the adapter, if the last position is not among those drawn: a hundred
times the sum of the ranks, in the bit order of that library.  In full it would hold for all seeds;
`C107_poppy_rank_last` refutes that. -/
theorem C107_poppy_rank_partial (hq : ∀ j, j < 10000 → (smNth seed j).toNat % n ≠ n - 1) :
    ∃ k v o, createRandomBits (Vec.ofList (List.replicate ((n + 63) / 64) 0#64)) threshold bitsSeed =
        ok (k, v) ∧
      poppyRound b "rank" n threshold bitsSeed seed g1 g2 g3 =
        ok (List.replicate 40 (100 * ((List.range 10000).map fun j =>
          rank (Spec.Poppy.msbBits v.toList) ((smNth seed j).toNat % n)).sum % 2 ^ 64), o) := by
  obtain ⟨k, v, o, e, hl, eo, er⟩ := poppy_setup h1 h0 h2 b threshold bitsSeed seed g1 g2 g3
  have ha := poppy_answered h1 h0 h2 (by omega)
  have hm : measure (fun _ _ q => Poppy.wrapRank b o q) ((List.range 10000).map (draw seed n)) =
      ok (100 * (((List.range 10000).map (draw seed n)).map
        (rank (Spec.Poppy.msbBits v.toList))).sum % W64) := by
    refine measure_ok fun run i q hqs => ?_
    obtain ⟨j, hj, rfl⟩ := List.mem_map.1 hqs
    have h3 : draw seed n j < n := Nat.mod_lt _ h0
    have h4 : draw seed n j ≠ n - 1 := hq j (List.mem_range.1 hj)
    exact C58_adapter_partial (by omega) eo (by rw [hl, ha]; omega)
  rw [List.map_map] at hm
  obtain ⟨o', e', -⟩ := forty_ok (P := fun x => x = o)
    (f := fun _ o => measurePoppy b "rank" ((List.range 10000).map (draw seed n)) o) (fun m x hx => by
      subst hx
      refine ⟨x, ?_, rfl⟩
      unfold measurePoppy
      rw [if_pos rfl, hm, ok_bind]) rfl
  refine ⟨k, v, o', e, ?_⟩
  rw [er]
  exact e'

/-- C107 (negative): if the last position is drawn, `rank` reads past a table. -/
theorem C107_poppy_rank_last {j : Nat} (hj : j < 10000) (hq : (smNth seed j).toNat % n = n - 1) :
    poppyRound b "rank" n threshold bitsSeed seed g1 g2 g3 = ub .oob := by
  obtain ⟨k, v, o, e, hl, eo, er⟩ := poppy_setup h1 h0 h2 b threshold bitsSeed seed g1 g2 g3
  have ha := poppy_answered h1 h0 h2 (by omega)
  have hlast := C58_adapter_last (b := b) (by omega) eo
  rw [hl] at hlast
  rw [er]
  refine forty_ub ?_
  unfold measurePoppy
  rw [if_pos rfl]
  have hm : measure (fun _ _ q => Poppy.wrapRank b o q) ((List.range 10000).map (draw seed n)) = ub .oob := by
    refine measure_ub (fun i q hqs => ?_) ⟨draw seed n j, List.mem_map_of_mem (List.mem_range.2 hj), fun _ => ?_⟩
    · obtain ⟨j', -, rfl⟩ := List.mem_map.1 hqs
      have h3 : draw seed n j' < n := Nat.mod_lt _ h0
      rcases Classical.em (draw seed n j' = n - 1) with h4 | h4
      · rw [h4]; exact Or.inr hlast
      · exact Or.inl ⟨_, C58_adapter_partial (by omega) eo (by rw [hl, ha]; omega)⟩
    · rw [show draw seed n j = n - 1 from hq]; exact hlast
  rw [hm]
  rfl

end

/-- C107 (negative): the program as it is, with its seed 71, draws the last position for every size from
`2^11` to `2^15`; with `C107_poppy_short`, the first eight of its sizes are undefined behaviour for every
density. -/
theorem C107_poppy_rank_repository {e : Nat} (h1 : 11 ≤ e) (h2 : e ≤ 15) (b : Build)
    (threshold bitsSeed : Word) (g1 g2 : Nat → Nat) (g3 : Nat → Nat → Nat) :
    poppyRound b "rank" (2 ^ e) threshold bitsSeed 71#64 g1 g2 g3 = ub .oob := by
  have hd : 2048 ∣ 2 ^ e := Nat.pow_dvd_pow 2 h1
  have hle : 2 ^ e ≤ 2 ^ 15 := Nat.pow_le_pow_right (by decide) h2
  refine C107_poppy_rank_last hd (Nat.two_pow_pos e) (by omega) b threshold bitsSeed 71#64 g1 g2 g3
    (j := 2917) (by decide) ?_
  have hz : (smNth 71#64 2917).toNat % 32768 = 32767 := by
    rw [smNth_eq]
    decide +kernel
  have hs : 32768 = 2 ^ e * 2 ^ (15 - e) := by
    rw [← Nat.pow_add, show e + (15 - e) = 15 by omega]
  have h3 : (smNth 71#64 2917).toNat % 2 ^ e = 32767 % 2 ^ e := by
    rw [← hz, hs, Nat.mod_mul_right_mod]
  rw [h3]
  rcases (show e = 11 ∨ e = 12 ∨ e = 13 ∨ e = 14 ∨ e = 15 by omega) with rfl | rfl | rfl | rfl | rfl <;> rfl

/-! ## The option `-i` -/

/-- C107: without the option, or with an index of `sizes`, the report is the head, the times of the sizes
run, separated by commas, and the two closing brackets. -/
theorem C107_report {sizes : List Nat} (head : Option Nat → List Char) {i : Int}
    {run : Nat → Outcome (List Char)} {tt : Nat → List Char} (hr : ∀ n ∈ sizes, run n = ok (tt n))
    (h0 : sizes ≠ []) (hi : i = -1 ∨ 0 ≤ i ∧ i < sizes.length) :
    perfTest sizes head i run = ok (if i = -1 then
        head none ++ [','].intercalate (sizes.map tt) ++ [']', '}']
      else head (sizes[i.toNat]?) ++ tt (sizes.getD i.toNat 0) ++ [']', '}']) := by
  have inter : ∀ l : List (List Char), l ≠ [] → ∀ a : List Char,
      (a ++ l.flatMap (· ++ [','])).dropLast = a ++ [','].intercalate l := by
    intro l
    induction l with
    | nil => intro h; exact absurd rfl h
    | cons x l ih =>
      intro _ a
      cases l with
      | nil =>
        show (a ++ (x ++ [',']  ++ [])).dropLast = _
        rw [List.append_nil, ← List.append_assoc, List.dropLast_concat]
        simp [List.intercalate]
      | cons y l =>
        rw [List.flatMap_cons, ← List.append_assoc, ih (by simp)]
        simp [List.intercalate]
  have key : ∀ (l : List Nat) (hd : List Char), l ≠ [] →
      (if hd ++ l.flatMap (fun I => tt (sizes.getD I 0) ++ [',']) = [] then ub .oob
        else ok ((hd ++ l.flatMap fun I => tt (sizes.getD I 0) ++ [',']).dropLast ++ [']', '}']) : Outcome (List Char)) =
      ok (hd ++ [','].intercalate (l.map fun I => tt (sizes.getD I 0)) ++ [']', '}']) := by
    intro l hd hl
    have e : l.flatMap (fun I => tt (sizes.getD I 0) ++ [',']) =
        (l.map fun I => tt (sizes.getD I 0)).flatMap (· ++ [',']) := by
      rw [List.flatMap_map]
    rw [e, if_neg, inter _ (by simpa using hl)]
    intro h
    rw [List.append_eq_nil_iff] at h
    cases l with
    | nil => exact hl rfl
    | cons x l => simp at h
  unfold perfTest
  rcases hi with rfl | ⟨hi0, hi1⟩
  · rw [if_neg (by decide), ok_bind, testRuns_ok hr _ _ _ (by omega), ok_bind, if_pos rfl]
    have hf : (List.range' 0 sizes.length).filter (fun I : Nat => decide ((-1 : Int) = -1 ∨ (-1 : Int) = (I : Int))) =
        List.range' 0 sizes.length := List.filter_eq_self.2 fun _ _ => by simp
    rw [hf, key _ _ (by simpa using h0)]
    refine congrArg (fun l => ok (head none ++ [','].intercalate l ++ [']', '}'])) ?_
    apply List.ext_getElem?
    intro t
    rw [← List.range_eq_range', List.getElem?_map, List.getElem?_map]
    by_cases ht : t < sizes.length
    · rw [List.getElem?_range ht]
      simp [ht]
    · rw [List.getElem?_eq_none (by simp; omega), List.getElem?_eq_none (by omega)]
      rfl
  · obtain ⟨I, rfl⟩ : ∃ I : Nat, i = I := ⟨i.toNat, by omega⟩
    have hI : I < sizes.length := by omega
    rw [if_pos (by omega), sizeAt_ok hI, ok_bind, ok_bind, testRuns_ok hr _ _ _ (by omega), ok_bind,
      if_neg (show ¬ ((I : Int) = -1) by omega)]
    have hf : (List.range' 0 sizes.length).filter (fun J : Nat => decide ((I : Int) = -1 ∨ (I : Int) = (J : Int))) = [I] := by
      have e : (fun J : Nat => decide ((I : Int) = -1 ∨ (I : Int) = (J : Int))) = fun J => J == I := by
        funext J
        rw [Bool.eq_iff_iff]
        simp only [decide_eq_true_eq, beq_iff_eq]
        omega
      rw [e, List.filter_beq, ← List.range_eq_range', List.count_range, if_pos hI]
      rfl
    rw [hf, key _ _ (by simp)]
    rw [Int.toNat_natCast, List.getElem?_eq_getElem hI, List.getD_eq_getElem?_getD]
    simp [List.intercalate, hI]

/-- C107 (negative): any other value of the option reads past `sizes`. -/
theorem C107_option_oob {sizes : List Nat} (head : Option Nat → List Char) {i : Int}
    (run : Nat → Outcome (List Char)) (h1 : i ≠ -1) (h2 : i < 0 ∨ sizes.length ≤ i) :
    perfTest sizes head i run = ub .oob := by
  unfold perfTest sizeAt
  rw [if_pos h1, if_neg (by omega)]
  rfl

/-- C107 (negative): the help texts name values that read past the array: all of perf_prefix_sum's
`24..72`, the last of perf_immutable_bitmap's `0..25`, the last two of perf_compressed_bitmap's `0..25`;
that of perf_mutable_bitmap, `0..23`, is right. -/
theorem C107_help (head : Option Nat → List Char) (run : Nat → Outcome (List Char)) :
    (∀ i : Int, 24 ≤ i → i ≤ 72 → perfTest sizes17 head i run = ub .oob) ∧
    perfTest sizes25 head 25 run = ub .oob ∧
    perfTest sizes24 head 24 run = ub .oob ∧ perfTest sizes24 head 25 run = ub .oob ∧
    ∀ i : Nat, i ≤ 23 → sizeAt sizes24 i = ok (2 ^ (9 + i)) := by
  refine ⟨fun i h1 h2 => C107_option_oob head run (by omega) (Or.inr ?_),
    C107_option_oob head run (by decide) (Or.inr (by decide)),
    C107_option_oob head run (by decide) (Or.inr (by decide)),
    C107_option_oob head run (by decide) (Or.inr (by decide)), fun i hi => ?_⟩
  · have : sizes17.length = 17 := rfl
    omega
  · rw [sizeAt_ok (by show i < 24; omega)]
    refine congrArg ok ?_
    unfold sizes24
    rw [List.getD_eq_getElem?_getD, List.getElem?_map, List.getElem?_range (by omega)]
    rfl

/-! ## Examples -/

/-- 256 bits at density 0.3, all three operations, with the seeds of the program. -/
example {g : Nat → Nat → Nat → Scratch} (hg : ∀ m run i, (g m run i).sums 0 = 0) :
    ∃ k, 0 < k ∧ ∃ s1 s2 bm1 bm2 bm3,
      bitmapRound exCfg "rank" 16 256 5534023222112865280#64 13#64 71#64 g = ok (List.replicate 40 s1, bm1) ∧
      bitmapRound exCfg "select" 16 256 5534023222112865280#64 13#64 71#64 g = ok (List.replicate 40 s2, bm2) ∧
      bitmapRound exCfg "flip" 16 256 5534023222112865280#64 13#64 71#64 g = ok (List.replicate 40 k, bm3) := by
  obtain ⟨k, v, e, -⟩ := C34 4 5534023222112865280#64 13#64 (by decide) (by decide)
  have hv : exCfg.Valid 16 ((256 + 63) / 64) := ⟨by decide, by decide, by decide, by decide, by decide⟩
  have hd : exCfg.DebugOK (pad (bitsOf v.toList) exCfg.blk.width.bits) :=
    Config.DebugOK.of_fam (fun hx => absurd hx.2 (by decide)) _
  obtain ⟨-, -, -, -, h0, -⟩ := bench_setup hv (by decide) e hd
  obtain ⟨bm1, e1⟩ := C107_rank hv (by decide) e hd hg 71#64
  obtain ⟨-, p, -, bm2, e2⟩ := C107_select hv (by decide) e hd hg 71#64
    (fun h1 h2 => absurd h2 (by decide))
  obtain ⟨bm3, e3, -⟩ := C107_flip hv (by decide) e hd hg 71#64
  exact ⟨k, h0, _, _, bm1, bm2, bm3, e1, e2, e3⟩

/-- The second of three sizes, and all of them. -/
example : perfTest [2, 3, 4] (fun n => [if n = none then '*' else 'n', '[']) 1
        (fun n => ok [Char.ofNat (n + 48)]) = ok ['n', '[', '3', ']', '}'] ∧
    perfTest [2, 3, 4] (fun n => [if n = none then '*' else 'n', '[']) (-1)
        (fun n => ok [Char.ofNat (n + 48)]) = ok ['*', '[', '2', ',', '3', ',', '4', ']', '}'] ∧
    perfTest [2, 3, 4] (fun n => [if n = none then '*' else 'n', '[']) 3
        (fun n => ok [Char.ofNat (n + 48)]) = ub .oob :=
  ⟨by decide +kernel, by decide +kernel, C107_option_oob _ _ (by decide) (Or.inr (by decide))⟩

/-- The second size of the program. -/
example : poppyRound ⟨true, true, true, true⟩ "rank" 512 1#64 13#64 71#64 (fun _ => 0) (fun _ => 0)
    (fun _ _ => 0) = ub .oob := C107_poppy_short (by decide) (by decide) _ _ _ _ _ _ _ _

set_option maxRecDepth 100000 in
/-- With `2^16` bits the program's seed does not draw the last position. -/
example (b : Build) (g1 g2 : Nat → Nat) (g3 : Nat → Nat → Nat) : ∃ s o,
    poppyRound b "rank" 65536 5534023222112865280#64 13#64 71#64 g1 g2 g3 =
      ok (List.replicate 40 s, o) := by
  have hall : (List.range 10000).all (fun j => (sm 71#64 j).toNat % 65536 != 65535) = true := by
    decide +kernel
  obtain ⟨k, v, o, -, e⟩ := C107_poppy_rank_partial (n := 65536) (by decide) (by decide) (by decide) b
    5534023222112865280#64 13#64 71#64 g1 g2 g3 (fun j hj => by
      have h := List.all_eq_true.1 hall j (List.mem_range.2 hj)
      rw [smNth_eq]
      exact bne_iff_ne.1 h)
  exact ⟨_, o, e⟩

end MRS.Props
