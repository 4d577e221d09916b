import Verif.Proofs.Tests
import Verif.Props.Bitmap
import Verif.Props.Util

/-!
# C103: the repository's own test of `mutable_bitmap`

test/test_mutable_bitmap.hpp checks `rank` and `select` against values it counts itself.  The check
accepts exactly the right answers; the test as a whole passes exactly if the random flips do not
lower the number of ones, because the number of `select` queries is taken before the flips.
-/

set_option autoImplicit false

namespace MRS.Props
open MRS Outcome Spec

/-- C103: the loop over all positions accepts an implementation of `rank` exactly if all its answers
are right. -/
theorem C103_rank_check {bits : Vec Word} {B : List Bool} (hl : B.length = 64 * bits.len)
    (hr : ∀ i, i < B.length → B[i]? = some ((bits.f (i / 64)).getLsbD (i % 64)))
    (h0 : 0 < bits.len) (hN : 64 * bits.len < 2 ^ 64) {n : Nat} (hn : n ≤ B.length)
    (rank : Nat → Outcome Nat) :
    Test.rankPhase bits n rank = ok () ↔ ∀ i, i < n → rank i = ok (Spec.rank B i) :=
  Test.rankPhase_iff hl ⟨hr⟩ h0 hN hn rank

/-- C103: the loop over the ones accepts an implementation of `select` exactly if all its answers are
right, as long as it asks for ones that exist. -/
theorem C103_select_check {bits : Vec Word} {B : List Bool} (hl : B.length = 64 * bits.len)
    (hr : ∀ i, i < B.length → B[i]? = some ((bits.f (i / 64)).getLsbD (i % 64)))
    (h0 : 0 < bits.len) (hN : 64 * bits.len < 2 ^ 64) {n : Nat} (hn : n ≤ ones B B.length)
    (select : Nat → Outcome Nat) :
    Test.selectPhase bits n select = ok () ↔ ∀ k, k < n → ∃ p, select k = ok p ∧ IsSelect B k p :=
  Test.selectPhase_iff hl ⟨hr⟩ h0 hN hn select

/-- C103: asked for two more ones than there are, the loop never passes, whatever `select` answers:
it runs off the end of the words. -/
theorem C103_select_check_over {bits : Vec Word} {B : List Bool} (hl : B.length = 64 * bits.len)
    (hr : ∀ i, i < B.length → B[i]? = some ((bits.f (i / 64)).getLsbD (i % 64)))
    (h0 : 0 < bits.len) (hN : 64 * bits.len < 2 ^ 63) {n : Nat} (hn : ones B B.length + 2 ≤ n)
    (select : Nat → Outcome Nat) : Test.selectPhase bits n select ≠ ok () :=
  Test.selectPhase_over hl ⟨hr⟩ h0 (by simp only [W64]; omega) hn select

theorem flips_parity (is : List Nat) : ∀ {B : List Bool}, (∀ i ∈ is, i < B.length) →
    (flips B is).count true % 2 = (B.count true + is.length) % 2 := by
  induction is with
  | nil => intro B _; rfl
  | cons i is ih =>
    intro B h
    have h1 := ih (B := Spec.flip B i)
      (fun j hj => by rw [flip_length]; exact h j (List.mem_cons_of_mem _ hj))
    show (flips (Spec.flip B i) is).count true % 2 = _
    have hi := h i List.mem_cons_self
    have h2 := flip_ones hi
    rw [h1, List.length_cons]
    by_cases hb : B[i] = true
    · rw [hb] at h2; simp only [if_true] at h2; omega
    · rw [if_neg hb, if_neg hb] at h2; omega

theorem ones_all (B : List Bool) : ones B B.length = B.count true := by
  unfold Spec.ones; rw [List.take_length]

/-- C103 (partial): the test of a configuration passes, in every build and whatever the scratch memory
holds, exactly if the bitmap has at least as many ones after the 5000 flips as before.  In full it
would pass for all seeds; `C103_test_false` refutes that. -/
theorem C103_test_partial {c : Config} {addr numBits : Nat} {threshold seed1 seed2 : Word}
    {g : Nat → Nat → Scratch} (h : c.Valid addr ((numBits + 63) / 64)) (h1 : 256 ≤ numBits)
    (h2 : numBits ≤ 2 ^ 30) (hg : ∀ a i, (g a i).sums 0 = 0) :
    ∃ k v, createRandomBits (Vec.ofList (List.replicate ((numBits + 63) / 64) 0#64)) threshold seed1 =
        ok (k, v) ∧ ∀ B, B = pad (bitsOf v.toList) c.blk.width.bits →
      k = ones B B.length ∧
      (c.DebugOK B → ∀ B', B' = flips B ((List.range 5000).map fun i => (smNth seed2 i).toNat % B.length) →
        (Test.testBitmap c addr numBits threshold seed1 seed2 g = ok () ↔
          ones B B.length ≤ ones B' B'.length)) := by
  obtain ⟨k, v, e, hv, hk, _⟩ := C34 ((numBits + 63) / 64) threshold seed1 (by omega) (by omega)
  refine ⟨k, v, e, ?_⟩
  rintro B rfl
  have hlen : v.toList.length = (numBits + 63) / 64 := by rw [toList_length, hv]
  have hbl : (bitsOf v.toList).length = 64 * ((numBits + 63) / 64) := by rw [bitsOf_length, hlen]
  generalize hB : pad (bitsOf v.toList) c.blk.width.bits = B
  have hB0 : (bitsOf v.toList).length ≤ B.length := by
    rw [← hB]; unfold pad; rw [List.length_append]; omega
  have hB1 : B.length < 2 ^ 31 := by
    rw [← hB]; unfold pad; rw [List.length_append, List.length_replicate, hbl]
    have hw : c.blk.width.bits ≤ 512 := by cases c.blk.width <;> decide
    have := Nat.mod_lt (c.blk.width.bits - 64 * ((numBits + 63) / 64) % c.blk.width.bits)
      (Width.bits_pos c.blk.width)
    omega
  have hkB : k = ones B B.length := by
    rw [hk, ← hbl, ones_all, ones_all, ← hB]
    unfold pad
    rw [List.count_append, List.count_replicate]
    simp
  refine ⟨hkB, fun hd B' hB' => ?_⟩
  have hvl : c.Valid addr v.toList.length := by rw [hlen]; exact h
  obtain ⟨bm, eb, ha⟩ := (Alive.start c).step (o := .build addr v.toList)
    ⟨hvl, by rw [rebuilt_nil, hB]; exact hd⟩
  replace eb : bmBuild c addr (Vec.ofList v.toList) v.toList.length Bitmap.empty = ok bm := eb
  have ha : Alive c bm B := by
    have : Op.apply c.blk.width.bits [] (.build addr v.toList) = B := by
      rw [← hB, ← rebuilt_nil]; rfl
    rw [this] at ha; exact ha
  obtain ⟨bm', ef, ha'⟩ := Test.flipPhase_ok ha (by omega) seed2
  have hB'' : B' = flips B (Test.flipsAt seed2 B.length) := hB'
  rw [← hB''] at ha'
  have hl' : B'.length = B.length := by rw [hB'', Test.flips_len]
  have safe : ∀ t, t ≤ B.length → c.SelectSafe t := fun t ht _ _ _ => Or.inr (by omega)
  have hN : ∀ (b : Bitmap), B.length = 64 * b.bits.len → 64 * b.bits.len + 1 < W64 := by
    intro b hb; simp only [W64]; omega
  have p1 : Test.rankPhase bm.bits numBits (fun i => bmRank c (g 0 i) bm i) = ok () :=
    (Test.rankPhase_iff ha.len ha.rep (by have := ha.len; omega)
      (by have := hN bm ha.len; omega) (by omega) _).2 fun i hi => ha.rank (hg 0 i) (by omega)
  have p2 : Test.selectPhase bm.bits k (fun i => bmSelect c (g 1 i) bm i) = ok () :=
    (Test.selectPhase_iff ha.len ha.rep (by have := ha.len; omega)
      (by have := hN bm ha.len; omega) (by omega) _).2 fun i hi =>
        ha.select (hg 1 i) (safe _ (Test.ones_len B B.length)) (by omega)
  have p3 : Test.rankPhase bm'.bits numBits (fun i => bmRank c (g 2 i) bm' i) = ok () :=
    (Test.rankPhase_iff ha'.len ha'.rep (by have := ha'.len; omega)
      (by have := hN bm' (by rw [← hl']; exact ha'.len); omega) (by omega) _).2
        fun i hi => ha'.rank (hg 2 i) (by omega)
  have e0 : Test.testBitmap c addr numBits threshold seed1 seed2 g =
      Test.selectPhase bm'.bits k (fun i => bmSelect c (g 3 i) bm' i) := by
    unfold Test.testBitmap
    rw [massert_ok (decide_eq_true h1), ok_bind, e, ok_bind]
    simp only
    rw [eb, ok_bind, p1, ok_bind, p2, ok_bind, ef, ok_bind, p3, ok_bind]
  rw [e0]
  constructor
  · intro hok
    by_cases hle : ones B B.length ≤ ones B' B'.length
    · exact hle
    · exfalso
      have hpar := flips_parity (Test.flipsAt seed2 B.length) (B := B) (by
        intro i hi
        unfold Test.flipsAt at hi
        obtain ⟨j, _, rfl⟩ := List.mem_map.1 hi
        exact Nat.mod_lt _ (by omega))
      have hfl : (Test.flipsAt seed2 B.length).length = 5000 := by
        unfold Test.flipsAt; rw [List.length_map, List.length_range]; rfl
      rw [← hB'', hfl, ← ones_all, ← ones_all] at hpar
      exact Test.selectPhase_over ha'.len ha'.rep (by have := ha'.len; omega)
        (hN bm' (by rw [← hl']; exact ha'.len)) (n := k) (by omega) _ hok
  · intro hle
    exact (Test.selectPhase_iff ha'.len ha'.rep (by have := ha'.len; omega)
      (by have := hN bm' (by rw [← hl']; exact ha'.len); omega) (by omega) _).2 fun i hi =>
        ha'.select (hg 3 i) (safe _ (by rw [← hl']; exact Test.ones_len B' B'.length)) (by omega)

/-! ## A run that fails -/

/-- The bits of `x`. -/
def bitList (N x : Nat) : List Bool := (List.range N).map x.testBit

theorem flip_bitList {N x i : Nat} (hi : i < N) : Spec.flip (bitList N x) i = bitList N (x ^^^ 2 ^ i) := by
  apply List.ext_getElem?
  intro t
  unfold Spec.flip bitList
  rw [List.getElem?_modify, List.getElem?_map, List.getElem?_map]
  by_cases ht : t < N
  · rw [List.getElem?_range ht]
    simp only [Option.map_some, Nat.testBit_xor, Nat.testBit_two_pow]
    by_cases e : i = t
    · subst e; simp
    · simp [e]
  · rw [List.getElem?_eq_none (by rw [List.length_range]; omega)]
    by_cases e : i = t <;> simp

theorem flips_bitList {N : Nat} (is : List Nat) : ∀ {x : Nat}, (∀ i ∈ is, i < N) →
    flips (bitList N x) is = bitList N (is.foldl (fun x i => x ^^^ 2 ^ i) x) := by
  induction is with
  | nil => intro x _; rfl
  | cons i is ih =>
    intro x h
    show flips (Spec.flip (bitList N x) i) is = _
    rw [flip_bitList (h i List.mem_cons_self), ih fun j hj => h j (List.mem_cons_of_mem _ hj)]
    rfl

/-- Word `i` of the generator, in closed form. -/
def sm (seed : Word) (i : Nat) : Word :=
  smMix (seed + BitVec.ofNat 64 (i + 1) * 0x9E3779B97F4A7C15#64)

def badStart : Nat :=
  39535060444092546210654078576220808556905327397363000721632067145573474692201

set_option maxRecDepth 100000 in
theorem badStart_bits : bitList 256 badStart =
    (List.range 256).map fun i => decide (sm 7634#64 i < 5534023222112865280#64) := by decide +kernel

set_option maxRecDepth 100000 in
theorem badStart_ones : (bitList 256 badStart).count true = 104 := by decide +kernel

set_option maxRecDepth 100000 in
theorem bad_after : (bitList 256 (((List.range 5000).map fun i => (sm 1205#64 i).toNat % 256).foldl
    (fun x i => x ^^^ 2 ^ i) badStart)).count true = 100 := by decide +kernel

theorem bitList_length (N x : Nat) : (bitList N x).length = N := by simp [bitList]

theorem bad_drop {B B' : List Bool} (hB : B = bitList 256 badStart)
    (hB' : B' = flips B ((List.range 5000).map fun i => (smNth 1205#64 i).toNat % B.length)) :
    ¬ ones B B.length ≤ ones B' B'.length := by
  have hl : B.length = 256 := by rw [hB, bitList_length]
  have e1 : (List.range 5000).map (fun i => (smNth 1205#64 i).toNat % 256) =
      (List.range 5000).map fun i => (sm 1205#64 i).toNat % 256 :=
    List.map_congr_left fun i _ => by rw [smNth_eq]; rfl
  have hlt : ∀ i ∈ (List.range 5000).map fun i => (sm 1205#64 i).toNat % 256, i < 256 := by
    intro i hi
    obtain ⟨j, _, rfl⟩ := List.mem_map.1 hi
    exact Nat.mod_lt _ (by decide)
  rw [hl, e1, hB, flips_bitList _ hlt] at hB'
  rw [ones_all, ones_all, hB', bad_after, hB, badStart_ones]
  decide

/-- What `create_random_bits` draws from seed 7634. -/
theorem badStart_drawn {k : Nat} {v : Vec Word}
    (e : createRandomBits (Vec.ofList (List.replicate 4 0#64)) 5534023222112865280#64 7634#64 = ok (k, v)) :
    bitsOf v.toList = bitList 256 badStart := by
  obtain ⟨k', v', e', hv, _, ⟨i0, hi0, hb0⟩, hb⟩ := C34 4 5534023222112865280#64 7634#64 (by decide)
    (by decide)
  rw [e] at e'
  obtain rfl : v = v' := congrArg Prod.snd (Outcome.ok.inj e')
  have hlen : (bitsOf v.toList).length = 256 := by rw [bitsOf_length, toList_length, hv]
  have hdrawn : ∃ t, t < 256 ∧ smNth 7634#64 t < 5534023222112865280#64 :=
    ⟨0, by decide, by decide +kernel⟩
  rw [badStart_bits]
  apply List.ext_getElem?
  intro i
  rw [List.getElem?_map]
  by_cases hi : i < 256
  · rw [List.getElem?_range hi]
    have hbi := hb i hi
    have hx : (bitsOf v.toList)[i]? = some ((bitsOf v.toList)[i]'(by omega)) :=
      List.getElem?_eq_getElem (by omega)
    rw [hx] at hbi ⊢
    show some _ = some (decide (sm 7634#64 i < _))
    rw [show sm 7634#64 i = smNth 7634#64 i from (smNth_eq _ _).symm]
    have hbi' : (bitsOf v.toList)[i]'(by omega) = true ↔ smNth 7634#64 i < 5534023222112865280#64 := by
      constructor
      · intro ht
        rcases hbi.1 (by rw [ht]) with h | ⟨_, h⟩
        · exact h
        · obtain ⟨t, h256, hd⟩ := hdrawn
          exact absurd hd (h t h256)
      · intro ht
        exact Option.some.inj (hbi.2 (Or.inl ht))
    refine congrArg some ?_
    by_cases hd : smNth 7634#64 i < 5534023222112865280#64
    · rw [decide_eq_true hd]; exact hbi'.2 hd
    · rw [decide_eq_false hd]
      cases hq : (bitsOf v.toList)[i]'(by omega) with
      | false => rfl
      | true => exact absurd (hbi'.1 hq) hd
  · rw [List.getElem?_eq_none (by omega), List.getElem?_eq_none (by rw [List.length_range]; omega)]
    rfl

theorem pad_bitList {w : Width} (hw : w ≠ .w512) (x : Nat) :
    pad (bitList 256 x) w.bits = bitList 256 x := by
  unfold pad
  rw [bitList_length]
  cases w with
  | w64 => exact List.append_nil _
  | w256 => exact List.append_nil _
  | w512 => exact absurd rfl hw

/-- The test with 256 bits at density 0.3 and seed 7634. -/
theorem test_7634 {c : Config} {addr : Nat} {g : Nat → Nat → Scratch} (h : c.Valid addr 4)
    (hw : c.blk.width ≠ .w512) (hg : ∀ a i, (g a i).sums 0 = 0) (seed2 : Word) {B' : List Bool}
    (hB' : B' = flips (bitList 256 badStart) ((List.range 5000).map fun i =>
      (smNth seed2 i).toNat % (bitList 256 badStart).length)) :
    Test.testBitmap c addr 256 5534023222112865280#64 7634#64 seed2 g = ok () ↔
      ones (bitList 256 badStart) (bitList 256 badStart).length ≤ ones B' B'.length := by
  obtain ⟨k, v, e, hall⟩ := C103_test_partial (c := c) (addr := addr) (numBits := 256)
    (threshold := 5534023222112865280#64) (seed1 := 7634#64) (seed2 := seed2) (g := g) h
    (by decide) (by decide) hg
  rw [show (256 + 63) / 64 = 4 by decide] at e
  have hbits := badStart_drawn e
  obtain ⟨_, hiff⟩ := hall (bitList 256 badStart) (by rw [hbits, pad_bitList hw])
  exact hiff (Config.DebugOK.of_fam (fun hx => hw hx.2) _) _ hB'

/-- C103 (negative): with the seeds 7634 and 1205 the test of 256 bits at the density of the
repository, 0.3, does not pass for any tree and any block of at most 256 bits, although every answer
the bitmap gives is right. -/
theorem C103_test_false {c : Config} {addr : Nat} {g : Nat → Nat → Scratch} (h : c.Valid addr 4)
    (hw : c.blk.width ≠ .w512) (hg : ∀ a i, (g a i).sums 0 = 0) :
    Test.testBitmap c addr 256 5534023222112865280#64 7634#64 1205#64 g ≠ ok () := by
  rw [Ne, test_7634 h hw hg 1205#64 rfl]
  exact bad_drop rfl rfl

set_option maxRecDepth 100000 in
/-- The same test passes with the second seed 0, which leaves 114 ones. -/
example {g : Nat → Nat → Scratch} (hg : ∀ a i, (g a i).sums 0 = 0) :
    Test.testBitmap exCfg 16 256 5534023222112865280#64 7634#64 0#64 g = ok () := by
  have e1 : (List.range 5000).map (fun i => (smNth 0#64 i).toNat % 256) =
      (List.range 5000).map fun i => (sm 0#64 i).toNat % 256 :=
    List.map_congr_left fun i _ => by rw [smNth_eq]; rfl
  have hlt : ∀ i ∈ (List.range 5000).map fun i => (sm 0#64 i).toNat % 256, i < 256 := by
    intro i hi
    obtain ⟨j, _, rfl⟩ := List.mem_map.1 hi
    exact Nat.mod_lt _ (by decide)
  refine (test_7634 ⟨by decide, by decide, by decide, by decide, by decide⟩ (by decide) hg 0#64 rfl).2 ?_
  rw [bitList_length, e1, flips_bitList _ hlt, bitList_length]
  decide +kernel

/-- The hypotheses of the checks: two words, seven ones. -/
example : (bitsOf [0xF1#64, 0x8000000000000001#64]).length = 64 * 2 ∧
    ones (bitsOf [0xF1#64, 0x8000000000000001#64]) 128 = 7 ∧
    Test.rankPhase (Vec.ofList [0xF1#64, 0x8000000000000001#64]) 128
      (fun i => ok (Spec.rank (bitsOf [0xF1#64, 0x8000000000000001#64]) i)) = ok () :=
  ⟨by decide +kernel, by decide +kernel,
    (C103_rank_check (B := bitsOf [0xF1#64, 0x8000000000000001#64]) (by decide +kernel)
      (by decide +kernel) (by decide) (by decide) (by decide +kernel) _).2 fun _ _ => rfl⟩

/-- A wrong answer is found. -/
example : Test.rankPhase (Vec.ofList [0xF1#64, 0x8000000000000001#64]) 128
    (fun i => ok (i / 2)) ≠ ok () := by
  rw [Ne, C103_rank_check (B := bitsOf [0xF1#64, 0x8000000000000001#64]) (by decide +kernel)
    (by decide +kernel) (by decide) (by decide) (by decide +kernel)]
  intro h
  exact absurd (h 0 (by decide)) (by
    rw [show Spec.rank (bitsOf [0xF1#64, 0x8000000000000001#64]) 0 = 1 by decide +kernel]
    intro h; cases h)

end MRS.Props
