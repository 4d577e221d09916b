import Verif.Model.Block
import Verif.Proofs.WordLane

/-! # rank in a block: every mode -/

set_option autoImplicit false

namespace MRS
open Outcome Spec

/-- Bit `t` of a sequence of words. -/
def fbit (ws : Nat → Word) (t : Nat) : Bool := (ws (t / 64)).getLsbD (t % 64)

/-- Ones among the first `t` bits of a sequence of words. -/
def fcnt (ws : Nat → Word) (t : Nat) : Nat := psum (fun j => if fbit ws j then 1 else 0) t

/-- Ones of word `j`. -/
def wones (ws : Nat → Word) (j : Nat) : Nat := wcnt (ws j) 64

theorem fcnt_split (ws : Nat → Word) (q o : Nat) (ho : o ≤ 64) :
    fcnt ws (64 * q + o) = fcnt ws (64 * q) + wcnt (ws q) o := by
  induction o with
  | zero => rfl
  | succ o ih =>
    show fcnt ws (64 * q + o) + (if fbit ws (64 * q + o) then 1 else 0) = _
    rw [ih (by omega), wcnt_succ]
    unfold fbit
    rw [show (64 * q + o) / 64 = q by omega, show (64 * q + o) % 64 = o by omega, Nat.add_assoc]

theorem fcnt_words (ws : Nat → Word) (q : Nat) : fcnt ws (64 * q) = psum (wones ws) q := by
  induction q with
  | zero => rfl
  | succ q ih =>
    rw [show 64 * (q + 1) = 64 * q + 64 by omega, fcnt_split ws q 64 (Nat.le_refl _), ih]
    rfl

theorem fcnt_mono (ws : Nat → Word) {a c : Nat} (h : a ≤ c) : fcnt ws a ≤ fcnt ws c := psum_mono _ h

theorem wones_le (ws : Nat → Word) (j : Nat) : wones ws j ≤ 64 := ncnt_le _ _

theorem fcnt_le (ws : Nat → Word) (t : Nat) : fcnt ws t ≤ t := by
  induction t with
  | zero => exact Nat.le_refl _
  | succ t ih =>
    show fcnt ws t + (if fbit ws t then 1 else 0) ≤ _
    split <;> omega

theorem fcnt_idx (ws : Nat → Word) (i : Nat) :
    fcnt ws (i + 1) = psum (wones ws) (i / 64) + wcnt (ws (i / 64)) (i % 64 + 1) := by
  have := fcnt_split ws (i / 64) (i % 64 + 1) (by omega)
  rw [show 64 * (i / 64) + (i % 64 + 1) = i + 1 by omega] at this
  rw [this, fcnt_words]

/-- `x` points at `W` readable words with values `ws`. -/
def PtrOK (x : Ptr) (W : Nat) (ws : Nat → Word) : Prop := ∀ j, j < W → x.at j = ok (ws j)

theorem wcnt_mask (w m : Word) {o : Nat} (ho : o ≤ 64)
    (hm : ∀ j, j < 64 → m.getLsbD j = decide (j < o)) : wcnt (w &&& m) 64 = wcnt w o := by
  have key : ∀ n, n ≤ 64 → wcnt (w &&& m) n = wcnt w (min n o) := by
    intro n
    induction n with
    | zero => intro _; rw [Nat.zero_min]; rfl
    | succ n ih =>
      intro hn
      rw [wcnt_succ, ih (by omega), BitVec.getLsbD_and, hm n (by omega)]
      by_cases h : n < o
      · rw [decide_eq_true h, Bool.and_true, Nat.min_eq_left (by omega), Nat.min_eq_left (by omega),
          wcnt_succ]
      · rw [decide_eq_false h, Bool.and_false, Nat.min_eq_right (by omega), Nat.min_eq_right (by omega)]
        rfl
  rw [key 64 (Nat.le_refl _), Nat.min_eq_right ho]

theorem ones_bit {o j : Nat} (ho : o < 64) :
    (1#64 * (1#64 <<< o) - 1#64).getLsbD j = decide (j < o) := by
  have e : (1#64 * (1#64 <<< o) - 1#64).toNat = 2 ^ o - 1 := by
    have hlt : (2 : Nat) ^ o < 2 ^ 64 := Nat.pow_lt_pow_right (by omega) ho
    have hpos : 0 < (2 : Nat) ^ o := Nat.pow_pos (by omega)
    rw [BitVec.one_mul, BitVec.toNat_sub, BitVec.toNat_shiftLeft, Nat.shiftLeft_eq]
    show (2 ^ 64 - 1 + 1 * 2 ^ o % 2 ^ 64) % 2 ^ 64 = _
    rw [Nat.one_mul, Nat.mod_eq_of_lt hlt]
    generalize (2 : Nat) ^ o = y at *
    omega
  rw [← BitVec.testBit_toNat, e, Nat.testBit_two_pow_sub_one]

theorem allOnes_bit : ∀ j, j < 64 → (0#64 * (1#64 <<< 0) - 1#64).getLsbD j = decide (j < 64) := by
  intro j hj
  have : ∀ j : Fin 64, (0#64 * (1#64 <<< 0) - 1#64).getLsbD j.1 = true := by decide
  rw [this ⟨j, hj⟩, decide_eq_true hj]

theorem rankMask_ok {o : Nat} (ho : o < 64) : ∃ m, rankMask o = ok m ∧
    ∀ j, j < 64 → m.getLsbD j = decide (j < if o = 0 then 64 else o) := by
  unfold rankMask
  rw [shl64_ok ho, ok_bind]
  refine ⟨_, rfl, ?_⟩
  intro j hj
  by_cases h : o = 0
  · subst h
    exact allOnes_bit j hj
  · rw [if_pos h, if_neg h, ones_bit ho]

theorem rankInBlock_ok (b : Build) {pcm : Nat} (hp : pcm ≤ 1) {x : Ptr} {W : Nat} {ws : Nat → Word}
    (hx : PtrOK x W ws) {i : Nat} (hi : i < 64 * W) :
    rankInBlock b pcm x i = ok (wcnt (ws (i / 64)) (i % 64 + 1)) := by
  unfold rankInBlock
  obtain ⟨m, hm, hbits⟩ := rankMask_ok (o := (i + 1) % 64) (by omega)
  rw [hm, ok_bind, hx (i / 64) (by omega), ok_bind, popcountU64_ok b hp, wcnt_mask _ _ _ hbits]
  · by_cases h : (i + 1) % 64 = 0
    · rw [if_pos h, show i % 64 + 1 = 64 by omega]
    · rw [if_neg h, show i % 64 + 1 = (i + 1) % 64 by omega]
  · by_cases h : (i + 1) % 64 = 0
    · rw [if_pos h]; omega
    · rw [if_neg h]; omega

/-- What the prefix sums of the words are bounded by. -/
theorem psum_wones_lt (ws : Nat → Word) {n W : Nat} (hn : n ≤ W) (hW : W ≤ 8) :
    psum (wones ws) n ≤ 512 := by
  have h := fcnt_le ws (64 * n)
  rw [fcnt_words] at h
  omega

theorem sumLoop_ok {C : Nat → Outcome Nat} {ws : Nat → Word} {W : Nat} (hW : W ≤ 8)
    (hC : ∀ j, j < W → C j = ok (wones ws j)) {n : Nat} (hn : n ≤ W) :
    sumLoop n C = ok (psum (wones ws) n) := by
  unfold sumLoop
  obtain ⟨s, e, hs⟩ := forN_inv (body := fun j s => do
    let c ← C j
    ok (add64 s c)) (fun k s => s = psum (wones ws) k) n 0 rfl (by
      intro i s hi hs
      have h1 := psum_wones_lt ws (show i + 1 ≤ W by omega) hW
      refine ⟨psum (wones ws) (i + 1), ?_, rfl⟩
      rw [hC i (by omega), ok_bind, hs, add64_eq]
      · rfl
      · show psum (wones ws) (i + 1) < W64
        exact Nat.lt_of_le_of_lt h1 (by decide))
  rw [e, hs]

theorem unrolled_ok {C : Nat → Outcome Nat} {ws : Nat → Word} {W : Nat} (hW0 : 0 < W) (hW : W ≤ 8)
    (g : Nat → Nat) (hC : ∀ j, j < W → C j = ok (wones ws j)) :
    ∃ v, unrolled W g C = ok v ∧ ∀ j, j < W → v.get j = ok (psum (wones ws) j) := by
  unfold unrolled
  rw [Vec.set_ok _ (by exact hW0), ok_bind]
  obtain ⟨v, e, hv⟩ := forN_inv (body := fun j (counts : Vec Nat) => do
    let prev ← counts.get j
    let c ← C j
    counts.set (j + 1) (add64 prev c))
    (fun k (v : Vec Nat) => v.len = W ∧ ∀ j, j ≤ k → v.f j = psum (wones ws) j) (W - 1)
    ⟨W, fun j => if j = 0 then 0 else g j⟩
    ⟨rfl, by intro j hj; rw [show j = 0 by omega]; rfl⟩ (by
      intro i s hi hs
      have h1 := psum_wones_lt ws (show i + 1 ≤ W by omega) hW
      refine ⟨⟨s.len, fun j => if j = i + 1 then psum (wones ws) (i + 1) else s.f j⟩, ?_, hs.1, ?_⟩
      · rw [Vec.get_ok (by rw [hs.1]; omega), ok_bind, hC i (by omega), ok_bind,
          Vec.set_ok _ (by rw [hs.1]; omega), hs.2 i (Nat.le_refl _), add64_eq]
        · rfl
        · show psum (wones ws) (i + 1) < W64
          exact Nat.lt_of_le_of_lt h1 (by decide)
      · intro j hj
        show (if j = i + 1 then _ else _) = _
        by_cases h : j = i + 1
        · rw [if_pos h, h]
        · rw [if_neg h]; exact hs.2 j (by omega))
  refine ⟨v, e, ?_⟩
  intro j hj
  rw [Vec.get_ok (by rw [hv.1]; exact hj), hv.2 j (by omega)]

theorem rank_add (ws : Nat → Word) {i W : Nat} (hi : i < 64 * W) (hW : W ≤ 8) :
    add64 (psum (wones ws) (i / 64)) (wcnt (ws (i / 64)) (i % 64 + 1)) = fcnt ws (i + 1) := by
  rw [fcnt_idx, add64_eq]
  have h := fcnt_le ws (i + 1)
  rw [fcnt_idx] at h
  refine Nat.lt_of_le_of_lt h ?_
  show i + 1 < 18446744073709551616
  omega

theorem rankGeneric_ok (b : Build) {W mode : Nat} (hW0 : 0 < W) (hW : W ≤ 8)
    (hp : exPopcount mode ≤ 1) (hs : exSecond mode ≤ 1) (g : Scratch) {x : Ptr} {ws : Nat → Word}
    (hx : PtrOK x W ws) {i : Nat} (hi : i < 64 * W) :
    rankGeneric b W mode g x i = ok (fcnt ws (i + 1)) := by
  unfold rankGeneric
  rw [massert_ok (decide_eq_true hi), ok_bind]
  have hr := rankInBlock_ok b hp hx hi
  have hC : ∀ j, j < W → (do let w ← x.at j; popcountU64 b (exPopcount mode) w) = ok (wones ws j) := by
    intro j hj
    rw [hx j hj, ok_bind, popcountU64_ok b hp]
    rfl
  simp only [hr, ok_bind]
  have : exSecond mode = 0 ∨ exSecond mode = 1 := by omega
  rcases this with h | h
  · simp only [h]
    rw [sumLoop_ok hW hC (by omega), ok_bind, rank_add ws hi hW]
  · simp only [h]
    obtain ⟨v, e, hv⟩ := unrolled_ok hW0 hW g.counts hC
    rw [e, ok_bind, hv _ (by omega), ok_bind, rank_add ws hi hW]

theorem lanesLoop_ok {x : Ptr} {W : Nat} {ws : Nat → Word} (hx : PtrOK x W ws) (pc : Word → Nat)
    (hpc : ∀ w, pc w = wcnt w 64) :
    ∃ c, forN W (fun j (c : Lanes) => do
      let w ← x.at j
      ok (fun l => if l = j then pc w else c l)) (fun _ => 0) = ok c ∧
      ∀ j, j < W → c j = wones ws j := by
  obtain ⟨c, e, hc⟩ := forN_inv (body := fun j (c : Lanes) => do
      let w ← x.at j
      ok (fun l => if l = j then pc w else c l)) (fun k c => ∀ j, j < k → c j = wones ws j)
    W (fun _ => 0) (by intro j hj; omega) (by
      intro i s hi hs
      refine ⟨fun l => if l = i then pc (ws i) else s l, ?_, ?_⟩
      · rw [hx i hi, ok_bind]
      · intro j hj
        show (if j = i then _ else _) = _
        by_cases h : j = i
        · rw [if_pos h, h, hpc]; rfl
        · rw [if_neg h]; exact hs j (by omega))
  exact ⟨c, e, hc⟩

theorem popcountVec_ok {x : Ptr} {W : Nat} {ws : Nat → Word} (hx : PtrOK x W ws) :
    ∃ c, popcountVec W x = ok c ∧ ∀ j, j < W → c j = wones ws j := by
  obtain ⟨c, e, hc⟩ := lanesLoop_ok hx popcountLane popcountLane_eq
  refine ⟨c, ?_, hc⟩
  unfold popcountVec
  rw [e, ok_bind]

theorem popcountArr_ok {x : Ptr} {W : Nat} {ws : Nat → Word} (hx : PtrOK x W ws) :
    ∃ c, popcountArr W x = ok c ∧ ∀ j, j < W → c j = wones ws j := by
  obtain ⟨c, e, hc⟩ := lanesLoop_ok hx popcnt popcnt_eq
  refine ⟨c, ?_, hc⟩
  unfold popcountArr
  rw [e, ok_bind]

theorem lanes_get {C : Lanes} {W : Nat} {ws : Nat → Word} (hc : ∀ j, j < W → C j = wones ws j) :
    ∀ j, j < W → (⟨W, C⟩ : Vec Nat).get j = ok (wones ws j) := by
  intro j hj
  rw [Vec.get_ok hj]
  show ok (C j) = _
  rw [hc j hj]

theorem rankVecLoop_ok (b : Build) {W : Nat} (hW : W ≤ 8) {x : Ptr} {ws : Nat → Word}
    (hx : PtrOK x W ws) {i : Nat} (hi : i < 64 * W) :
    rankVecLoop b W x i = ok (fcnt ws (i + 1)) := by
  unfold rankVecLoop
  obtain ⟨C, hC, hc⟩ := popcountVec_ok hx
  rw [massert_ok (decide_eq_true hi), ok_bind, rankInBlock_ok b (Nat.le_refl _) hx hi, ok_bind, hC,
    ok_bind, sumLoop_ok hW (lanes_get hc) (by omega), ok_bind, rank_add ws hi hW]

theorem rankVecUnrolled_ok (b : Build) {W : Nat} (hW0 : 0 < W) (hW : W ≤ 8) (g : Scratch) {x : Ptr}
    {ws : Nat → Word} (hx : PtrOK x W ws) {i : Nat} (hi : i < 64 * W) :
    rankVecUnrolled b W g x i = ok (fcnt ws (i + 1)) := by
  unfold rankVecUnrolled
  obtain ⟨C, hC, hc⟩ := popcountVec_ok hx
  obtain ⟨v, e, hv⟩ := unrolled_ok hW0 hW g.counts (lanes_get hc)
  rw [massert_ok (decide_eq_true hi), ok_bind, rankInBlock_ok b (Nat.le_refl _) hx hi, ok_bind, hC,
    ok_bind, e, ok_bind, hv _ (by omega), ok_bind, rank_add ws hi hW]

/-- A prefix-sum instruction sequence is right on `W` small lanes. -/
def PsOK (W : Nat) (ps : Lanes → Lanes) : Prop :=
  ∀ x : Lanes, psum x W < 2 ^ 64 → ∀ j, j < W → ps x j = psum x (j + 1)

theorem psOK256 : PsOK 4 prefixsum256 := fun _ h _ hj => prefixsum256_eq h hj
theorem psOK512 : PsOK 8 prefixsum512 := fun _ h _ hj => prefixsum512_eq h hj

theorem ps_wones {W : Nat} {ps : Lanes → Lanes} (hps : PsOK W ps) (hW : W ≤ 8) {C : Lanes}
    {ws : Nat → Word} (hc : ∀ j, j < W → C j = wones ws j) :
    ∀ j, j < W → ps C j = psum (wones ws) (j + 1) := by
  intro j hj
  have h := psum_wones_lt ws (Nat.le_refl W) hW
  rw [hps C _ j hj]
  · exact psum_congr fun l hl => hc l (by omega)
  · rw [psum_congr hc]; exact Nat.lt_of_le_of_lt h (by decide)

theorem storeSums_get {W : Nat} {g : Nat → Nat} {l : Lanes} {ws : Nat → Word} (hg : g 0 = 0)
    (hl : ∀ j, j < W → l j = psum (wones ws) (j + 1)) {j : Nat} (hj : j ≤ W) :
    (storeSums W g l).get j = ok (psum (wones ws) j) := by
  rw [Vec.get_ok (show j < W + 1 by omega)]
  show ok (if j = 0 then g 0 else if j ≤ W then l (j - 1) else g j) = _
  by_cases h : j = 0
  · rw [if_pos h, hg, h]; rfl
  · rw [if_neg h, if_pos hj, hl (j - 1) (by omega), show j - 1 + 1 = j by omega]

theorem rankVecParallel_ok (b : Build) {W : Nat} {ps : Lanes → Lanes} (hps : PsOK W ps) (hW : W ≤ 8)
    {g : Scratch} (hg : g.sums 0 = 0) {x : Ptr} {ws : Nat → Word} (hx : PtrOK x W ws) {i : Nat}
    (hi : i < 64 * W) : rankVecParallel b W ps g x i = ok (fcnt ws (i + 1)) := by
  unfold rankVecParallel
  obtain ⟨C, hC, hc⟩ := popcountVec_ok hx
  rw [massert_ok (decide_eq_true hi), ok_bind, rankInBlock_ok b (Nat.le_refl _) hx hi, ok_bind, hC,
    ok_bind]
  show (do let s ← (storeSums W g.sums (ps C)).get (i / 64); ok (add64 s _)) = _
  rw [storeSums_get hg (ps_wones hps hW hc) (by omega), ok_bind, rank_add ws hi hW]

theorem rank512BuiltinParallel_ok (b : Build) {g : Scratch} (hg : g.sums 0 = 0) {x : Ptr}
    {ws : Nat → Word} (hx : PtrOK x 8 ws) {i : Nat} (hi : i < 512) :
    rank512BuiltinParallel b g x i = ok (fcnt ws (i + 1)) := by
  unfold rank512BuiltinParallel
  obtain ⟨C, hC, hc⟩ := popcountArr_ok hx
  rw [massert_ok (decide_eq_true hi), ok_bind, hC, ok_bind,
    rankInBlock_ok b (Nat.le_refl _) hx (show i < 64 * 8 by omega), ok_bind]
  show (do let s ← (storeSums 8 g.sums (prefixsum512 C)).get (i / 64); ok (add64 s _)) = _
  rw [storeSums_get hg (ps_wones psOK512 (Nat.le_refl _) hc) (by omega), ok_bind,
    rank_add ws (show i < 64 * 8 by omega) (Nat.le_refl _)]

theorem rank256BuiltinParallel_ok (b : Build) (g : Scratch) {x : Ptr}
    {ws : Nat → Word} (hx : PtrOK x 4 ws) {i : Nat} (hi : i < 256) :
    rank256BuiltinParallel b g x i = ok (fcnt ws (i + 1)) := by
  unfold rank256BuiltinParallel
  rw [massert_ok (decide_eq_true hi), ok_bind, Vec.set_ok _ (by show 0 < 4; omega), ok_bind,
    hx 0 (by omega), ok_bind, Vec.set_ok _ (by show 1 < 4; omega), ok_bind,
    hx 1 (by omega), ok_bind, Vec.set_ok _ (by show 2 < 4; omega), ok_bind,
    hx 2 (by omega), ok_bind, Vec.set_ok _ (by show 3 < 4; omega), ok_bind,
    rankInBlock_ok b (Nat.le_refl _) hx (show i < 64 * 4 by omega), ok_bind]
  generalize hc : (⟨4, fun j => if j = 3 then popcnt (ws 2) else if j = 2 then popcnt (ws 1) else
    if j = 1 then popcnt (ws 0) else if j = 0 then 0 else g.counts j⟩ : Vec Nat) = c
  have hf : ∀ j, j < 4 → c.f j = if j = 0 then 0 else wones ws (j - 1) := by
    intro j hj
    have : j = 0 ∨ j = 1 ∨ j = 2 ∨ j = 3 := by omega
    rw [← hc]
    rcases this with rfl | rfl | rfl | rfl
    · rfl
    · show popcnt (ws 0) = _; rw [popcnt_eq]; rfl
    · show popcnt (ws 1) = _; rw [popcnt_eq]; rfl
    · show popcnt (ws 2) = _; rw [popcnt_eq]; rfl
  have hps : ∀ j, j < 4 → psum c.f (j + 1) = psum (wones ws) j := by
    intro j
    induction j with
    | zero => intro _; show 0 + c.f 0 = 0; rw [hf 0 (by omega)]; rfl
    | succ j ih =>
      intro hj
      show psum c.f (j + 1) + c.f (j + 1) = psum (wones ws) j + wones ws j
      rw [ih (by omega), hf (j + 1) hj, if_neg (by omega)]
      rfl
  have hlt : psum c.f 4 < 2 ^ 64 := by
    have := psum_wones_lt ws (show 3 ≤ 8 by omega) (Nat.le_refl _)
    rw [hps 3 (by omega)]
    exact Nat.lt_of_le_of_lt this (by decide)
  show (do let s ← (⟨4, prefixsum256 c.f⟩ : Vec Nat).get (i / 64); ok (add64 s _)) = _
  rw [Vec.get_ok (by show i / 64 < 4; omega), ok_bind]
  show ok (add64 (prefixsum256 c.f (i / 64)) _) = _
  rw [prefixsum256_eq hlt (by omega), hps _ (by omega), rank_add ws (show i < 64 * 4 by omega) (by omega)]

/-! ## Which modes are supported -/

theorem rankU256_ok (b : Build) {mode : Nat} (hm : mode ∈ rank256Modes) {g : Scratch}
    (hg : g.sums 0 = 0) {x : Ptr} {ws : Nat → Word} (hx : PtrOK x 4 ws) {i : Nat} (hi : i < 256) :
    rankU256 b mode g x i = ok (fcnt ws (i + 1)) := by
  have hi' : i < 64 * 4 := by omega
  simp only [rank256Modes, List.mem_cons, List.not_mem_nil, or_false] at hm
  rcases hm with rfl | rfl | rfl | rfl | rfl | rfl | rfl | rfl
  · exact rankGeneric_ok b (by decide) (by decide) (by decide) (by decide) g hx hi'
  · exact rankGeneric_ok b (by decide) (by decide) (by decide) (by decide) g hx hi'
  · exact rankGeneric_ok b (by decide) (by decide) (by decide) (by decide) g hx hi'
  · exact rankGeneric_ok b (by decide) (by decide) (by decide) (by decide) g hx hi'
  · exact rankVecLoop_ok b (by decide) hx hi'
  · exact rankVecUnrolled_ok b (by decide) (by decide) g hx hi'
  · exact rank256BuiltinParallel_ok b g hx hi
  · exact rankVecParallel_ok b psOK256 (by decide) hg hx hi'

theorem rankU512_ok (b : Build) {mode : Nat} (hm : mode ∈ rank512Modes) {g : Scratch}
    (hg : g.sums 0 = 0) {x : Ptr} {ws : Nat → Word} (hx : PtrOK x 8 ws) {i : Nat} (hi : i < 512) :
    rankU512 b mode g x i = ok (fcnt ws (i + 1)) := by
  have hi' : i < 64 * 8 := by omega
  simp only [rank512Modes, List.mem_cons, List.not_mem_nil, or_false] at hm
  rcases hm with rfl | rfl | rfl | rfl | rfl | rfl | rfl | rfl
  · exact rankGeneric_ok b (by decide) (by decide) (by decide) (by decide) g hx hi'
  · exact rankGeneric_ok b (by decide) (by decide) (by decide) (by decide) g hx hi'
  · exact rankGeneric_ok b (by decide) (by decide) (by decide) (by decide) g hx hi'
  · exact rankGeneric_ok b (by decide) (by decide) (by decide) (by decide) g hx hi'
  · exact rank512BuiltinParallel_ok b hg hx hi
  · exact rankVecLoop_ok b (by decide) hx hi'
  · exact rankVecUnrolled_ok b (by decide) (by decide) g hx hi'
  · exact rankVecParallel_ok b psOK512 (by decide) hg hx hi'

theorem rankBlock64_ok (b : Build) {x : Ptr} {ws : Nat → Word} (hx : PtrOK x 1 ws) {i : Nat}
    (hi : i < 64) : rankBlock64 b x i = ok (fcnt ws (i + 1)) := by
  have e : add64 i 1 = i + 1 := add64_eq (by show i + 1 < 18446744073709551616; omega)
  have hf : fcnt ws (i + 1) = wcnt (ws 0) (i + 1) := by
    have := fcnt_split ws 0 (i + 1) (by omega)
    rw [Nat.mul_zero, Nat.zero_add] at this
    rw [this]
    show 0 + _ = _
    omega
  unfold rankBlock64
  show (do
    let mask ← if add64 i 1 = 64 then ok (-1#64) else rankMask (add64 i 1)
    let w ← x.at 0
    popcountU64 b 1 (w &&& mask)) = _
  rw [e, hf]
  by_cases h : i + 1 = 64
  · rw [if_pos h]
    simp only [ok_bind, hx 0 (by omega)]
    rw [popcountU64_ok b (Nat.le_refl _), h]
    rw [wcnt_mask _ _ (Nat.le_refl 64)]
    intro j hj
    have : ∀ j : Fin 64, (-1#64).getLsbD j.1 = true := by decide
    rw [this ⟨j, hj⟩, decide_eq_true hj]
  · obtain ⟨m, hm, hbits⟩ := rankMask_ok (o := i + 1) (by omega)
    rw [if_neg (by omega)] at hbits
    rw [if_neg h, hm]
    simp only [ok_bind, hx 0 (by omega)]
    rw [popcountU64_ok b (Nat.le_refl _),
      wcnt_mask _ _ (by omega) hbits]

end MRS
