import Verif.Proofs.BlockRank

/-! # select in a block: every mode -/

set_option autoImplicit false

namespace MRS
open Outcome Spec

/-- `p` is the position of the `k`-th one among the first `64 * W` bits of `ws`. -/
structure BSel (ws : Nat → Word) (W k p : Nat) : Prop where
  lt : p < 64 * W
  bit : fbit ws p = true
  cnt : fcnt ws p = k

theorem BSel.of_word {ws : Nat → Word} {W k q p : Nat} (hq : q < W) (h1 : psum (wones ws) q ≤ k)
    (hp : WSel (ws q) (k - psum (wones ws) q) p) : BSel ws W k (64 * q + p) := by
  have hlt := hp.lt
  refine ⟨by omega, ?_, ?_⟩
  · unfold fbit
    rw [show (64 * q + p) / 64 = q by omega, show (64 * q + p) % 64 = p by omega]
    exact hp.bit
  · rw [fcnt_split ws q p (by omega), fcnt_words, hp.cnt]
    omega

/-- The word that holds the `k`-th one. -/
theorem word_exists {ws : Nat → Word} {k : Nat} :
    ∀ n, k < psum (wones ws) n → ∃ q, q < n ∧ psum (wones ws) q ≤ k ∧ k < psum (wones ws) (q + 1) := by
  intro n
  induction n with
  | zero => intro h; exact absurd h (Nat.not_lt_zero _)
  | succ n ih =>
    intro h
    rcases Nat.lt_or_ge k (psum (wones ws) n) with h1 | h1
    · obtain ⟨r, a, c, d⟩ := ih h1
      exact ⟨r, by omega, c, d⟩
    · exact ⟨n, by omega, h1, h⟩

theorem selLoop_ok (b : Build) {pcm : Nat} (hp : pcm ≤ 1) {x : Ptr} {W : Nat} (hW : W ≤ 8)
    {ws : Nat → Word} (hx : PtrOK x W ws) {k q : Nat} (hq : q < W) (h1 : psum (wones ws) q ≤ k)
    (h2 : k < psum (wones ws) (q + 1)) :
    ∀ fuel i cnt, i ≤ q → i + fuel = W →
      selLoop b pcm x fuel i (k - psum (wones ws) i) cnt
        = ok (q, k - psum (wones ws) q, wones ws q) := by
  intro fuel
  induction fuel with
  | zero => intro i cnt hi hf; omega
  | succ fuel ih =>
    intro i cnt hi hf
    unfold selLoop
    rw [hx i (by omega), ok_bind, popcountU64_ok b hp, ok_bind]
    show (if k - psum (wones ws) i < wones ws i then ok (i, k - psum (wones ws) i, wones ws i) else
      selLoop b pcm x fuel (i + 1) (sub64 (k - psum (wones ws) i) (wones ws i)) (wones ws i)) = _
    by_cases h : i = q
    · subst h
      have : psum (wones ws) (i + 1) = psum (wones ws) i + wones ws i := rfl
      rw [if_pos (by omega)]
    · have hm := psum_mono (wones ws) (show i + 1 ≤ q by omega)
      have hs : psum (wones ws) (i + 1) = psum (wones ws) i + wones ws i := rfl
      have hb := psum_wones_lt ws (show q + 1 ≤ W by omega) hW
      rw [if_neg (by omega), sub64_eq (by omega)
        (Nat.lt_of_le_of_lt (show k - psum (wones ws) i ≤ 512 by omega) (by decide))]
      rw [show k - psum (wones ws) i - wones ws i = k - psum (wones ws) (i + 1) by omega]
      exact ih (i + 1) _ (by omega) (by omega)

theorem selectGeneric_ok (b : Build) {W mode : Nat} (hW : W ≤ 8)
    (hp : exPopcount mode ≤ 1) (hs : exSecond mode = 0) (hw : exSelect64 mode ≤ 4) {x : Ptr}
    {ws : Nat → Word} (hx : PtrOK x W ws) {k : Nat} (hk : k < fcnt ws (64 * W)) :
    ∃ p, selectGeneric b W mode x k = ok p ∧ BSel ws W k p := by
  rw [fcnt_words] at hk
  obtain ⟨q, hq, h1, h2⟩ := word_exists W hk
  have hl := selLoop_ok b hp hW hx hq h1 h2 W 0 0 (Nat.zero_le _) (by omega)
  rw [show k - psum (wones ws) 0 = k from rfl] at hl
  have hlt : k - psum (wones ws) q < wones ws q := by
    have : psum (wones ws) (q + 1) = psum (wones ws) q + wones ws q := rfl
    omega
  obtain ⟨p, e, hp'⟩ := selectU64_ok b hw (x := ws q) (k := k - psum (wones ws) q) hlt
  unfold selectGeneric
  simp only [hs]
  rw [hl, ok_bind, massert_ok (decide_eq_true hlt), ok_bind, hx q hq, ok_bind]
  show ∃ p, (do
    let s ← selectU64 b (exSelect64 mode) (ws q) (k - psum (wones ws) q)
    ok (add64 (mul64 q 64) s)) = ok p ∧ BSel ws W k p
  rw [e, ok_bind]
  have := hp'.lt
  refine ⟨64 * q + p, ?_, BSel.of_word hq h1 hp'⟩
  rw [mul64_eq (by simp only [W64]; omega), add64_eq (by simp only [W64]; omega), Nat.mul_comm]

theorem ltCnt_thr4 : ∀ q : Fin 5, ltCntAt (maskReg 4 fun j => decide (j < q.1)) = ok q.1 := by
  decide +kernel
theorem ltCnt_thr8 : ∀ q : Fin 9, ltCntAt (maskReg 8 fun j => decide (j < q.1)) = ok q.1 := by
  decide +kernel

theorem ltCnt_thr {W q : Nat} (hW : W = 4 ∨ W = 8) (hq : q ≤ W) :
    ltCntAt (maskReg W fun j => decide (j < q)) = ok q := by
  rcases hW with rfl | rfl
  · exact ltCnt_thr4 ⟨q, by omega⟩
  · exact ltCnt_thr8 ⟨q, by omega⟩

theorem toS8_small {v : Nat} (h : v ≤ 512) : toS 8 v = (v : Int) := by
  unfold toS
  simp only []
  rw [Nat.mod_eq_of_lt (by omega), if_pos (by omega)]

theorem selectTail_ok (b : Build) {W : Nat} (hW : W = 4 ∨ W = 8) {g : Scratch} (hg : g.sums 0 = 0)
    {x : Ptr} {ws : Nat → Word} (hx : PtrOK x W ws) {l : Lanes}
    (hl : ∀ j, j < W → l j = psum (wones ws) (j + 1)) {k : Nat} (hk : k < fcnt ws (64 * W)) :
    ∃ p, selectTail b W g x l k = ok p ∧ BSel ws W k p := by
  rw [fcnt_words] at hk
  have hW8 : W ≤ 8 := by omega
  obtain ⟨q, hq, h1, h2⟩ := word_exists W hk
  have hb := psum_wones_lt ws (Nat.le_refl W) hW8
  have hmask : cmpleMask W l k = maskReg W fun j => decide (j < q) := by
    unfold cmpleMask
    apply maskReg_congr
    intro j hj
    have hbj := psum_wones_lt ws (show j + 1 ≤ W by omega) hW8
    rw [hl j hj, toS8_small hbj, toS8_small (show k ≤ 512 by omega)]
    apply decide_eq_decide.2
    constructor
    · intro h
      rcases Nat.lt_or_ge j q with hh | hh
      · exact hh
      · have := psum_mono (wones ws) (show q + 1 ≤ j + 1 by omega)
        omega
    · intro h
      have := psum_mono (wones ws) (show j + 1 ≤ q by omega)
      omega
  have hlt : k - psum (wones ws) q < wones ws q := by
    have : psum (wones ws) (q + 1) = psum (wones ws) q + wones ws q := rfl
    omega
  obtain ⟨p, e, hp'⟩ := selectU64_ok b (Nat.le_refl 4) (x := ws q) (k := k - psum (wones ws) q) hlt
  unfold selectTail
  rw [hmask, ltCnt_thr hW (by omega), ok_bind]
  show ∃ p, (do
    let w ← x.at q
    let s ← (storeSums W g.sums l).get q
    let r ← selectU64 b 4 w (sub64 k s)
    ok (add64 (q * 64) r)) = ok p ∧ BSel ws W k p
  rw [hx q hq, ok_bind, storeSums_get hg hl (by omega), ok_bind, sub64_eq h1
    (Nat.lt_of_lt_of_le hk (Nat.le_trans hb (by decide))), e, ok_bind]
  have := hp'.lt
  refine ⟨64 * q + p, ?_, BSel.of_word hq h1 hp'⟩
  rw [add64_eq (by simp only [W64]; omega), Nat.mul_comm]

theorem selectBuiltinVec_ok (b : Build) {W : Nat} (hW : W = 4 ∨ W = 8) {ps : Lanes → Lanes}
    (hps : PsOK W ps) {g : Scratch} (hg : g.sums 0 = 0) {x : Ptr} {ws : Nat → Word}
    (hx : PtrOK x W ws) {k : Nat} (hk : k < fcnt ws (64 * W)) :
    ∃ p, selectBuiltinVec b W ps g x k = ok p ∧ BSel ws W k p := by
  unfold selectBuiltinVec
  obtain ⟨C, hC, hc⟩ := popcountArr_ok hx
  rw [hC, ok_bind]
  exact selectTail_ok b hW hg hx (ps_wones hps (by omega) hc) hk

theorem selectVec_ok (b : Build) {W : Nat} (hW : W = 4 ∨ W = 8) {ps : Lanes → Lanes}
    (hps : PsOK W ps) {g : Scratch} (hg : g.sums 0 = 0) {x : Ptr} {ws : Nat → Word}
    (hx : PtrOK x W ws) {k : Nat} (hk : k < fcnt ws (64 * W)) :
    ∃ p, selectVec b W ps g x k = ok p ∧ BSel ws W k p := by
  unfold selectVec
  obtain ⟨C, hC, hc⟩ := popcountVec_ok hx
  rw [hC, ok_bind]
  exact selectTail_ok b hW hg hx (ps_wones hps (by omega) hc) hk

/-! ## Which modes are supported -/

theorem selectU256_ok (b : Build) {mode : Nat} (hm : mode ∈ select256Modes) {g : Scratch}
    (hg : g.sums 0 = 0) {x : Ptr} {ws : Nat → Word} (hx : PtrOK x 4 ws) {k : Nat}
    (hk : k < fcnt ws 256) : ∃ p, selectU256 b mode g x k = ok p ∧ BSel ws 4 k p := by
  simp only [select256Modes, List.mem_cons, List.not_mem_nil, or_false] at hm
  rcases hm with rfl | rfl | rfl | rfl | rfl | rfl | rfl
  · exact selectGeneric_ok b (mode := SelectMode.broadword_loop_sdsl) (by decide) (by decide) (by decide)
      (by decide) hx hk
  · exact selectGeneric_ok b (mode := SelectMode.broadword_loop_succinct) (by decide) (by decide) (by decide)
      (by decide) hx hk
  · exact selectGeneric_ok b (mode := SelectMode.builtin_loop_sdsl) (by decide) (by decide) (by decide)
      (by decide) hx hk
  · exact selectGeneric_ok b (mode := SelectMode.builtin_loop_succinct) (by decide) (by decide) (by decide)
      (by decide) hx hk
  · exact selectGeneric_ok b (mode := SelectMode.builtin_loop_pdep) (by decide) (by decide) (by decide)
      (by decide) hx hk
  · exact selectBuiltinVec_ok b (Or.inl rfl) psOK256 hg hx hk
  · exact selectVec_ok b (Or.inl rfl) psOK256 hg hx hk

theorem selectU512_ok (b : Build) {mode : Nat} (hm : mode ∈ select512Modes) {g : Scratch}
    (hg : g.sums 0 = 0) {x : Ptr} {ws : Nat → Word} (hx : PtrOK x 8 ws) {k : Nat}
    (hk : k < fcnt ws 512) : ∃ p, selectU512 b mode g x k = ok p ∧ BSel ws 8 k p := by
  simp only [select512Modes, List.mem_cons, List.not_mem_nil, or_false] at hm
  rcases hm with rfl | rfl | rfl | rfl | rfl | rfl | rfl
  · exact selectGeneric_ok b (mode := SelectMode.broadword_loop_sdsl) (by decide) (by decide) (by decide)
      (by decide) hx hk
  · exact selectGeneric_ok b (mode := SelectMode.broadword_loop_succinct) (by decide) (by decide) (by decide)
      (by decide) hx hk
  · exact selectGeneric_ok b (mode := SelectMode.builtin_loop_sdsl) (by decide) (by decide) (by decide)
      (by decide) hx hk
  · exact selectGeneric_ok b (mode := SelectMode.builtin_loop_succinct) (by decide) (by decide) (by decide)
      (by decide) hx hk
  · exact selectGeneric_ok b (mode := SelectMode.builtin_loop_pdep) (by decide) (by decide) (by decide)
      (by decide) hx hk
  · exact selectBuiltinVec_ok b (Or.inr rfl) psOK512 hg hx hk
  · exact selectVec_ok b (Or.inr rfl) psOK512 hg hx hk

theorem selectBlock64_ok (b : Build) {x : Ptr} {ws : Nat → Word} (hx : PtrOK x 1 ws) {k : Nat}
    (hk : k < fcnt ws 64) : ∃ p, selectBlock64 b x k = ok p ∧ BSel ws 1 k p := by
  unfold selectBlock64
  rw [hx 0 (by omega), ok_bind]
  have e : fcnt ws 64 = wcnt (ws 0) 64 := by
    have := fcnt_words ws 1
    rw [Nat.mul_one] at this
    rw [this]
    show 0 + wones ws 0 = _
    rw [Nat.zero_add]; rfl
  obtain ⟨p, e1, hp⟩ := selectU64_ok b (Nat.le_refl 4) (x := ws 0) (k := k) (by rw [← e]; exact hk)
  refine ⟨p, e1, ?_⟩
  have := BSel.of_word (W := 1) (q := 0) (ws := ws) (k := k) (by omega) (Nat.zero_le _) hp
  rwa [Nat.mul_zero, Nat.zero_add] at this

/-! ## Block types -/

theorem exported_supported : ∀ t ∈ exportedBlocks, t.Supported := by decide

theorem Width.bits_eq (w : Width) : w.bits = 64 * w.words := by cases w <;> rfl

theorem BlockType.rank_ok (b : Build) {t : BlockType} (ht : t.Supported) {g : Scratch}
    (hg : g.sums 0 = 0) {x : Ptr} {ws : Nat → Word} (hx : PtrOK x t.width.words ws) {i : Nat}
    (hi : i < t.width.bits) : t.rank b g x i = ok (fcnt ws (i + 1)) := by
  obtain ⟨w, rm, sm⟩ := t
  cases w
  · exact rankBlock64_ok b hx hi
  · exact rankU256_ok b ht.1 hg hx hi
  · exact rankU512_ok b ht.1 hg hx hi

theorem BlockType.select_ok (b : Build) {t : BlockType} (ht : t.Supported) {g : Scratch}
    (hg : g.sums 0 = 0) {x : Ptr} {ws : Nat → Word} (hx : PtrOK x t.width.words ws) {k : Nat}
    (hk : k < fcnt ws t.width.bits) : ∃ p, t.select b g x k = ok p ∧ BSel ws t.width.words k p := by
  obtain ⟨w, rm, sm⟩ := t
  cases w
  · exact selectBlock64_ok b hx hk
  · exact selectU256_ok b ht.2 hg hx hk
  · exact selectU512_ok b ht.2 hg hx hk

end MRS
