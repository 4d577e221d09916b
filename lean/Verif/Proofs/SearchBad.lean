import Verif.Proofs.TreeFam

/-!
# Where the SIMD search of `avx2` trees of height 4 fails

The complement of `tree_search_sharp`: at a bad rank the search at the root picks the wrong child
and the search one level below leaves the node.
-/

set_option autoImplicit false

namespace MRS
open Outcome Spec

/-- What a search at a bad rank does: assertion failure in debug builds, an access far outside the
node in release builds. -/
def badOutcome (b : Build) : Outcome (Nat × Nat) := if b.ndebug then ub .oob else abort

theorem toS4 {x : Nat} (h : 2147483648 ≤ x % 4294967296) : toS 4 x < 0 := by
  unfold toS
  show (if 2 * (x % 4294967296) < 4294967296 then ((x % 4294967296 : Nat) : Int)
    else ((x % 4294967296 : Nat) : Int) - (4294967296 : Nat)) < 0
  have h2 : x % 4294967296 < 4294967296 := Nat.mod_lt _ (by decide)
  generalize x % 4294967296 = y at h h2
  rw [if_neg (by omega)]
  omega

/-- `avx2::node64::search` with an argument whose low 32 bits are negative. -/
theorem node64_neg {b : Build} {m : Mem} {off y : Nat} (hb : b.simd2 = true)
    (hoff : off + 32 ≤ m.size) (hsz : m.size < 2 ^ 64)
    (hs : ∀ z, z < 8 → rd m (off + z * 4) 4 < 2 ^ 31) (hy : 2147483648 ≤ y % 4294967296) :
    nodeSearch b avx2Node64 m off y = badOutcome b := by
  show searchBody b avx2Node64 m off y = _
  have hseg : searchSeg b avx2Node64 m off y = ok (sub64 0 1) := by
    unfold searchSeg
    have hsimd : avx2Node64.simd b = true := hb
    rw [if_pos hsimd]
    show (loadVec b m off 32 1 4 >>= _) = _
    rw [loadVec_ok (al := 1) hoff (fun _ => Nat.mod_one _), ok_bind]
    show ok (sub64 (indexFs 4 (cmpgt 4 (fun z => rd m (off + z * 4) 4) y)) 1) = _
    rw [indexFs_eq (n := 8) (q := 0) (by omega) (by decide) (by omega)]
    intro z hz
    have h1 := hs z hz
    have h2 := toS4 hy
    unfold cmpgt
    have h3 := toS_small (w := 4) (x := rd m (off + z * 4) 4) (by
      rw [show (256 : Nat) ^ 4 = 2 ^ 32 by decide]; omega)
    simp only [h3]
    rw [decide_eq_true (Nat.zero_le z)]
    exact decide_eq_true (by omega)
  unfold searchBody
  rw [hseg, ok_bind]
  have hsub : sub64 0 1 = 18446744073709551615 := by decide
  rw [hsub]
  unfold badOutcome
  cases hd : b.ndebug with
  | false =>
    have : massert b (decide (18446744073709551615 < avx2Node64.num)) = abort := by
      unfold massert; rw [hd]; rfl
    rw [this]; rfl
  | true =>
    have : massert b (decide (18446744073709551615 < avx2Node64.num)) = ok () := by
      unfold massert; rw [hd]; rfl
    rw [this, ok_bind]
    have hl : load b m (avx2Node64.sumOff off 18446744073709551615) avx2Node64.sumB = ub .oob := by
      unfold load chk
      rw [if_neg]
      · rfl
      · show ¬ off + 18446744073709551615 * 4 + 4 ≤ m.size
        omega
    rw [hl]; rfl

theorem IsSeg.unique {S : Nat → Nat} {x i j : Nat} (hm : MonoTo S 32)
    (hi : IsSeg avx2Node32 S x i) (hj : IsSeg avx2Node32 S x j) : i = j := by
  have key : ∀ {i j}, IsSeg avx2Node32 S x i → IsSeg avx2Node32 S x j → ¬ i < j := by
    intro i j hi hj hlt
    have h1 : j < 4 := hj.lt
    have h2 : S (j * 8) ≤ x := hj.lo
    have h3 : x < S ((i + 1) * 8) := hi.hi (show i + 1 < 4 by omega)
    have := hm.le (a := (i + 1) * 8) (b := j * 8) (by omega) (by omega)
    omega
  have := key hi hj
  have := key hj hi
  omega

/-- The search of `avx2::node32` when the 32-bit search inside segment `s` returns lane `q`. -/
theorem node32_search_via {b : Build} {m : Mem} {off x s q : Nat} {S : Nat → Nat}
    (hb : b.simd2 = true) (h : NodeRep avx2Node32 m off S) (ha : AlignOK b avx2Node32 m.addr off)
    (hm : MonoTo S 32) (h0 : S 0 = 0) (hx : x < 2 ^ 40) (hSle : ∀ j, j ≤ 32 → S j < 2 ^ 40)
    (hseg : IsSeg avx2Node32 S x s) (hq : q ≤ 8) (hp : s * 8 + q ≠ 0)
    (hidx : indexFs 4 (cmpgt 4 (fun z => rd m (avx2Node32.keyOff off (s * 8) + z * 4) 4)
      (x - S (s * 8))) = q) :
    nodeSearch b avx2Node32 m off x = ok (s * 8 + q, S (s * 8 + q)) := by
  show searchBody b avx2Node32 m off x = _
  have hs4 : s < 4 := hseg.lt
  have hbnd : off + 160 ≤ m.size := h.bnd
  obtain ⟨i, ei, hi⟩ := searchSeg_ok (b := b) (x := x) avx2Node32_wf h ha hm h0 (fun _ => by
    refine ⟨?_, ?_⟩
    · show 2 * x < 256 ^ 8
      omega
    · intro z hz
      have hz : z < 4 := hz
      have := hSle (z * 8) (by omega)
      show 2 * S (z * 8) < 256 ^ 8
      omega)
  have := IsSeg.unique hm hi hseg
  subst this
  have hlo : S (i * 8) ≤ x := hseg.lo
  unfold searchBody
  rw [ei, ok_bind, massert_ok (decide_eq_true hi.lt), ok_bind, h.load_sum avx2Node32_wf ha hi.lt,
    ok_bind]
  show (searchKey b avx2Node32 m off (sub64 x (S (i * 8))) (mul64 i 8) >>= _) = _
  rw [sub64_eq hlo (by simp only [W64]; omega), mul64_eq (by simp only [W64]; omega)]
  have hk : searchKey b avx2Node32 m off (x - S (i * 8)) (i * 8) = ok (i * 8 + q) := by
    unfold searchKey
    have hsimd : avx2Node32.simd b = true := hb
    rw [if_pos hsimd]
    show (loadVec b m (avx2Node32.keyOff off (i * 8)) 32 1 4 >>= _) = _
    rw [loadVec_ok (al := 1) (by
      show off + 4 * 8 + i * 8 * 4 + 32 ≤ m.size
      omega) (fun _ => Nat.mod_one _), ok_bind]
    show ok (add64 (i * 8) (indexFs 4 (cmpgt 4 (fun z => rd m (avx2Node32.keyOff off (i * 8) + z * 4) 4)
      (x - S (i * 8))))) = _
    rw [hidx, add64_eq (by simp only [W64]; omega)]
  rw [hk, ok_bind]
  show (if i * 8 + q = 0 then pure (i * 8 + q, 0) else do
      let s ← nodeSum b avx2Node32 m off (i * 8 + q - 1)
      pure (i * 8 + q, s) : Outcome (Nat × Nat)) = _
  rw [if_neg hp, nodeSum_ok avx2Node32_wf h ha hm (i := i * 8 + q - 1)
    (show i * 8 + q - 1 < 32 by omega) (by
      have := hSle (i * 8 + q) (by omega)
      rw [show i * 8 + q - 1 + 1 = i * 8 + q by omega]
      show S (i * 8 + q) < 256 ^ 8
      omega), show i * 8 + q - 1 + 1 = i * 8 + q by omega]
  rfl

/-- Keys of segment `s`. -/
theorem node32_keys {m : Mem} {off s : Nat} {S : Nat → Nat} (h : NodeRep avx2Node32 m off S)
    (hs : s < 4) {z : Nat} (hz : z < 8) :
    rd m (avx2Node32.keyOff off (s * 8) + z * 4) 4 = S (s * 8 + z + 1) - S (s * 8) := by
  have := h.keys (s * 8 + z) (show s * 8 + z < 32 by omega)
  have e : avx2Node32.keyOff off (s * 8 + z) = avx2Node32.keyOff off (s * 8) + z * 4 := by
    show off + 4 * 8 + (s * 8 + z) * 4 = off + 4 * 8 + s * 8 * 4 + z * 4
    omega
  rw [e] at this
  have e2 : avx2Node32.seg * ((s * 8 + z) / avx2Node32.seg) = s * 8 := by
    show 8 * ((s * 8 + z) / 8) = s * 8
    omega
  rw [e2] at this
  exact this

/-- At a bad rank the root leads to child `i` with a remainder whose low 32 bits are negative. -/
theorem node32_bad {b : Build} {m : Mem} {off x : Nat} {P S : Nat → Nat}
    (hb : b.simd2 = true) (h : NodeRep avx2Node32 m off S) (ha : AlignOK b avx2Node32 m.addr off)
    (hd : ∀ a d, P (a + d) ≤ P a + d * 512) (hmono : ∀ a b, a ≤ b → P a ≤ P b) (h0 : P 0 = 0)
    (hS : ∀ m, S m = P ((m - 1) * 524288)) (hx : x < P (32 * 524288)) (hbad : BadRank P x) :
    ∃ i s, nodeSearch b avx2Node32 m off x = ok (i + 1, s) ∧
      2147483648 ≤ sub64 x s % 4294967296 ∧ i < 32 ∧ P ((i - 1) * 524288) < P (32 * 524288) ∧
      (P (i * 524288) ≤ x ∨ P ((i - 1) * 524288) < P (i * 524288)) := by
  have hle : ∀ j, j ≤ 32 → P (j * 524288) ≤ 2 ^ 33 := by
    intro j hj
    have := hd 0 (j * 524288)
    rw [Nat.zero_add, h0] at this
    omega
  have hx40 : x < 2 ^ 40 := by
    have := hle 32 (by omega); omega
  have hm : MonoTo S 32 := by
    intro k _
    rw [hS, hS]
    exact hmono _ _ (Nat.mul_le_mul_right _ (by omega))
  have hSle : ∀ j, j ≤ 32 → S j < 2 ^ 40 := by
    intro j hj
    rw [hS]
    have := hle (j - 1) (by omega)
    omega
  have hS0 : S 0 = 0 := by rw [hS, Nat.zero_sub, Nat.zero_mul, h0]
  rcases hbad with ⟨s, hs1, hs3, hf, hlo, hhi⟩ | hlast
  · have e8 : S (s * 8) = P ((8 * s - 1) * 524288) := by rw [hS, Nat.mul_comm s 8]
    have e9 : S ((s + 1) * 8) = P ((8 * s + 7) * 524288) := by
      rw [hS, show (s + 1) * 8 - 1 = 8 * s + 7 by omega]
    have hm1 := hmono ((8 * s - 1) * 524288) ((8 * s + 6) * 524288) (Nat.mul_le_mul_right _ (by omega))
    have hd1 := hd ((8 * s - 1) * 524288) (7 * 524288)
    rw [show (8 * s - 1) * 524288 + 7 * 524288 = (8 * s + 6) * 524288 by omega] at hd1
    have hd2 := hd ((8 * s + 6) * 524288) 524288
    rw [show (8 * s + 6) * 524288 + 524288 = (8 * s + 7) * 524288 by omega] at hd2
    have hseg : IsSeg avx2Node32 S x s := by
      refine ⟨show s < 4 by omega, ?_, ?_⟩
      · show S (s * 8) ≤ x
        omega
      · intro _
        show x < S ((s + 1) * 8)
        omega
    have hidx : indexFs 4 (cmpgt 4 (fun z => rd m (avx2Node32.keyOff off (s * 8) + z * 4) 4)
        (x - S (s * 8))) = 8 := by
      refine indexFs_eq (n := 8) (by omega) (by decide) (by omega) fun z hz => ?_
      rw [decide_eq_false (by omega)]
      show decide (toS 4 (x - S (s * 8)) < toS 4 (rd m (avx2Node32.keyOff off (s * 8) + z * 4) 4)) = _
      rw [node32_keys h (show s < 4 by omega) hz]
      refine decide_eq_false ?_
      rw [toS_small (w := 4) (x := x - S (s * 8)) (by
        rw [show (256 : Nat) ^ 4 = 2 ^ 32 by decide]; omega)]
      by_cases hz7 : z = 7
      · subst hz7
        have : S (s * 8 + 7 + 1) - S (s * 8) = 2147483648 := by
          rw [show s * 8 + 7 + 1 = (s + 1) * 8 by omega]; omega
        rw [this]
        have := toS4 (x := 2147483648) (by decide)
        omega
      · have hz6 : S (s * 8 + z + 1) ≤ P ((8 * s + 6) * 524288) := by
          rw [hS]
          exact hmono _ _ (Nat.mul_le_mul_right _ (by omega))
        rw [toS_small (w := 4) (by rw [show (256 : Nat) ^ 4 = 2 ^ 32 by decide]; omega)]
        omega
    have hres := node32_search_via hb h ha hm hS0 hx40 hSle hseg (Nat.le_refl 8) (by omega) hidx
    rw [show s * 8 + 8 = (s + 1) * 8 by omega, e9] at hres
    refine ⟨8 * s + 7, P ((8 * s + 7) * 524288), ?_, ?_, by omega, ?_, ?_⟩
    · rw [hres, show (s + 1) * 8 = 8 * s + 7 + 1 by omega]
    · have h33 := hle (8 * s + 7) (by omega)
      obtain ⟨r, hr⟩ : ∃ r, r = P ((8 * s + 7) * 524288) := ⟨_, rfl⟩
      rw [← hr] at hhi h33 hd2 ⊢
      clear hr hres hidx e9 e8 hseg hf
      unfold sub64
      simp only [W64]
      omega
    · rw [show 8 * s + 7 - 1 = 8 * s + 6 from rfl]
      exact Nat.lt_of_le_of_lt hlo hx
    · rw [show 8 * s + 7 - 1 = 8 * s + 6 from rfl]
      exact Or.inr (Nat.lt_of_le_of_lt hlo hhi)
  · have e8 : S (3 * 8) = P (23 * 524288) := by rw [hS]
    have hd1 := hd (23 * 524288) (9 * 524288)
    rw [show 23 * 524288 + 9 * 524288 = 32 * 524288 by omega] at hd1
    have hseg : IsSeg avx2Node32 S x 3 := by
      refine ⟨show 3 < 4 by omega, ?_, fun h => absurd h (by decide)⟩
      show S (3 * 8) ≤ x
      omega
    have hidx : indexFs 4 (cmpgt 4 (fun z => rd m (avx2Node32.keyOff off (3 * 8) + z * 4) 4)
        (x - S (3 * 8))) = 0 := by
      refine indexFs_eq7 (by omega) fun z hz => ?_
      rw [decide_eq_true (Nat.zero_le z)]
      show decide (toS 4 (x - S (3 * 8)) < toS 4 (rd m (avx2Node32.keyOff off (3 * 8) + z * 4) 4)) = _
      rw [node32_keys h (show 3 < 4 by omega) (show z < 8 by omega)]
      refine decide_eq_true ?_
      have hneg := toS4 (x := x - S (3 * 8)) (by omega)
      have hk := hd (23 * 524288) ((z + 1) * 524288)
      rw [show 23 * 524288 + (z + 1) * 524288 = (3 * 8 + z + 1 - 1) * 524288 by omega, ← hS] at hk
      rw [toS_small (w := 4) (x := S (3 * 8 + z + 1) - S (3 * 8)) (by
        rw [show (256 : Nat) ^ 4 = 2 ^ 32 by decide]; omega)]
      omega
    have hres := node32_search_via hb h ha hm hS0 hx40 hSle hseg (Nat.zero_le 8) (by omega) hidx
    refine ⟨23, P (23 * 524288), ?_, ?_, by omega, ?_, Or.inl (by omega)⟩
    · rw [hres, Nat.add_zero, e8]
    · rw [sub64_eq (by omega) (by simp only [W64]; omega)]
      omega
    · have := hmono ((23 - 1) * 524288) (23 * 524288) (Nat.mul_le_mul_right _ (by omega))
      omega

section
variable {b : Build} {M n : Nat} {A : Nat → Nat} {t : Tree}

/-- At every bad rank the search of an `avx2` tree of height 4 with SIMD code fails. -/
theorem avx2Search4_bad (h : TreeInv avx2Node128 (avx2Cs 4) M A n t) (hM : M ≤ 512)
    (ha : TreeAlign b t.mem.addr n avx2Node128 (avx2Cs 4)) {x : Nat} (hx : x < psum A n)
    (hb : b.simd2 = true) (hbad : BadRank (psum A) x) : avx2Search4 b t x = badOutcome b := by
  have hsp : n ≤ 16777216 := h.nspan
  have hpos := h.npos
  obtain ⟨l1, l2, l3, l4⟩ := (avx2_lvl4 hsp hpos).1 h.lvl
  obtain ⟨a1, a2, a3, a4⟩ := avx2_al4 hsp hpos ha
  have hc1 : ceilDiv n 16777216 = 1 := by
    show (n + 16777216 - 1) / 16777216 = 1
    omega
  have hr := l1 0 (show 0 < ceilDiv n 16777216 by rw [hc1]; omega)
  rw [Nat.zero_mul, Nat.zero_mul, Nat.add_zero] at hr
  have har := a1 0 (by rw [hc1]; omega)
  rw [Nat.zero_mul, Nat.add_zero] at har
  have hPn : ∀ k, n ≤ k → psum A k = psum A n := fun k hk => psum_beyond h.zero hk
  obtain ⟨i, s, e, hneg, hi, hpre, hex⟩ := node32_bad (P := psum A) hb hr har
    (fun a d => psum_diff_le (fun j => Nat.le_trans (h.le j) hM) a d)
    (fun a b hab => psum_mono A hab) (psum_zero A)
    (fun m => by
      show psum A (0 + (m - 1) * 524288) - psum A 0 = _
      rw [psum_zero, Nat.zero_add, Nat.sub_zero])
    (by rw [hPn _ (show n ≤ 32 * 524288 by omega)]; exact hx) hbad
  unfold avx2Search4
  rw [Tree.base_ok h.ptr, ok_bind]
  rw [show 4 * ((avx2Cs 4).length + 1) = 16 from rfl, e, ok_bind]
  show (nodeSearch b avx2Node64 t.mem
    (16 + add64 160 (mul64 (sub64 (i + 1) 1) 288)) (sub64 x s) >>= _) = _
  have hi1 : sub64 (i + 1) 1 = i := by
    rw [sub64_eq (by omega) (by simp only [W64]; omega)]; omega
  have hoff : 16 + add64 160 (mul64 (sub64 (i + 1) 1) 288) = 176 + i * 288 := by
    rw [hi1]
    arith64
  rw [hoff]
  have hfail : nodeSearch b avx2Node64 t.mem (176 + i * 288) (sub64 x s) = badOutcome b := by
    -- a node at that offset, of the level below the root or of the next one
    have hnode : ∃ base step, step ≤ 8192 ∧
        NodeRep avx2Node64 t.mem (176 + i * 288) (innerS A base step) := by
      by_cases hc : i < ceilDiv n 524288
      · exact ⟨_, 8192, by omega, l2 i hc⟩
      · have hci : ceilDiv n 524288 = i := by
          -- the child before `i` exists
          have : (i - 1) * 524288 < n ∨ i = 0 := by
            rcases hex with h1 | h1
            · by_cases hlt : (i - 1) * 524288 < n
              · exact Or.inl hlt
              · exfalso
                have := hPn ((i - 1) * 524288) (by omega)
                have := psum_mono A (show (i - 1) * 524288 ≤ i * 524288 from
                  Nat.mul_le_mul_right _ (by omega))
                omega
            · by_cases hlt : (i - 1) * 524288 < n
              · exact Or.inl hlt
              · exfalso
                have h2 := hPn ((i - 1) * 524288) (by omega)
                have h3 := hPn (i * 524288) (Nat.le_trans (by omega)
                  (Nat.mul_le_mul_right 524288 (show i - 1 ≤ i by omega)))
                omega
          have hcd : ceilDiv n 524288 = (n + 524288 - 1) / 524288 := rfl
          rw [hcd] at hc ⊢
          omega
        have h3 := l3 0 (by
          show 0 < ceilDiv n 8192
          show 0 < (n + 8192 - 1) / 8192
          omega)
        rw [hci, Nat.zero_mul, Nat.zero_mul, Nat.add_zero] at h3
        exact ⟨_, 128, by omega, h3⟩
    obtain ⟨base, step, hstep, hn⟩ := hnode
    have hbnd : 176 + i * 288 + 288 ≤ t.mem.size := hn.bnd
    refine node64_neg hb (by omega) ?_ ?_ hneg
    · rw [h.msize]
      show 16 + (ceilDiv n 16777216 * 160 + (ceilDiv n 524288 * 288 + (ceilDiv n 8192 * 288 +
        ceilDiv n 128 * avx2Node128.bytes))) < 2 ^ 64
      have hb1 : avx2Node128.bytes ≤ 1024 := by decide
      have hb2 : ceilDiv n 128 * avx2Node128.bytes ≤ ceilDiv n 128 * 1024 :=
        Nat.mul_le_mul_left _ hb1
      have q1 : ceilDiv n 524288 = (n + 524288 - 1) / 524288 := rfl
      have q2 : ceilDiv n 8192 = (n + 8192 - 1) / 8192 := rfl
      have q3 : ceilDiv n 128 = (n + 128 - 1) / 128 := rfl
      omega
    · intro z hz
      have h1 : rd t.mem (176 + i * 288 + z * 4) 4 = innerS A base step (z * 8) := hn.sums z hz
      rw [h1]
      have h2 := innerS_le h.le base step (z * 8)
      have h3 : (z * 8 - 1) * step * M ≤ 63 * 8192 * 512 :=
        Nat.mul_le_mul (Nat.mul_le_mul (by omega) hstep) hM
      omega
  rw [hfail]
  unfold badOutcome
  cases b.ndebug <;> rfl

end

end MRS
