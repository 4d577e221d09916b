import Verif.Proofs.NodeBasic
import Verif.Spec

/-! # `Node::build` establishes the representation -/

set_option autoImplicit false

namespace MRS
open Outcome Spec

theorem psum_zero (f : Nat → Nat) : psum f 0 = 0 := rfl
theorem psum_succ (f : Nat → Nat) (k : Nat) : psum f (k + 1) = psum f k + f k := rfl

theorem psum_mono (f : Nat → Nat) {a b : Nat} (h : a ≤ b) : psum f a ≤ psum f b := by
  induction b with
  | zero => have : a = 0 := by omega
            subst this; exact Nat.le_refl _
  | succ b ih =>
    by_cases e : a = b + 1
    · subst e; exact Nat.le_refl _
    · have := ih (by omega)
      show psum f a ≤ psum f b + f b
      omega

theorem psum_monoTo (f : Nat → Nat) (F : Nat) : MonoTo (psum f) F :=
  fun k _ => psum_mono f (Nat.le_succ k)

theorem psum_congr {f g : Nat → Nat} {k : Nat} (h : ∀ j, j < k → f j = g j) :
    psum f k = psum g k := by
  induction k with
  | zero => rfl
  | succ k ih => simp only [psum]; rw [ih (fun j hj => h j (by omega)), h k (by omega)]

theorem buildSeg_ok {b : Build} {c : NodeCfg} {input : Vec Nat} {off i : Nat} {m : Mem}
    (wf : c.WF) (hlen : input.len = c.fanout) (hb : off + c.bytes ≤ m.size)
    (ha : AlignOK b c m.addr off) (hi : i < c.num)
    (hk : ∀ j, j < c.fanout →
      psum input.f (j + 1) - psum input.f (c.seg * (j / c.seg)) < 256 ^ c.keyB)
    (hs : ∀ s, s < c.num → psum input.f (s * c.seg) < 256 ^ c.sumB)
    (hsum : rd m (c.sumOff off i) c.sumB = psum input.f (i * c.seg)) :
    ∃ m', buildSeg b c input off i m = ok m' ∧ SameOff m m' off (off + c.bytes) ∧
      (∀ s, s ≤ i → s < c.num → rd m' (c.sumOff off s) c.sumB = rd m (c.sumOff off s) c.sumB) ∧
      (i + 1 < c.num → rd m' (c.sumOff off (i + 1)) c.sumB = psum input.f ((i + 1) * c.seg)) ∧
      (∀ j, j < i * c.seg → rd m' (c.keyOff off j) c.keyB = rd m (c.keyOff off j) c.keyB) ∧
      (∀ z, z < c.seg → rd m' (c.keyOff off (i * c.seg + z)) c.keyB
        = psum input.f (i * c.seg + z + 1) - psum input.f (i * c.seg)) := by
  have hsegp := wf.seg_pos
  have hFe := wf.fanout_eq
  have hseg1 : i * c.seg + c.seg ≤ c.fanout := by
    have : (i + 1) * c.seg ≤ c.num * c.seg := Nat.mul_le_mul_right _ hi
    rw [Nat.succ_mul] at this; omega
  have hdiv : ∀ z, z < c.seg → (i * c.seg + z) / c.seg = i := by
    intro z hz
    rw [Nat.add_comm, Nat.add_mul_div_right _ _ hsegp, Nat.div_eq_of_lt hz, Nat.zero_add]
  have hkz : ∀ z, z < c.seg →
      psum input.f (i * c.seg + z + 1) - psum input.f (i * c.seg) < 256 ^ c.keyB := by
    intro z hz
    have := hk (i * c.seg + z) (by omega)
    rwa [hdiv z hz, Nat.mul_comm c.seg i] at this
  have hoffS : ∀ z, c.keyOff off (z + 1) = c.keyOff off z + c.keyB := by
    intro z; simp only [NodeCfg.keyOff, Nat.succ_mul]; omega
  have hoffM : ∀ {y z : Nat}, y ≤ z → c.keyOff off y ≤ c.keyOff off z := by
    intro y z hyz
    have : y * c.keyB ≤ z * c.keyB := Nat.mul_le_mul_right _ hyz
    simp only [NodeCfg.keyOff]; omega
  have hoffE : ∀ z, z ≤ c.fanout → c.keyOff off z ≤ off + c.bytes := by
    intro z hz
    have h1 : z * c.keyB ≤ c.fanout * c.keyB := Nat.mul_le_mul_right _ hz
    have := wf.bytes_eq
    simp only [NodeCfg.keyOff]; omega
  have hoff0 : off + c.num * c.sumB ≤ c.keyOff off (i * c.seg) := by
    simp only [NodeCfg.keyOff]; omega
  unfold buildSeg
  rw [Vec.get_ok (by omega)]
  simp only [ok_bind]
  rw [store_ok (by have := wf.key_in (off := off) (j := i * c.seg) (by omega); omega)
    (ha.key wf _)]
  simp only [ok_bind]
  -- inner loop
  have key := forFrom_inv (body := fun j m => do
      let prev ← load b m (c.keyOff off (i * c.seg + j - 1)) c.keyB
      let x ← input.get (i * c.seg + j)
      store b m (c.keyOff off (i * c.seg + j)) c.keyB ((prev + x) % 256 ^ c.keyB))
    (fun j m' => SameOff m m' (c.keyOff off (i * c.seg)) (c.keyOff off (i * c.seg + j)) ∧
      ∀ z, z < j → rd m' (c.keyOff off (i * c.seg + z)) c.keyB
        = psum input.f (i * c.seg + z + 1) - psum input.f (i * c.seg))
    (c.seg - 1) 1 (wr m (c.keyOff off (i * c.seg)) c.keyB (input.f (i * c.seg))) ?_ ?_
  · obtain ⟨m1, e1, hs1, hv1⟩ := key
    rw [show 1 + (c.seg - 1) = c.seg by omega] at hs1 hv1
    rw [e1]
    simp only [ok_bind]
    have hs1' : SameOff m m1 (c.keyOff off (i * c.seg)) (off + c.bytes) :=
      hs1.mono (Nat.le_refl _) (hoffE _ hseg1)
    by_cases hl : i + 1 < c.num
    · rw [if_pos hl]
      have hin0 := wf.sum_in (off := off) hi
      have hin1 := wf.sum_in (off := off) hl
      have hsb := wf.sum_bytes
      rw [load_ok (by rw [hs1.size]; omega) (by rw [hs1.addr]; exact ha.sum wf _)]
      simp only [ok_bind]
      have hin2 := wf.key_in (off := off) (j := i * c.seg + c.seg - 1) (by omega)
      rw [load_ok (by rw [hs1.size]; omega) (by rw [hs1.addr]; exact ha.key wf _)]
      simp only [ok_bind]
      rw [store_ok (by rw [hs1.size]; omega) (by rw [hs1.addr]; exact ha.sum wf _)]
      have hsd := wr_sameOff m1 (c.sumOff off (i + 1)) c.sumB
        ((rd m1 (c.sumOff off i) c.sumB + rd m1 (c.keyOff off (i * c.seg + c.seg - 1)) c.keyB)
          % 256 ^ c.sumB)
      refine ⟨_, rfl, ?_, ?_, ?_, ?_, ?_⟩
      · exact (hs1'.mono (by omega) (Nat.le_refl _)).trans (hsd.mono (by omega) (by omega))
      · intro s hsi hsn
        have hin := wf.sum_in (off := off) hsn
        have : (s + 1) * c.sumB ≤ (i + 1) * c.sumB := Nat.mul_le_mul_right _ (by omega)
        rw [Nat.succ_mul] at this
        rw [hsd.rd (by simp only [NodeCfg.sumOff]; omega), hs1'.rd (by omega)]
      · intro _
        rw [rd_wr_same, Nat.mod_mod, hs1'.rd (by omega), hsum,
          show i * c.seg + c.seg - 1 = i * c.seg + (c.seg - 1) by omega, hv1 _ (by omega),
          show i * c.seg + (c.seg - 1) + 1 = (i + 1) * c.seg by rw [Nat.succ_mul]; omega]
        have h1 : psum input.f (i * c.seg) ≤ psum input.f ((i + 1) * c.seg) :=
          psum_mono _ (Nat.mul_le_mul_right _ (by omega))
        have h2 := hs (i + 1) hl
        rw [show psum input.f (i * c.seg) + (psum input.f ((i + 1) * c.seg) - psum input.f (i * c.seg))
          = psum input.f ((i + 1) * c.seg) by omega, Nat.mod_eq_of_lt h2]
      · intro j hj
        have h1 := hoffM (show j + 1 ≤ i * c.seg by omega)
        rw [hoffS] at h1
        have h2 := wf.key_in (off := off) (j := j) (by omega)
        rw [hsd.rd (by omega), hs1'.rd (by omega)]
      · intro z hz
        have h2 := wf.key_in (off := off) (j := i * c.seg + z) (by omega)
        rw [hsd.rd (by omega)]
        exact hv1 z hz
    · rw [if_neg hl]
      refine ⟨m1, rfl, hs1'.mono (by omega) (Nat.le_refl _), ?_, fun h => absurd h hl, ?_, hv1⟩
      · intro s _ hsn
        have hin := wf.sum_in (off := off) hsn
        rw [hs1'.rd (by omega)]
      · intro j hj
        have h1 := hoffM (show j + 1 ≤ i * c.seg by omega)
        rw [hoffS] at h1
        rw [hs1'.rd (by omega)]
  · refine ⟨?_, ?_⟩
    · rw [hoffS]; exact wr_sameOff _ _ _ _
    · intro z hz
      have : z = 0 := by omega
      subst this
      rw [Nat.add_zero, rd_wr_same]
      have h1 := hkz 0 hsegp
      simp only [Nat.add_zero, psum] at h1 ⊢
      rw [show psum input.f (i * c.seg) + input.f (i * c.seg) - psum input.f (i * c.seg)
        = input.f (i * c.seg) by omega] at h1 ⊢
      exact Nat.mod_eq_of_lt h1
  · rintro j m1 hj1 hj2 ⟨hsm, hv⟩
    have hin0 := wf.key_in (off := off) (j := i * c.seg + j - 1) (by omega)
    have hin1 := wf.key_in (off := off) (j := i * c.seg + j) (by omega)
    rw [load_ok (by rw [hsm.size]; omega) (by rw [hsm.addr]; exact ha.key wf _)]
    simp only [ok_bind]
    rw [Vec.get_ok (by omega)]
    simp only [ok_bind]
    rw [store_ok (by rw [hsm.size]; omega) (by rw [hsm.addr]; exact ha.key wf _)]
    refine ⟨_, rfl, ?_, ?_⟩
    · rw [show i * c.seg + (j + 1) = i * c.seg + j + 1 by omega, hoffS]
      have := hoffM (show i * c.seg ≤ i * c.seg + j by omega)
      exact (hsm.mono (Nat.le_refl _) (by omega)).trans
        ((wr_sameOff _ _ _ _).mono this (Nat.le_refl _))
    · intro z hz
      by_cases e : z = j
      · subst e
        rw [rd_wr_same, Nat.mod_mod, show i * c.seg + z - 1 = i * c.seg + (z - 1) by omega,
          hv _ (by omega), show i * c.seg + (z - 1) + 1 = i * c.seg + z by omega]
        have h1 : psum input.f (i * c.seg) ≤ psum input.f (i * c.seg + z) := psum_mono _ (by omega)
        have h2 := hkz z (by omega)
        have h3 : psum input.f (i * c.seg + z + 1)
          = psum input.f (i * c.seg + z) + input.f (i * c.seg + z) := rfl
        rw [h3] at h2 ⊢
        rw [show psum input.f (i * c.seg + z) - psum input.f (i * c.seg) + input.f (i * c.seg + z)
          = psum input.f (i * c.seg + z) + input.f (i * c.seg + z) - psum input.f (i * c.seg) by omega]
        exact Nat.mod_eq_of_lt h2
      · have h1 := hoffM (show i * c.seg + z + 1 ≤ i * c.seg + j by omega)
        rw [hoffS] at h1
        rw [rd_wr_disj _ (by omega)]
        exact hv z (by omega)

/-- Contract of `Node::build` for every node class: whatever the buffer contained before,
the node holds the prefix sums of the input. -/
theorem nodeBuild_ok {b : Build} {c : NodeCfg} {input : Vec Nat} {off : Nat} {m : Mem}
    (wf : c.WF) (hlen : input.len = c.fanout) (hb : off + c.bytes ≤ m.size)
    (ha : AlignOK b c m.addr off)
    (hk : ∀ j, j < c.fanout →
      psum input.f (j + 1) - psum input.f (c.seg * (j / c.seg)) < 256 ^ c.keyB)
    (hs : ∀ s, s < c.num → psum input.f (s * c.seg) < 256 ^ c.sumB) :
    ∃ m', nodeBuild b c input off m = ok m' ∧ NodeRep c m' off (psum input.f) ∧
      SameOff m m' off (off + c.bytes) := by
  unfold nodeBuild fillZero
  rw [chk_ok hb (al := 1) (fun _ => Nat.mod_one _)]
  simp only [ok_bind, pure_eq]
  generalize hm0 : ({ m with byte := fun a => if off ≤ a ∧ a < off + c.bytes then 0 else m.byte a } : Mem) = m0
  have hs0 : SameOff m m0 off (off + c.bytes) := by
    rw [← hm0]
    exact ⟨rfl, rfl, fun a h => by simp only []; rw [if_neg (by omega)]⟩
  have hin0 := wf.sum_in (off := off) wf.num_pos
  have hsb := wf.sum_bytes
  rw [store_ok (by rw [hs0.size]; omega) (by rw [hs0.addr]; exact ha.sum wf _)]
  simp only [ok_bind]
  have hs1 := wr_sameOff m0 (c.sumOff off 0) c.sumB 0
  have hs01 : SameOff m (wr m0 (c.sumOff off 0) c.sumB 0) off (off + c.bytes) :=
    hs0.trans (hs1.mono (by omega) (by omega))
  have key := forN_inv (body := buildSeg b c input off)
    (fun i m' => SameOff m m' off (off + c.bytes) ∧
      (∀ s, s ≤ i → s < c.num → rd m' (c.sumOff off s) c.sumB = psum input.f (s * c.seg)) ∧
      (∀ j, j < i * c.seg → rd m' (c.keyOff off j) c.keyB
        = psum input.f (j + 1) - psum input.f (c.seg * (j / c.seg))))
    c.num (wr m0 (c.sumOff off 0) c.sumB 0) ⟨hs01, ?_, ?_⟩ ?_
  · obtain ⟨m', e, h1, h2, h3⟩ := key
    refine ⟨m', e, ⟨by rw [h1.size]; exact hb, fun s hsn => h2 s (by omega) hsn, ?_⟩, h1⟩
    intro j hj
    exact h3 j (by rw [← wf.fanout_eq]; exact hj)
  · intro s hs0' _
    have : s = 0 := by omega
    subst this
    rw [rd_wr_same, Nat.zero_mod, Nat.zero_mul]; rfl
  · intro j hj; rw [Nat.zero_mul] at hj; omega
  · rintro i m1 hi ⟨hsm, hsums, hkeys⟩
    obtain ⟨m2, e2, a1, a2, a3, a4, a5⟩ := buildSeg_ok (m := m1) wf hlen
      (by rw [hsm.size]; exact hb) (by rw [hsm.addr]; exact ha) hi hk hs
      (hsums i (Nat.le_refl _) hi)
    refine ⟨m2, e2, hsm.trans a1, ?_, ?_⟩
    · intro s hsi hsn
      by_cases e : s = i + 1
      · subst e; exact a3 hsn
      · rw [a2 s (by omega) hsn]; exact hsums s (by omega) hsn
    · intro j hj
      by_cases hji : j < i * c.seg
      · rw [a4 j hji]; exact hkeys j hji
      · rw [Nat.succ_mul] at hj
        have hz : j - i * c.seg < c.seg := by omega
        have he : j = i * c.seg + (j - i * c.seg) := by omega
        have hdiv : j / c.seg = i := by
          rw [he, Nat.add_comm, Nat.add_mul_div_right _ _ wf.seg_pos, Nat.div_eq_of_lt hz,
            Nat.zero_add]
        rw [hdiv, Nat.mul_comm c.seg i]
        have := a5 _ hz
        rwa [← he] at this

end MRS
