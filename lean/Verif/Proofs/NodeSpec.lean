import Verif.Proofs.TreeSpec

/-!
# Node classes against lists of values
-/

set_option autoImplicit false

namespace MRS
open Outcome Spec

theorem total_mono (vals : List Nat) {a b : Nat} (h : a ≤ b) : total vals a ≤ total vals b := by
  rw [← psum_arr, ← psum_arr]; exact psum_mono _ h

theorem nodeClasses_wf {c : NodeCfg} (h : c ∈ nodeClasses) : c.WF := by
  simp only [nodeClasses, List.mem_cons, List.not_mem_nil, or_false] at h
  rcases h with rfl | rfl | rfl | rfl | rfl | rfl
  · exact avx2Node128_wf
  · exact avx2Node64_wf
  · exact avx2Node32_wf
  · exact avx512Node512_wf
  · exact avx512Node256_wf
  · exact avx512Node128_wf

section
variable {b : Build} {c : NodeCfg} {vals : List Nat} {m : Mem} {off : Nat}

theorem NodeCfg.Fits.keys (h : c.Fits vals) (wf : c.WF) {j : Nat} (hj : j < c.fanout) :
    total vals (j + 1) - total vals (c.seg * (j / c.seg)) ≤
      total vals ((j / c.seg + 1) * c.seg) - total vals (j / c.seg * c.seg) := by
  have h2 := Nat.lt_mul_div_succ j wf.seg_pos
  have h3 : total vals (j + 1) ≤ total vals ((j / c.seg + 1) * c.seg) :=
    total_mono vals (by rw [Nat.mul_comm]; exact h2)
  rw [Nat.mul_comm c.seg]
  omega

theorem NodeCfg.Fits.key_lt (h : c.Fits vals) (wf : c.WF) {j : Nat} (hj : j < c.fanout) :
    total vals (j + 1) - total vals (c.seg * (j / c.seg)) < 256 ^ c.keyB :=
  Nat.lt_of_le_of_lt (h.keys wf hj) (h.seg _ (wf.seg_lt hj))

theorem NodeCfg.Fits.sum_lt (h : c.Fits vals) (wf : c.WF) {s : Nat} (hs : s < c.num) :
    total vals (s * c.seg) < 256 ^ c.sumB :=
  Nat.lt_of_le_of_lt (total_mono vals (by
    rw [wf.fanout_eq]; exact Nat.mul_le_mul_right _ (by omega))) h.sum

theorem total_monoTo (vals : List Nat) (F : Nat) : MonoTo (total vals) F :=
  fun _ _ => total_mono vals (by omega)

theorem psum_arr_fun (vals : List Nat) : psum (arr vals) = total vals := funext (psum_arr vals)

theorem nodeBuild_fits (wf : c.WF) (hf : c.Fits vals) (hb : off + c.bytes ≤ m.size)
    (ha : AlignOK b c m.addr off) :
    ∃ m', nodeBuild b c ⟨vals.length, fun j => vals.getD j 0⟩ off m = ok m' ∧
      NodeRep c m' off (total vals) ∧ SameOff m m' off (off + c.bytes) := by
  have e : psum (fun j => vals.getD j 0) = total vals := psum_arr_fun vals
  have := nodeBuild_ok (b := b) (m := m) (input := ⟨vals.length, fun j => vals.getD j 0⟩) wf hf.len
    hb ha (by intro j hj; simp only [e]; exact hf.key_lt wf hj)
    (by intro s hs; simp only [e]; exact hf.sum_lt wf hs)
  simpa only [e] using this

theorem total_bump {i : Nat} {s : Bool} (hi : i < vals.length)
    (hp : s = true → 1 ≤ vals.getD i 0) (k : Nat) :
    total (Spec.bump vals i s) k = bumpS (total vals) i s k := by
  rw [← psum_arr, arr_bump hi, psum_updA (show s = true → 1 ≤ arr vals i from hp), psum_arr]; rfl

theorem nodeUpdate_fits {i : Nat} {s : Bool} (wf : c.WF) (hf : c.Fits vals)
    (hr : NodeRep c m off (total vals)) (ha : AlignOK b c m.addr off)
    (hu : UpOK b c m.addr off) (hi : i ≤ c.fanout)
    (hp : s = true → i < c.fanout → 1 ≤ vals.getD i 0) (hf' : c.Fits (Spec.bump vals i s)) :
    ∃ m', nodeUpdate b c m off i s = ok m' ∧ NodeRep c m' off (total (Spec.bump vals i s)) ∧
      SameOff m m' off (off + c.bytes) := by
  by_cases hiF : i = c.fanout
  · have e : Spec.bump vals i s = vals := by
      unfold Spec.bump; apply List.modify_eq_self; rw [hf.len]; omega
    rw [e]
    exact ⟨m, by simp [nodeUpdate, hiF], hr, SameOff.refl _ _ _⟩
  · have hi' : i < c.fanout := by omega
    have hil : i < vals.length := by rw [hf.len]; exact hi'
    have hfun : total (Spec.bump vals i s) = bumpS (total vals) i s :=
      funext (total_bump hil (fun h => hp h hi'))
    have hget : total vals (i + 1) = total vals i + vals.getD i 0 := by
      rw [← psum_arr, ← psum_arr]; rfl
    rw [hfun]
    refine nodeUpdate_ok wf hr ha hu (total_monoTo _ _) hi
      (fun h _ => by have := hp h hi'; omega) ?_ ?_
    · intro hs t ht
      have h1 := hf'.sum
      rw [hfun, hs] at h1
      unfold bumpS at h1
      rw [if_pos hi'] at h1
      simp only [Bool.false_eq_true, if_false] at h1
      have : total vals (t * c.seg) ≤ total vals c.fanout := total_mono vals (by
        rw [wf.fanout_eq]; exact Nat.mul_le_mul_right _ (by omega))
      omega
    · intro hs j hj hji
      have h1 := hf'.seg _ (wf.seg_lt hj)
      have h2 := hf.keys wf hj
      have h4 : i < (i / c.seg + 1) * c.seg := by
        rw [Nat.mul_comm]; exact Nat.lt_mul_div_succ i wf.seg_pos
      have h5 : i / c.seg * c.seg ≤ i := Nat.div_mul_le_self _ _
      have h3 : total vals (j / c.seg * c.seg) ≤ total vals ((j / c.seg + 1) * c.seg) :=
        total_mono vals (Nat.mul_le_mul_right _ (by omega))
      rw [hfun, hs] at h1
      unfold bumpS at h1
      rw [hji] at h1 h2 h3
      rw [if_pos h4, if_neg (show ¬ i < i / c.seg * c.seg by omega)] at h1
      simp only [Bool.false_eq_true, if_false] at h1
      rw [hji]
      omega

theorem nodeUpdates_fits (wf : c.WF) (us : List (Nat × Bool)) : ∀ (vals : List Nat) (m : Mem),
    c.Fits vals → NodeRep c m off (total vals) → AlignOK b c m.addr off → UpOK b c m.addr off →
    c.BumpsFit vals us →
    ∃ m', us.foldlM (fun m u => nodeUpdate b c m off u.1 u.2) m = ok m' ∧
      NodeRep c m' off (total (bumps vals us)) ∧ SameOff m m' off (off + c.bytes) ∧
      c.Fits (bumps vals us) := by
  induction us with
  | nil => intro vals m hf hr _ _ _; exact ⟨m, rfl, hr, SameOff.refl _ _ _, hf⟩
  | cons u us ih =>
    intro vals m hf hr ha ho hu
    obtain ⟨h1, h2, h3, h4⟩ := hu
    obtain ⟨m1, e1, r1, s1⟩ := nodeUpdate_fits wf hf hr ha ho h1 h2 h3
    obtain ⟨m2, e2, r2, s2, f2⟩ := ih _ m1 h3 r1 (by rw [s1.addr]; exact ha) (by rw [s1.addr]; exact ho) h4
    refine ⟨m2, ?_, r2, s1.trans s2, f2⟩
    rw [List.foldlM_cons, e1, ok_bind]
    exact e2

theorem nodeRun_ok (wf : c.WF) (hf : c.Fits vals) (hb : off + c.bytes ≤ m.size)
    (ha : AlignOK b c m.addr off) (ho : UpOK b c m.addr off) {us : List (Nat × Bool)}
    (hu : c.BumpsFit vals us) :
    ∃ m', nodeRun b c vals us m off = ok m' ∧ NodeRep c m' off (total (bumps vals us)) ∧
      SameOff m m' off (off + c.bytes) ∧ c.Fits (bumps vals us) := by
  obtain ⟨m1, e1, r1, s1⟩ := nodeBuild_fits (b := b) wf hf hb ha
  obtain ⟨m2, e2, r2, s2, f2⟩ := nodeUpdates_fits (b := b) wf us vals m1 hf r1
    (by rw [s1.addr]; exact ha) (by rw [s1.addr]; exact ho) hu
  refine ⟨m2, ?_, r2, s1.trans s2, f2⟩
  unfold nodeRun
  rw [e1, ok_bind]
  exact e2

theorem nodeSum_fits (wf : c.WF) (hf : c.Fits vals) (hr : NodeRep c m off (total vals))
    (ha : AlignOK b c m.addr off) {i : Nat} (hi : i < c.fanout) :
    nodeSum b c m off i = ok (total vals (i + 1)) :=
  nodeSum_ok wf hr ha (total_monoTo _ _) hi
    (Nat.lt_of_le_of_lt (total_mono vals (by omega)) hf.sum)

theorem nodeSearch_fits (wf : c.WF) (hf : c.Fits vals) (hr : NodeRep c m off (total vals))
    (ha : AlignOK b c m.addr off) {x : Nat} (hx : x < W64)
    (hs : c.simd b = true → c.SearchFits vals x)
    (hl : c.guard = .assertLt → x < total vals c.fanout) :
    ∃ p, nodeSearch b c m off x = ok (p, total vals p) ∧ p ≤ c.fanout ∧ total vals p ≤ x ∧
      (p < c.fanout → x < total vals (p + 1)) := by
  obtain ⟨p, e, hp⟩ := nodeSearch_ok wf hr ha (total_monoTo _ _) (by simp [total]) hx hf.sum
    (fun h => ⟨(hs h).arg, fun s hs' => Nat.lt_of_le_of_lt
        (Nat.mul_le_mul_left 2 (total_mono vals (by
          rw [wf.fanout_eq]; exact Nat.mul_le_mul_right _ (by omega)))) (hs h).sum,
      fun j hj _ => Or.inl (Nat.lt_of_le_of_lt (Nat.mul_le_mul_left 2 (hf.keys wf hj))
        ((hs h).seg _ (wf.seg_lt hj))), (hs h).last⟩) hl
  exact ⟨p, e, hp.le, hp.lo, hp.hi⟩

end

end MRS
