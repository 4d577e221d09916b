import Verif.Model.Bench
import Verif.Proofs.Util
import Verif.Proofs.Tests
import Verif.Proofs.BlockSelect

/-!
# Facts about the benchmarks of words and blocks
-/

set_option autoImplicit false

namespace MRS.Bench
open Outcome Spec

/-! ## Drawing queries -/

/-- From any moment on, the generator returns every word. -/
theorem smNth_later (seed v : Word) (t : Nat) : ∃ d, d < 2 ^ 64 ∧ smNth seed (t + d) = v := by
  obtain ⟨i, hi, e⟩ := smNth_surj seed v
  refine ⟨(i + (2 ^ 64 - t % 2 ^ 64)) % 2 ^ 64, Nat.mod_lt _ (by decide), ?_⟩
  rw [← e]
  refine (smNth_eq_iff seed _ _).2 ?_
  omega

/-- The words of the bucket that draw `t` chooses. -/
def start (W n : Nat) (seed : Word) (t : Nat) : Nat := (smNth seed t).toNat % (n / (64 * W)) * W

theorem start_le {W n : Nat} (hn : 64 * W ≤ n) (hW : 0 < W) (seed : Word) (t : Nat) :
    64 * (start W n seed t + W) ≤ n := by
  unfold start
  have h0 : 0 < n / (64 * W) := Nat.div_pos hn (by omega)
  have h1 := Nat.mod_lt (smNth seed t).toNat h0
  have h2 : ((smNth seed t).toNat % (n / (64 * W)) + 1) * (64 * W) ≤ n / (64 * W) * (64 * W) :=
    Nat.mul_le_mul_right _ h1
  have h3 := Nat.div_mul_le_self n (64 * W)
  rw [Nat.add_mul, Nat.one_mul, Nat.mul_left_comm] at h2
  omega

theorem bucket_ok {W n : Nat} (hn : 64 * W ≤ n) (hW : 0 < W) {bits : Vec Word}
    (hb : n ≤ 64 * bits.len) (hw : n < 2 ^ 64) (seed : Word) (t : Nat) :
    bucket W n seed bits t = ok ⟨bits, start W n seed t⟩ := by
  have h0 : 0 < n / (64 * W) := Nat.div_pos hn (by omega)
  have hs := start_le hn hW seed t
  have e : mul64 ((smNth seed t).toNat % (n / (64 * W))) (64 * W) = 64 * start W n seed t := by
    have h : (smNth seed t).toNat % (n / (64 * W)) * (64 * W) = 64 * start W n seed t := by
      unfold start; rw [Nat.mul_left_comm]
    rw [mul64_eq (by rw [h]; simp only [W64]; omega), h]
  unfold bucket mod64
  rw [if_neg (by omega), ok_bind]
  show (if mul64 ((smNth seed t).toNat % (n / (64 * W))) (64 * W) / 64 < bits.len then
    ok (⟨bits, mul64 ((smNth seed t).toNat % (n / (64 * W))) (64 * W) / 64⟩ : Ptr) else ub .oob) = _
  rw [e, Nat.mul_div_cancel_left _ (by decide), if_pos (by omega)]

section
variable {W n : Nat} (hn : 64 * W ≤ n) (hW : 0 < W) {bits : Vec Word} (hb : n ≤ 64 * bits.len)
  (hw : n < 2 ^ 64) (seed : Word)
include hn hW hb hw

theorem genPtrs_ok (m : Nat) : ∀ i, genPtrs W n seed bits m i =
    ok ((List.range m).map fun j => (⟨bits, start W n seed (i + j)⟩ : Ptr)) := by
  induction m with
  | zero => intro i; rfl
  | succ m ih =>
    intro i
    unfold genPtrs
    rw [bucket_ok hn hW hb hw, ok_bind, ih, ok_bind, List.range_succ_eq_map, List.map_cons,
      List.map_map]
    refine congrArg ok (congrArg (List.cons _) (List.map_congr_left fun j _ => ?_))
    show _ = (⟨bits, start W n seed (i + (j + 1))⟩ : Ptr)
    rw [show i + (j + 1) = i + 1 + j by omega]

theorem genFixed_ok {K : Nat} (hK : 0 < K) (m : Nat) : ∀ t, genFixed W K n seed bits m t =
    ok ((List.range m).map fun j => ((⟨bits, start W n seed (t + 2 * j)⟩ : Ptr),
      (smNth seed (t + 2 * j + 1)).toNat % K)) := by
  induction m with
  | zero => intro t; rfl
  | succ m ih =>
    intro t
    unfold genFixed mod64
    rw [bucket_ok hn hW hb hw, ok_bind, if_neg (by omega), ok_bind, ih, ok_bind,
      List.range_succ_eq_map, List.map_cons, List.map_map]
    refine congrArg ok (congrArg (List.cons _) (List.map_congr_left fun j _ => ?_))
    show _ = ((⟨bits, start W n seed (t + 2 * (j + 1))⟩ : Ptr), (smNth seed (t + 2 * (j + 1) + 1)).toNat % K)
    rw [show t + 2 * (j + 1) = t + 2 + 2 * j by omega]

/-- Drawing queries of `select` ends, and every query is one for an existing one. -/
theorem genSelect_ok {cnt : Ptr → Outcome Nat} {c : Ptr → Nat}
    (hc : ∀ x : Ptr, x.v = bits → x.base + W ≤ bits.len → cnt x = ok (c x))
    {q : Nat} (hq : q < n / (64 * W)) (hone : 0 < c ⟨bits, q * W⟩) (m : Nat) :
    ∀ fuel t, m * 2 ^ 64 ≤ fuel → ∃ qs, genSelect W n cnt seed bits fuel m t = ok qs ∧
      qs.length = m ∧ ∀ p ∈ qs, p.1.v = bits ∧ p.1.base % W = 0 ∧ 64 * (p.1.base + W) ≤ n ∧
        p.2 < c p.1 := by
  induction m with
  | zero =>
    intro fuel t _
    exact ⟨[], by cases fuel <;> rfl, rfl, by intro p hp; cases hp⟩
  | succ m ih =>
    have key : ∀ d fuel t, 0 < c ⟨bits, start W n seed (t + d)⟩ → d + 1 + m * 2 ^ 64 ≤ fuel →
        ∃ qs, genSelect W n cnt seed bits fuel (m + 1) t = ok qs ∧
        qs.length = m + 1 ∧ ∀ p ∈ qs, p.1.v = bits ∧ p.1.base % W = 0 ∧ 64 * (p.1.base + W) ≤ n ∧
          p.2 < c p.1 := by
      intro d
      induction d with
      | zero =>
        intro fuel t hd hf
        obtain ⟨f, rfl⟩ : ∃ f, fuel = f + 1 := ⟨fuel - 1, by omega⟩
        obtain ⟨qs, e, hl, hqs⟩ := ih f (t + 2) (by omega)
        have hs := start_le hn hW seed t
        have hd' : c ⟨bits, start W n seed t⟩ ≠ 0 := Nat.pos_iff_ne_zero.1 hd
        unfold genSelect mod64
        rw [bucket_ok hn hW hb hw, ok_bind, hc ⟨bits, start W n seed t⟩ rfl (show start W n seed t + W ≤ bits.len by omega), ok_bind, if_pos hd',
          if_neg hd', ok_bind, e, ok_bind]
        refine ⟨_, rfl, by rw [List.length_cons, hl], ?_⟩
        intro p hp
        rcases List.mem_cons.1 hp with rfl | hp
        · exact ⟨rfl, Nat.mul_mod_left _ _, hs, Nat.mod_lt _ hd⟩
        · exact hqs p hp
      | succ d ihd =>
        intro fuel t hd hf
        obtain ⟨f, rfl⟩ : ∃ f, fuel = f + 1 := ⟨fuel - 1, by omega⟩
        by_cases h : c ⟨bits, start W n seed t⟩ = 0
        · have hs := start_le hn hW seed t
          obtain ⟨qs, e, r⟩ := ihd f (t + 1) (by rw [show t + 1 + d = t + (d + 1) by omega]; exact hd)
            (by omega)
          refine ⟨qs, ?_, r⟩
          unfold genSelect
          rw [bucket_ok hn hW hb hw, ok_bind, hc ⟨bits, start W n seed t⟩ rfl (show start W n seed t + W ≤ bits.len by omega), ok_bind,
            if_neg (fun hne => hne h), e]
        · obtain ⟨qs, e, hl, hqs⟩ := ih f (t + 2) (by omega)
          have hs := start_le hn hW seed t
          unfold genSelect mod64
          rw [bucket_ok hn hW hb hw, ok_bind, hc ⟨bits, start W n seed t⟩ rfl (show start W n seed t + W ≤ bits.len by omega), ok_bind, if_pos h,
            if_neg h, ok_bind, e, ok_bind]
          refine ⟨_, rfl, by rw [List.length_cons, hl], ?_⟩
          intro p hp
          rcases List.mem_cons.1 hp with rfl | hp
          · exact ⟨rfl, Nat.mul_mod_left _ _, hs, Nat.mod_lt _ (Nat.pos_iff_ne_zero.2 h)⟩
          · exact hqs p hp
    intro fuel t hf
    have hlt : q < 2 ^ 64 := by
      have := Nat.div_le_self n (64 * W)
      omega
    obtain ⟨d, hd, e⟩ := smNth_later seed (BitVec.ofNat 64 q) t
    refine key d fuel t ?_ (by rw [Nat.add_mul] at hf; omega)
    have : start W n seed (t + d) = q * W := by
      unfold start
      rw [e, BitVec.toNat_ofNat, Nat.mod_eq_of_lt hlt, Nat.mod_eq_of_lt hq]
    rw [this]
    exact hone

theorem genSelect_congr {cnt cnt' : Ptr → Outcome Nat}
    (hc : ∀ x : Ptr, x.v = bits → x.base + W ≤ bits.len → cnt x = cnt' x) :
    ∀ fuel m t, genSelect W n cnt seed bits fuel m t = genSelect W n cnt' seed bits fuel m t := by
  intro fuel
  induction fuel with
  | zero => intro m t; cases m <;> rfl
  | succ f ih =>
    intro m t
    cases m with
    | zero => rfl
    | succ m =>
      have hs := start_le hn hW seed t
      unfold genSelect
      rw [bucket_ok hn hW hb hw, ok_bind, ok_bind,
        hc ⟨bits, start W n seed t⟩ rfl (show start W n seed t + W ≤ bits.len by omega)]
      simp only [ih]

/-- If no bucket has a one the loop never ends. -/
theorem genSelect_diverges {cnt : Ptr → Outcome Nat}
    (hc : ∀ x : Ptr, x.v = bits → x.base + W ≤ bits.len → cnt x = ok 0) (m : Nat) :
    ∀ fuel t, genSelect W n cnt seed bits fuel (m + 1) t = ub .diverges := by
  intro fuel
  induction fuel with
  | zero => intro t; rfl
  | succ f ih =>
    intro t
    have hs := start_le hn hW seed t
    unfold genSelect
    rw [bucket_ok hn hW hb hw, ok_bind, hc ⟨bits, start W n seed t⟩ rfl (show start W n seed t + W ≤ bits.len by omega), ok_bind,
      if_neg (fun h => h rfl), ih]

end

/-! ## The sums -/

theorem runQueries_ok {α : Type} {f : Nat → α → Outcome Nat} {v : α → Nat} (qs : List α)
    (h : ∀ i, ∀ q ∈ qs, f i q = ok (v q)) : ∀ i tmp, tmp < W64 →
    runQueries f qs i tmp = ok ((tmp + (qs.map v).sum) % W64) := by
  induction qs with
  | nil => intro i tmp ht; show ok tmp = _; rw [List.map_nil, List.sum_nil, Nat.add_zero, Nat.mod_eq_of_lt ht]
  | cons q qs ih =>
    intro i tmp _
    unfold runQueries
    rw [h i q List.mem_cons_self, ok_bind,
      ih (fun i q hq => h i q (List.mem_cons_of_mem _ hq)) _ (add64 tmp (v q)) (Nat.mod_lt _ (by decide)),
      List.map_cons, List.sum_cons]
    unfold add64
    rw [Nat.mod_add_mod, Nat.add_assoc]

/-- `measure` prints a hundred times the sum of the results. -/
theorem measure_ok {α : Type} {f : Nat → Nat → α → Outcome Nat} {v : α → Nat} {qs : List α}
    (h : ∀ run i, ∀ q ∈ qs, f run i q = ok (v q)) :
    measure f qs = ok (100 * (qs.map v).sum % W64) := by
  unfold measure
  obtain ⟨s, e, hs⟩ := forN_inv (body := fun run tmp => runQueries (f run) qs 0 tmp)
    (fun r tmp => tmp = r * (qs.map v).sum % W64) 100 0 (by rw [Nat.zero_mul]; rfl) (by
      intro i s _ hs
      refine ⟨_, runQueries_ok qs (fun j q hq => h i j q hq) 0 s
        (by rw [hs]; exact Nat.mod_lt _ (by decide)), ?_⟩
      rw [hs, Nat.mod_add_mod, Nat.add_mul, Nat.one_mul])
  rw [e, hs]

theorem runQueries_map {α : Type} {f : Nat → α → Outcome Nat} {q : Nat → α} {v : Nat → Nat}
    (h : ∀ i j, f i (q j) = ok (v j)) : ∀ (l : List Nat) i tmp, tmp < W64 →
    runQueries f (l.map q) i tmp = ok ((tmp + (l.map v).sum) % W64) := by
  intro l
  induction l with
  | nil => intro i tmp ht; show ok tmp = _; rw [List.map_nil, List.sum_nil, Nat.add_zero, Nat.mod_eq_of_lt ht]
  | cons j l ih =>
    intro i tmp _
    rw [List.map_cons]
    unfold runQueries
    rw [h i j, ok_bind, ih _ (add64 tmp (v j)) (Nat.mod_lt _ (by decide)), List.map_cons, List.sum_cons]
    unfold add64
    rw [Nat.mod_add_mod, Nat.add_assoc]

/-- The same if results are known by the number of the query. -/
theorem measure_map {α : Type} {f : Nat → Nat → α → Outcome Nat} {q : Nat → α} {v : Nat → Nat}
    (h : ∀ run i j, f run i (q j) = ok (v j)) (m : Nat) :
    measure f ((List.range m).map q) = ok (100 * ((List.range m).map v).sum % W64) := by
  unfold measure
  obtain ⟨s, e, hs⟩ := forN_inv (body := fun run tmp => runQueries (f run) ((List.range m).map q) 0 tmp)
    (fun r tmp => tmp = r * ((List.range m).map v).sum % W64) 100 0 (by rw [Nat.zero_mul]; rfl) (by
      intro i s _ hs
      refine ⟨_, runQueries_map (fun a j => h i a j) (List.range m) 0 s
        (by rw [hs]; exact Nat.mod_lt _ (by decide)), ?_⟩
      rw [hs, Nat.mod_add_mod, Nat.add_mul, Nat.one_mul])
  rw [e, hs]

/-! ## Algorithms -/

theorem loadVec_ok {x : Ptr} {W : Nat} {ws : Nat → Word} (hx : PtrOK x W ws) :
    ∃ c, loadVec W x = ok c ∧ ∀ j, j < W → c j = (ws j).toNat := by
  unfold loadVec
  obtain ⟨c, e, hc⟩ := forN_inv (body := fun j (c : Lanes) => do
      let w ← x.at j
      ok (fun l => if l = j then w.toNat else c l)) (fun k c => ∀ j, j < k → c j = (ws j).toNat)
    W (fun _ => 0) (by intro j hj; omega) (by
      intro i s hi hs
      refine ⟨fun l => if l = i then (ws i).toNat else s l, ?_, ?_⟩
      · rw [hx i hi, ok_bind]
      · intro j hj
        show (if j = i then _ else _) = _
        by_cases h : j = i
        · rw [if_pos h, h]
        · rw [if_neg h]; exact hs j (by omega))
  exact ⟨c, e, hc⟩

theorem accLoop_ok {x : Ptr} {W : Nat} {ws : Nat → Word} (hx : PtrOK x W ws) {n : Nat} (hn : n ≤ W) :
    forN n (fun j s => do
      let w ← x.at j
      ok (add64 s w.toNat)) 0 = ok (psum (fun j => (ws j).toNat) n % W64) := by
  obtain ⟨s, e, hs⟩ := forN_inv (body := fun j s => do
      let w ← x.at j
      ok (add64 s w.toNat)) (fun r s => s = psum (fun j => (ws j).toNat) r % W64) n 0 rfl (by
      intro i s hi hs
      refine ⟨_, by rw [hx i (by omega), ok_bind], ?_⟩
      rw [hs, psum_succ]
      unfold add64
      rw [Nat.mod_add_mod])
  rw [e, hs]

theorem accumulate_ok {x : Ptr} {W : Nat} {ws : Nat → Word} (hx : PtrOK x W ws) :
    accumulate W x = ok (psum (fun j => (ws j).toNat) W % W64) := accLoop_ok hx (Nat.le_refl _)

theorem prefixLoop_ok {x : Ptr} {W : Nat} {ws : Nat → Word} (hx : PtrOK x W ws) {k : Nat} (hk : k < W) :
    prefixLoop x k = ok (psum (fun j => (ws j).toNat) (k + 1) % W64) := accLoop_ok hx hk

theorem prefixUnrolled_ok {x : Ptr} {W : Nat} {ws : Nat → Word} (hx : PtrOK x W ws) (g : Nat → Nat)
    {k : Nat} (hk : k < W) :
    prefixUnrolled W g x k = ok (psum (fun j => (ws j).toNat) (k + 1) % W64) := by
  unfold prefixUnrolled
  rw [hx 0 (by omega), ok_bind, Vec.set_ok (v := ⟨W, g⟩) _ (show 0 < W by omega), ok_bind]
  obtain ⟨v, e, hl, hv⟩ := forN_inv (body := fun j (sums : Vec Nat) => do
    let prev ← sums.get j
    let w ← x.at (j + 1)
    sums.set (j + 1) (add64 prev w.toNat))
    (fun r (v : Vec Nat) => v.len = W ∧ ∀ j, j ≤ r → v.f j = psum (fun j => (ws j).toNat) (j + 1) % W64)
    (W - 1) (⟨W, fun j => if j = 0 then (ws 0).toNat else g j⟩ : Vec Nat) (by
      refine ⟨rfl, ?_⟩
      intro j hj
      obtain rfl : j = 0 := by omega
      show (if 0 = 0 then (ws 0).toNat else g 0) = _
      rw [if_pos rfl]
      show _ = (0 + (ws 0).toNat) % W64
      rw [Nat.zero_add, Nat.mod_eq_of_lt (ws 0).isLt]) (by
      rintro i v hi ⟨hl, hv⟩
      refine ⟨⟨v.len, fun j => if j = i + 1 then add64 (v.f i) (ws (i + 1)).toNat else v.f j⟩,
        by rw [Vec.get_ok (show i < v.len by omega), ok_bind, hx (i + 1) (by omega), ok_bind,
          Vec.set_ok _ (show i + 1 < v.len by omega)], hl, ?_⟩
      intro j hj
      show (if j = i + 1 then _ else v.f j) = _
      by_cases h : j = i + 1
      · rw [if_pos h, h, hv i (Nat.le_refl _), psum_succ _ (i + 1)]
        unfold add64
        rw [Nat.mod_add_mod]
      · rw [if_neg h]; exact hv j (by omega))
  rw [e, ok_bind, Vec.get_ok (by omega), hv k (by omega)]

theorem psums8 (x : Nat → Nat) : psum x 1 = x 0 ∧ psum x 2 = x 0 + x 1 ∧ psum x 3 = x 0 + x 1 + x 2 ∧
    psum x 4 = x 0 + x 1 + x 2 + x 3 ∧ psum x 5 = x 0 + x 1 + x 2 + x 3 + x 4 ∧
    psum x 6 = x 0 + x 1 + x 2 + x 3 + x 4 + x 5 ∧ psum x 7 = x 0 + x 1 + x 2 + x 3 + x 4 + x 5 + x 6 ∧
    psum x 8 = x 0 + x 1 + x 2 + x 3 + x 4 + x 5 + x 6 + x 7 := by
  simp [psum]

/-- A prefix-sum instruction sequence is right modulo `2^64`. -/
def PsMod (W : Nat) (ps : Lanes → Lanes) : Prop :=
  ∀ x : Lanes, (∀ j, j < W → x j < W64) → ∀ j, j < W → ps x j = psum x (j + 1) % W64

theorem psMod256 : PsMod 4 prefixsum256 := by
  intro x hx j hj
  obtain ⟨p1, p2, p3, p4, -⟩ := psums8 x
  have h0 := hx 0 (by omega)
  have h1 := hx 1 (by omega)
  have h2 := hx 2 (by omega)
  have h3 := hx 3 (by omega)
  simp only [W64] at h0 h1 h2 h3
  have : j = 0 ∨ j = 1 ∨ j = 2 ∨ j = 3 := by omega
  rcases this with rfl | rfl | rfl | rfl <;> simp only [Nat.reduceAdd, p1, p2, p3, p4] <;>
    simp [prefixsum256, permutex, addL, mmShuffle, Nat.testBit_eq_decide_div_mod_eq, add64, W64] <;> omega

theorem psMod512 : PsMod 8 prefixsum512 := by
  intro x hx j hj
  obtain ⟨p1, p2, p3, p4, p5, p6, p7, p8⟩ := psums8 x
  have h0 := hx 0 (by omega)
  simp only [W64] at h0
  have : j = 0 ∨ j = 1 ∨ j = 2 ∨ j = 3 ∨ j = 4 ∨ j = 5 ∨ j = 6 ∨ j = 7 := by omega
  rcases this with rfl | rfl | rfl | rfl | rfl | rfl | rfl | rfl <;>
    simp only [Nat.reduceAdd, p1, p2, p3, p4, p5, p6, p7, p8] <;>
    simp [prefixsum512, permutexvar, addL, Nat.testBit_eq_decide_div_mod_eq, add64, W64] <;> omega

theorem prefixParallel_ok {x : Ptr} {W : Nat} {ws : Nat → Word} {ps : Lanes → Lanes} (hps : PsMod W ps)
    (hx : PtrOK x W ws) {k : Nat} (hk : k < W) :
    prefixParallel W ps x k = ok (psum (fun j => (ws j).toNat) (k + 1) % W64) := by
  unfold prefixParallel
  obtain ⟨c, e, hc⟩ := loadVec_ok hx
  rw [e, ok_bind, Vec.get_ok (show k < W from hk)]
  show ok (ps c k) = _
  rw [hps c (fun j hj => by rw [hc j hj]; exact (ws j).isLt) k hk,
    psum_congr (fun j (hj : j < k + 1) => hc j (by omega))]

/-- Word `q` is where `k` falls, `r` is what remains of `k` there. -/
theorem bucket_exists {f : Nat → Nat} {k : Nat} : ∀ W, k < psum f W → ∃ q, q < W ∧ psum f q ≤ k ∧
    k < psum f (q + 1) := by
  intro W
  induction W with
  | zero => intro h; exact absurd h (Nat.not_lt_zero _)
  | succ W ih =>
    intro h
    rcases Nat.lt_or_ge k (psum f W) with h1 | h1
    · obtain ⟨q, hq, r⟩ := ih h1
      exact ⟨q, by omega, r⟩
    · exact ⟨W, by omega, h1, h⟩

theorem searchFrom_ok {x : Ptr} {W : Nat} {ws : Nat → Word} (hx : PtrOK x W ws) {k q : Nat} (hq : q < W)
    (h1 : psum (fun j => (ws j).toNat) q ≤ k) (h2 : k < psum (fun j => (ws j).toNat) (q + 1))
    (hk : k < W64) : ∀ fuel i cnt, i ≤ q → i + fuel = W →
      searchFrom x fuel i (k - psum (fun j => (ws j).toNat) i) cnt
        = ok (k - psum (fun j => (ws j).toNat) q, (ws q).toNat) := by
  intro fuel
  induction fuel with
  | zero => intro i cnt hi hf; omega
  | succ fuel ih =>
    intro i cnt hi hf
    unfold searchFrom
    rw [hx i (by omega), ok_bind]
    have hs : psum (fun j => (ws j).toNat) (i + 1) = psum (fun j => (ws j).toNat) i + (ws i).toNat := rfl
    by_cases h : i = q
    · subst h
      rw [if_pos (by omega)]
    · have hm := psum_mono (fun j => (ws j).toNat) (show i + 1 ≤ q by omega)
      rw [if_neg (by omega), sub64_eq (by omega) (by omega),
        show k - psum (fun j => (ws j).toNat) i - (ws i).toNat =
          k - psum (fun j => (ws j).toNat) (i + 1) by omega, ih (i + 1) _ (by omega) (by omega)]

/-- What `search` should return: the rest of `k` in the word where it falls. -/
def IsRest (f : Nat → Nat) (W k r : Nat) : Prop := ∃ q, q < W ∧ k = psum f q + r ∧ r < f q

theorem isRest_unique {f : Nat → Nat} {W k r r' : Nat} (h : IsRest f W k r) (h' : IsRest f W k r') :
    r = r' := by
  obtain ⟨q, _, e, l⟩ := h
  obtain ⟨q', _, e', l'⟩ := h'
  have s : psum f (q + 1) = psum f q + f q := rfl
  have s' : psum f (q' + 1) = psum f q' + f q' := rfl
  rcases Nat.lt_trichotomy q q' with hl | hl | hl
  · have := psum_mono f (show q + 1 ≤ q' from hl); omega
  · subst hl; omega
  · have := psum_mono f (show q' + 1 ≤ q from hl); omega

theorem searchLoop_ok (b : Build) {x : Ptr} {W : Nat} {ws : Nat → Word} (hx : PtrOK x W ws) {k : Nat}
    (hk : k < psum (fun j => (ws j).toNat) W) (hk64 : k < W64) :
    ∃ r, searchLoop b W x k = ok r ∧ IsRest (fun j => (ws j).toNat) W k r := by
  obtain ⟨q, hq, h1, h2⟩ := bucket_exists W hk
  have e := searchFrom_ok hx hq h1 h2 hk64 W 0 0 (Nat.zero_le _) (Nat.zero_add _)
  have hs : psum (fun j => (ws j).toNat) (q + 1) = psum (fun j => (ws j).toNat) q + (ws q).toNat := rfl
  have hlt : k - psum (fun j => (ws j).toNat) q < (ws q).toNat := by omega
  refine ⟨k - psum (fun j => (ws j).toNat) q, ?_, q, hq, by omega, hlt⟩
  unfold searchLoop
  rw [psum_zero, Nat.sub_zero] at e
  rw [e, ok_bind, massert_ok (decide_eq_true hlt), ok_bind]

theorem toS8_half {v : Nat} (h : v < 2 ^ 63) : toS 8 v = (v : Int) := by
  unfold toS
  simp only []
  rw [Nat.mod_eq_of_lt (by omega), if_pos (by omega)]

theorem searchVec_ok {x : Ptr} {W : Nat} (hW : W = 4 ∨ W = 8) {ws : Nat → Word} {ps : Lanes → Lanes}
    (hps : PsMod W ps) (hx : PtrOK x W ws) {g : Nat → Nat} (hg : g 0 = 0) {k : Nat}
    (hk : k < psum (fun j => (ws j).toNat) W) (ht : psum (fun j => (ws j).toNat) W < 2 ^ 63) :
    ∃ r, searchVec W ps g x k = ok r ∧ IsRest (fun j => (ws j).toNat) W k r := by
  obtain ⟨q, hq, h1, h2⟩ := bucket_exists W hk
  have hs : psum (fun j => (ws j).toNat) (q + 1) = psum (fun j => (ws j).toNat) q + (ws q).toNat := rfl
  have hlt : k - psum (fun j => (ws j).toNat) q < (ws q).toNat := by omega
  refine ⟨k - psum (fun j => (ws j).toNat) q, ?_, q, hq, by omega, hlt⟩
  obtain ⟨c, e, hc⟩ := loadVec_ok hx
  have hb : ∀ j, j ≤ W → psum (fun j => (ws j).toNat) j < 2 ^ 63 := fun j hj =>
    Nat.lt_of_le_of_lt (psum_mono _ hj) ht
  have hl : ∀ j, j < W → ps c j = psum (fun j => (ws j).toNat) (j + 1) := by
    intro j hj
    have := hb (j + 1) hj
    rw [hps c (fun j hj => by rw [hc j hj]; exact (ws j).isLt) j hj,
      psum_congr (fun l (hl : l < j + 1) => hc l (by omega)), Nat.mod_eq_of_lt (by simp only [W64]; omega)]
  have hmask : cmpleMask W (ps c) k = maskReg W fun j => decide (j < q) := by
    unfold cmpleMask
    apply maskReg_congr
    intro j hj
    have hbj := hb (j + 1) hj
    rw [hl j hj, toS8_half hbj, toS8_half (show k < 2 ^ 63 by omega)]
    apply decide_eq_decide.2
    constructor
    · intro h
      rcases Nat.lt_or_ge j q with hh | hh
      · exact hh
      · have := psum_mono (fun j => (ws j).toNat) (show q + 1 ≤ j + 1 by omega)
        omega
    · intro h
      have := psum_mono (fun j => (ws j).toNat) (show j + 1 ≤ q by omega)
      omega
  have hget : (storeSums W g (ps c)).get q = ok (psum (fun j => (ws j).toNat) q) := by
    rw [Vec.get_ok (show q < W + 1 by omega)]
    show ok (if q = 0 then g 0 else if q ≤ W then ps c (q - 1) else g q) = _
    by_cases h : q = 0
    · rw [if_pos h, hg, h]; rfl
    · rw [if_neg h, if_pos (by omega), hl (q - 1) (by omega), show q - 1 + 1 = q by omega]
  unfold searchVec
  rw [e, ok_bind, hmask, ltCnt_thr hW (by omega), ok_bind, hget, ok_bind,
    sub64_eq h1 (by simp only [W64]; omega)]

theorem popcountWords_ok (b : Build) {pcm : Nat} (hp : pcm ≤ 1) {x : Ptr} {W : Nat} (hW : W ≤ 8)
    {ws : Nat → Word} (hx : PtrOK x W ws) : popcountWords b W pcm x = ok (fcnt ws (64 * W)) := by
  rw [fcnt_words, ← sumLoop_ok (C := fun j => ok (wones ws j)) hW (fun _ _ => rfl) (Nat.le_refl W)]
  obtain ⟨s, e, hs⟩ := forN_inv (body := fun j tmp => do
    let w ← x.at j
    let c ← popcountU64 b pcm w
    ok (add64 tmp c)) (fun k s => s = psum (wones ws) k) W 0 rfl (by
      intro i s hi hs
      have h1 := psum_wones_lt ws (show i + 1 ≤ W by omega) hW
      refine ⟨psum (wones ws) (i + 1), ?_, rfl⟩
      rw [hx i hi, ok_bind, popcountU64_ok b hp, ok_bind, hs]
      show ok (add64 (psum (wones ws) i) (wones ws i)) = _
      rw [add64_eq]
      · rfl
      · show psum (wones ws) (i + 1) < W64
        exact Nat.lt_of_le_of_lt h1 (by decide))
  unfold popcountWords
  rw [e, hs, sumLoop_ok (C := fun j => ok (wones ws j)) hW (fun _ _ => rfl) (Nat.le_refl W)]

theorem rank64Query_ok (b : Build) {x : Ptr} {ws : Nat → Word} (hx : PtrOK x 1 ws) {k : Nat} (hk : k < 64) :
    rank64Query b x k = ok (wcnt (ws 0) ((k + 63) % 64 + 1)) := by
  unfold rank64Query
  obtain ⟨m, hm, hbits⟩ := rankMask_ok hk
  rw [hx 0 (by omega), ok_bind, hm, ok_bind, popcountU64_ok b (Nat.le_refl _), wcnt_mask _ _ _ hbits]
  · by_cases h : k = 0
    · rw [if_pos h, h]
    · rw [if_neg h, show (k + 63) % 64 + 1 = k by omega]
  · by_cases h : k = 0
    · rw [if_pos h]; omega
    · rw [if_neg h]; omega

/-- Words of counts: word `i` is the number of ones of word `i` of the bitmap. -/
theorem countWords_ok (b : Build) (bits : Vec Word) :
    ∃ cnts, countWords b bits = ok cnts ∧ cnts.len = bits.len ∧
      ∀ i, i < bits.len → (cnts.f i).toNat = wcnt (bits.f i) 64 := by
  obtain ⟨v, e, hl, hv⟩ := forN_inv (body := fun i (cnts : Vec Word) => do
    let w ← bits.get i
    let c ← popcountU64 b 1 w
    cnts.set i (BitVec.ofNat 64 c))
    (fun r (v : Vec Word) => v.len = bits.len ∧ ∀ i, i < r → (v.f i).toNat = wcnt (bits.f i) 64)
    bits.len (Vec.ofList (List.replicate bits.len 0#64))
    ⟨List.length_replicate, by intro i hi; omega⟩ (by
      rintro i v hi ⟨hl, hv⟩
      refine ⟨⟨v.len, fun j => if j = i then BitVec.ofNat 64 (wcnt (bits.f i) 64) else v.f j⟩,
        by rw [Vec.get_ok hi, ok_bind, popcountU64_ok b (Nat.le_refl _), ok_bind,
          Vec.set_ok _ (show i < v.len by omega)], hl, ?_⟩
      intro j hj
      show (if j = i then _ else v.f j).toNat = _
      by_cases h : j = i
      · rw [if_pos h, h, BitVec.toNat_ofNat, Nat.mod_eq_of_lt]
        exact Nat.lt_of_le_of_lt (ncnt_le _ _) (by decide)
      · rw [if_neg h]; exact hv j (by omega))
  exact ⟨v, e, hl, hv⟩

/-- `genSearch` when no bucket is empty. -/
theorem genSearch_ok {W n : Nat} (hn : 64 * W ≤ n) (hW : 0 < W) {cnts : Vec Word}
    (hb : n ≤ 64 * cnts.len) (hw : n < 2 ^ 64) (seed : Word)
    (hs : ∀ t, psum (fun j => (cnts.f (start W n seed t + j)).toNat) W < W64 ∧
      0 < psum (fun j => (cnts.f (start W n seed t + j)).toNat) W) (m : Nat) :
    ∀ t, genSearch W n seed cnts m t =
    ok ((List.range m).map fun j => ((⟨cnts, start W n seed (t + 2 * j)⟩ : Ptr),
      (smNth seed (t + 2 * j + 1)).toNat %
        psum (fun l => (cnts.f (start W n seed (t + 2 * j) + l)).toNat) W)) := by
  induction m with
  | zero => intro t; rfl
  | succ m ih =>
    intro t
    have hl := start_le hn hW seed t
    obtain ⟨h1, h2⟩ := hs t
    have hx : PtrOK ⟨cnts, start W n seed t⟩ W (fun j => cnts.f (start W n seed t + j)) :=
      fun j hj => Vec.get_ok (by show start W n seed t + j < cnts.len; omega)
    unfold genSearch mod64
    rw [bucket_ok hn hW hb hw, ok_bind, accumulate_ok hx, ok_bind, Nat.mod_eq_of_lt h1,
      if_neg (by omega), ok_bind, ih, ok_bind, List.range_succ_eq_map, List.map_cons, List.map_map]
    refine congrArg ok (congrArg (List.cons _) (List.map_congr_left fun j _ => ?_))
    show _ = ((⟨cnts, start W n seed (t + 2 * (j + 1))⟩ : Ptr), (smNth seed (t + 2 * (j + 1) + 1)).toNat %
        psum (fun l => (cnts.f (start W n seed (t + 2 * (j + 1)) + l)).toNat) W)
    rw [show t + 2 * (j + 1) = t + 2 + 2 * j by omega]

/-- `genSearch` divides by zero as soon as the first draw hits an empty bucket. -/
theorem genSearch_zero {W n : Nat} (hn : 64 * W ≤ n) (hW : 0 < W) {cnts : Vec Word}
    (hb : n ≤ 64 * cnts.len) (hw : n < 2 ^ 64) (seed : Word) (m t : Nat)
    (h0 : psum (fun j => (cnts.f (start W n seed t + j)).toNat) W = 0) :
    genSearch W n seed cnts (m + 1) t = ub .divZero := by
  have hl := start_le hn hW seed t
  have hx : PtrOK ⟨cnts, start W n seed t⟩ W (fun j => cnts.f (start W n seed t + j)) :=
    fun j hj => Vec.get_ok (by show start W n seed t + j < cnts.len; omega)
  unfold genSearch mod64
  rw [bucket_ok hn hW hb hw, ok_bind, accumulate_ok hx, ok_bind, h0, if_pos (Nat.zero_mod _)]
  rfl

/-! ## Vectors of counts -/

theorem foldl_last {W : Nat} (qs : List Ptr) : ∀ {s : Option Lanes},
    (∀ x ∈ qs, ∃ ws, PtrOK x W ws) → ∃ r, qs.foldl (fun (s : Outcome (Option Lanes)) x => do
      let _ ← s
      let v ← popcountVec W x
      ok (some v)) (ok s) = ok r ∧ (qs = [] → r = s) ∧
      (∀ x, qs.getLast? = some x → ∃ v, popcountVec W x = ok v ∧ r = some v) := by
  induction qs with
  | nil => intro s _; exact ⟨s, rfl, fun _ => rfl, by intro x hx; cases hx⟩
  | cons x qs ih =>
    intro s h
    obtain ⟨ws, hx⟩ := h x List.mem_cons_self
    obtain ⟨v, e, -⟩ := popcountVec_ok hx
    obtain ⟨r, er, h0, h1⟩ := ih (s := some v) (fun y hy => h y (List.mem_cons_of_mem _ hy))
    refine ⟨r, ?_, (fun h => by cases h), ?_⟩
    · rw [List.foldl_cons, ok_bind, e, ok_bind, er]
    · intro y hy
      cases qs with
      | nil =>
        obtain rfl : x = y := by simpa using hy
        exact ⟨v, e, h0 rfl⟩
      | cons z zs => exact h1 y (by rwa [List.getLast?_cons_cons] at hy)

theorem foldl_lanes {pc : Ptr → Outcome Lanes} {c : Ptr → Nat} (qs : List Ptr) :
    ∀ {s : Lanes}, (∀ x ∈ qs, ∃ v, pc x = ok v ∧ v 0 = c x) → s 0 < W64 →
    ∃ r, qs.foldl (fun (s : Outcome Lanes) x => do
      let tmp ← s
      let v ← pc x
      ok (fun l => add64 (tmp l) (v l))) (ok s) = ok r ∧ r 0 = (s 0 + (qs.map c).sum) % W64 := by
  induction qs with
  | nil =>
    intro s _ hs
    exact ⟨s, rfl, by rw [List.map_nil, List.sum_nil, Nat.add_zero, Nat.mod_eq_of_lt hs]⟩
  | cons x qs ih =>
    intro s h _
    obtain ⟨v, e, hv⟩ := h x List.mem_cons_self
    obtain ⟨r, er, hr⟩ := ih (s := fun l => add64 (s l) (v l))
      (fun y hy => h y (List.mem_cons_of_mem _ hy)) (Nat.mod_lt _ (by decide))
    refine ⟨r, by rw [List.foldl_cons, ok_bind, e, ok_bind, er], ?_⟩
    rw [hr, List.map_cons, List.sum_cons, hv]
    unfold add64
    rw [Nat.mod_add_mod, Nat.add_assoc]

theorem measureLanes_ok {pc : Ptr → Outcome Lanes} {c : Ptr → Nat} {qs : List Ptr}
    (h : ∀ x ∈ qs, ∃ v, pc x = ok v ∧ v 0 = c x) :
    measureLanes pc qs = ok (100 * (qs.map c).sum % W64) := by
  unfold measureLanes
  obtain ⟨s, e, hs⟩ := forN_inv (body := fun _ (tmp : Lanes) =>
    qs.foldl (fun (s : Outcome Lanes) x => do
      let tmp ← s
      let v ← pc x
      ok (fun l => add64 (tmp l) (v l))) (ok tmp))
    (fun r (tmp : Lanes) => tmp 0 = r * (qs.map c).sum % W64) 100 (fun _ => 0)
    (by rw [Nat.zero_mul]; rfl) (by
      intro i s _ hs
      obtain ⟨r, er, hr⟩ := foldl_lanes (s := s) qs h (by rw [hs]; exact Nat.mod_lt _ (by decide))
      refine ⟨r, er, ?_⟩
      rw [hr, hs, Nat.mod_add_mod, Nat.add_mul, Nat.one_mul])
  rw [e, ok_bind, hs]

theorem measureLast_ok {W : Nat} (hW : 0 < W) {qs : List Ptr} {x : Ptr} {ws : Nat → Word}
    (h : ∀ y ∈ qs, ∃ ws, PtrOK y W ws) (hl : qs.getLast? = some x) (hx : PtrOK x W ws) :
    measureLast W qs = ok (wcnt (ws 0) 64) := by
  obtain ⟨v, e, hv⟩ := popcountVec_ok hx
  unfold measureLast
  obtain ⟨s, es, hs⟩ := forN_inv (body := fun _ (tmp : Option Lanes) =>
    qs.foldl (fun (s : Outcome (Option Lanes)) x => do
      let _ ← s
      let v ← popcountVec W x
      ok (some v)) (ok tmp))
    (fun r (tmp : Option Lanes) => 0 < r → tmp = some v) 100 none (by intro h; omega) (by
      intro i s _ _
      obtain ⟨r, er, _, hr⟩ := foldl_last (W := W) (s := s) qs h
      obtain ⟨v', e', hv'⟩ := hr x hl
      rw [e] at e'
      exact ⟨r, er, fun _ => by rw [hv', Outcome.ok.inj e']⟩)
  rw [es, ok_bind, hs (by decide)]
  show ok (v 0) = _
  rw [hv 0 hW]
  rfl

end MRS.Bench
