import Verif.Proofs.TreeCongRep
import Verif.SpecNet

/-!
# Segment trees after arbitrary updates

Every number in the tree is right modulo its range; so the tree is exact again as soon as all counters
are within their range, and `sum` is always right modulo `2^16`.
-/

set_option autoImplicit false

namespace MRS
open Outcome Spec

theorem leaf_wf (fam : TreeFam) : fam.leaf.WF := by
  cases fam
  · exact avx2Node128_wf
  · exact avx512Node512_wf

theorem cs_facts {fam : TreeFam} {H : Nat} (h1 : 1 ≤ H) (h2 : H ≤ fam.maxH) :
    (∀ c ∈ fam.cs H, c.WF) ∧ LvlFits 512 fam.leaf (fam.cs H) := by
  have nil : ∀ c ∈ ([] : List NodeCfg), c.WF := fun c hc => by cases hc
  have cons : ∀ {d : NodeCfg} {cs : List NodeCfg}, d.WF → (∀ c ∈ cs, c.WF) → ∀ c ∈ d :: cs, c.WF := by
    intro d cs hd hc c hm
    rcases List.mem_cons.1 hm with rfl | hm
    · exact hd
    · exact hc c hm
  cases fam with
  | avx2 =>
    have : H = 1 ∨ H = 2 ∨ H = 3 ∨ H = 4 := by
      have : H ≤ 4 := h2
      omega
    rcases this with rfl | rfl | rfl | rfl
    · exact ⟨nil, avx2_fits1⟩
    · exact ⟨cons avx2Node64_wf nil, avx2_fits2, avx2_fits1⟩
    · exact ⟨cons avx2Node64_wf (cons avx2Node64_wf nil), avx2_fits3, avx2_fits2, avx2_fits1⟩
    · exact ⟨cons avx2Node32_wf (cons avx2Node64_wf (cons avx2Node64_wf nil)), avx2_fits4, avx2_fits3, avx2_fits2, avx2_fits1⟩
  | avx512 =>
    have : H = 1 ∨ H = 2 ∨ H = 3 := by
      have : H ≤ 3 := h2
      omega
    rcases this with rfl | rfl | rfl
    · exact ⟨nil, avx512_fits1⟩
    · exact ⟨cons avx512Node256_wf nil, avx512_fits2, avx512_fits1⟩
    · exact ⟨cons avx512Node128_wf (cons avx512Node256_wf nil), avx512_fits3, avx512_fits2, avx512_fits1⟩

theorem NodeCfg.WF.fanout_pos {c : NodeCfg} (wf : c.WF) : 0 < c.fanout := by
  rw [wf.fanout_eq]; exact Nat.mul_pos wf.num_pos wf.seg_pos

theorem LvlFits.mono {M M' : Nat} (hM : M ≤ M') {leaf : NodeCfg} {cs : List NodeCfg} (h : LvlFits M' leaf cs) :
    LvlFits M leaf cs := by
  induction cs with
  | nil => exact LevelFits.mono h hM
  | cons c cs ih => exact ⟨h.1.mono hM, ih h.2⟩

/-- Padding to whole leaves changes neither the height nor the admissible sizes. -/
theorem pad_height {fam : TreeFam} {n : Nat} (_hn : 0 < n) (hle : n ≤ 2 ^ 24) :
    padTo fam.leaf n ≤ 2 ^ 24 ∧ fam.height (padTo fam.leaf n) = fam.height n := by
  cases fam with
  | avx2 =>
    have e : padTo (TreeFam.leaf .avx2) n = (n + 128 - 1) / 128 * 128 := rfl
    rw [e]
    refine ⟨by omega, ?_⟩
    show avx2Height _ = avx2Height _
    unfold avx2Height
    by_cases h1 : n ≤ 2 ^ 7
    · rw [if_pos h1, if_pos (show (n + 128 - 1) / 128 * 128 ≤ 2 ^ 7 by omega)]
    · rw [if_neg h1, if_neg (show ¬ (n + 128 - 1) / 128 * 128 ≤ 2 ^ 7 by omega)]
      by_cases h2 : n ≤ 2 ^ 13
      · rw [if_pos h2, if_pos (show (n + 128 - 1) / 128 * 128 ≤ 2 ^ 13 by omega)]
      · rw [if_neg h2, if_neg (show ¬ (n + 128 - 1) / 128 * 128 ≤ 2 ^ 13 by omega)]
        by_cases h3 : n ≤ 2 ^ 19
        · rw [if_pos h3, if_pos (show (n + 128 - 1) / 128 * 128 ≤ 2 ^ 19 by omega)]
        · rw [if_neg h3, if_neg (show ¬ (n + 128 - 1) / 128 * 128 ≤ 2 ^ 19 by omega), if_pos hle,
            if_pos (show (n + 128 - 1) / 128 * 128 ≤ 2 ^ 24 by omega)]
  | avx512 =>
    have e : padTo (TreeFam.leaf .avx512) n = (n + 512 - 1) / 512 * 512 := rfl
    rw [e]
    refine ⟨by omega, ?_⟩
    show avx512Height _ = avx512Height _
    unfold avx512Height
    by_cases h1 : n ≤ 2 ^ 9
    · rw [if_pos h1, if_pos (show (n + 512 - 1) / 512 * 512 ≤ 2 ^ 9 by omega)]
    · rw [if_neg h1, if_neg (show ¬ (n + 512 - 1) / 512 * 512 ≤ 2 ^ 9 by omega)]
      by_cases h2 : n ≤ 2 ^ 17
      · rw [if_pos h2, if_pos (show (n + 512 - 1) / 512 * 512 ≤ 2 ^ 17 by omega)]
      · rw [if_neg h2, if_neg (show ¬ (n + 512 - 1) / 512 * 512 ≤ 2 ^ 17 by omega), if_pos hle,
          if_pos (show (n + 512 - 1) / 512 * 512 ≤ 2 ^ 24 by omega)]

theorem padTo_idem {leaf : NodeCfg} (hF : 0 < leaf.fanout) (n : Nat) : padTo leaf (padTo leaf n) = padTo leaf n := by
  show ceilDiv (padTo leaf n) leaf.fanout * leaf.fanout = _
  rw [padTo_ceil hF hF (Nat.dvd_refl _)]
  rfl

/-- A tree for `n` counters whose values, as integers, are `ZI`, while the leaves hold `ZL`. -/
structure Loose (fam : TreeFam) (b : Build) (H n : Nat) (ZI ZL : Nat → Int) (t : Tree) : Prop where
  lo : 1 ≤ H
  hi : H ≤ fam.maxH
  size : t.size = n
  num : t.num = some 0
  ptr : t.ptr = some (4 * H)
  npos : 0 < n
  nle : n ≤ 2 ^ 24
  nspan : n ≤ span fam.leaf (fam.cs H)
  align : fam.Aligned b t.mem.addr n H
  up : fam.UpAligned b t.mem.addr H
  shape : ∃ r, TreeRep fam b H 2 (List.replicate (padTo fam.leaf n) 1) r ∧ Like H r.mem t.mem
  cong : LvlCong ZI ZL (padTo fam.leaf n) t.mem fam.leaf (4 * H) (fam.cs H)

section
variable {fam : TreeFam} {b : Build} {H M addr n : Nat} {vals : List Nat} {t : Tree} {ZI ZL : Nat → Int}

theorem cs_pos (h1 : 1 ≤ H) (h2 : H ≤ fam.maxH) : ∀ d ∈ fam.cs H, 0 < d.fanout :=
  fun d hd => ((cs_facts h1 h2).1 d hd).fanout_pos

theorem TreeFam.Valid.loose (h : fam.Valid b H M addr vals) :
    ∃ t, fam.build b H addr vals = Outcome.ok t ∧ ∃ B : Nat → Nat, (∀ j, j < vals.length → B j = arr vals j) ∧
      (∀ j, B j ≤ M) ∧ Loose fam b H vals.length (fun j => (arr vals j : Int)) (fun j => (B j : Int)) t := by
  obtain ⟨t, e, ht, ha⟩ := h.build
  have wl := leaf_wf fam
  obtain ⟨hp1, hp2⟩ := pad_height (fam := fam) h.pos h.le
  have hpos := Nat.lt_of_lt_of_le h.pos (le_padTo wl.fanout_pos)
  have hv : fam.Valid b H 2 addr (List.replicate (padTo fam.leaf vals.length) 1) :=
    ⟨by rw [List.length_replicate]; exact hpos, by rw [List.length_replicate]; exact hp1,
      by rw [List.length_replicate, hp2]; exact h.height, by decide,
      fun v hv => by rw [List.eq_of_mem_replicate hv]; decide,
      h.debug.imp_right fun _ => by cases fam <;> decide, h.align⟩
  obtain ⟨r, _, hr, ha'⟩ := hv.build
  have hc := cs_length ht.lo ht.hi
  have i := ht.inv
  have i' := hr.inv
  unfold TreeFam.Inv at i i'
  rw [List.length_replicate] at i'
  have hlike : Like H r.mem t.mem := by
    refine ⟨by rw [ha, ha'], by rw [i.msize, i'.msize, pad_bytes wl.fanout_pos (cs_pos ht.lo ht.hi)], fun l hlt => ?_⟩
    have hlen : l < (lvlCounts fam.leaf vals.length (fam.cs H)).length := by rw [lvlCounts_get, hc]; exact hlt
    have g := List.getElem?_eq_getElem hlen
    rw [i.hdr l _ g, i'.hdr l _ (by rw [pad_counts wl.fanout_pos (cs_pos ht.lo ht.hi)]; exact g)]
  obtain ⟨B, h1, h2, h3⟩ := LvlRep.cong wl (cs_facts ht.lo ht.hi).1 i.lvl
  refine ⟨t, e, B, h1, h2, ht.lo, ht.hi, i.size, i.num, by rw [i.ptr, hc], i.npos, i.nle, i.nspan, ht.align, ht.up,
    ⟨r, hr, hlike⟩, ?_⟩
  rw [hc] at h3
  exact (pad_cong wl.fanout_pos (cs_pos ht.lo ht.hi) _).2 h3

theorem Loose.update (h : Loose fam b H n ZI ZL t) {i : Nat} (s : Bool) (hi : i < n) :
    ∃ t', fam.update b H t i s = Outcome.ok t' ∧
      Loose fam b H n (fun j => ZI j + unitI i s j) (fun j => ZL j + unitI i s j) t' := by
  obtain ⟨r, hr, hl⟩ := h.shape
  have wl := leaf_wf fam
  have hin : i < padTo fam.leaf n := Nat.lt_of_lt_of_le hi (le_padTo wl.fanout_pos)
  have e1 : (List.replicate (padTo fam.leaf n) 1).getD i 0 = 1 := by
    rw [List.getD_eq_getElem?_getD, List.getElem?_replicate, if_pos hin]; rfl
  obtain ⟨r1, er, hr1⟩ := hr.update (i := i) (s := s) (by rw [List.length_replicate]; exact hin)
    (fun _ => by rw [e1]; exact Nat.le_refl 1) (fun _ => by rw [e1]; exact Nat.le_refl 2)
  have fr := hr.facts_self
  have ft := hr.facts h.num h.ptr hl
  rw [List.length_replicate] at fr ft
  have iv := hr.inv
  have iv1 := hr1.inv
  unfold TreeFam.Inv at iv iv1
  rw [bump_length, List.length_replicate] at iv1
  rw [List.length_replicate] at iv
  obtain ⟨t1, et, hA, _, hT⟩ := update_rel (s := s) h.lo h.hi fr ft hl hin (by rw [iv.size]; exact hin)
    (by rw [h.size]; exact hi) r1 er
  refine ⟨t1, et, h.lo, h.hi, by rw [hT]; exact h.size, by rw [hT]; exact h.num, by rw [hT]; exact h.ptr, h.npos, h.nle,
    h.nspan, ?_, ?_, ⟨r, hr, hA.both.2⟩, ?_⟩
  · rw [hA.both.2.addr, ← hl.addr]; exact h.align
  · rw [hA.both.2.addr, ← hl.addr]; exact h.up
  · have hc := cs_length h.lo h.hi
    have l0 := iv.lvl
    have l1 := iv1.lvl
    rw [hc] at l0 l1
    rw [arr_bump (by rw [List.length_replicate]; exact hin)] at l1
    refine LvlCong.step (updA_unit fun _ => by show 1 ≤ (List.replicate (padTo fam.leaf n) 1).getD i 0; rw [e1]; exact Nat.le_refl 1)
      (padTo_idem wl.fanout_pos n) (by rw [hA.both.2.size, hl.size]) wl (cs_facts h.lo h.hi).1 l0 l1
      (fun c p hc hn o w hlane => hA.par o w ⟨c, p, hc, hn, hlane⟩) h.cong

/-- All counters are within their range: the tree is exact. -/
theorem Loose.exact {A B : Nat → Nat} (h : Loose fam b H n ZI ZL t) (hM : M ≤ 512) (hZ : ZI = fun j => (A j : Int))
    (hL : ZL = fun j => (B j : Int)) (hA : ∀ j, A j ≤ M) (hB : ∀ j, B j ≤ M) (hAB : ∀ j, j < n → B j = A j)
    (hz : ∀ j, n ≤ j → A j = 0) : fam.Inv H M A n t := by
  have wl := leaf_wf fam
  have hc := cs_length h.lo h.hi
  obtain ⟨r, hr, hl⟩ := h.shape
  have i := hr.inv
  unfold TreeFam.Inv at i
  rw [List.length_replicate] at i
  have hcong := (pad_cong wl.fanout_pos (cs_pos h.lo h.hi) _).1 h.cong
  rw [hZ, hL] at hcong
  refine ⟨h.size, h.num, by rw [h.ptr, hc], h.npos, h.nspan, h.nle, hA, hz, ?_, fun l k hk => ?_, ?_⟩
  · rw [hl.size, i.msize, pad_bytes wl.fanout_pos (cs_pos h.lo h.hi)]
  · have hlt : l < H := by
      have := (List.getElem?_eq_some_iff.1 hk).1
      rw [lvlCounts_get, hc] at this
      exact this
    rw [hl.hdr l hlt]
    exact i.hdr l k (by rw [pad_counts wl.fanout_pos (cs_pos h.lo h.hi)]; exact hk)
  · rw [hc]
    exact LvlCong.rep wl hA hB hAB (cs_facts h.lo h.hi).1 ((cs_facts h.lo h.hi).2.mono hM) hcong

theorem Loose.updates (us : List (Nat × Bool)) : ∀ {t : Tree} {ZI ZL : Nat → Int}, Loose fam b H n ZI ZL t →
    (∀ u ∈ us, u.1 < n) → ∃ t', fam.updates b H t us = Outcome.ok t' ∧
      Loose fam b H n (fun j => ZI j + (us.map fun u => unitI u.1 u.2 j).sum)
        (fun j => ZL j + (us.map fun u => unitI u.1 u.2 j).sum) t' := by
  induction us with
  | nil =>
    intro t ZI ZL h _
    refine ⟨t, rfl, ?_⟩
    simpa using h
  | cons u us ih =>
    intro t ZI ZL h hu
    obtain ⟨t1, e1, h1⟩ := h.update u.2 (hu u List.mem_cons_self)
    obtain ⟨t2, e2, h2⟩ := ih h1 fun v hv => hu v (List.mem_cons_of_mem _ hv)
    refine ⟨t2, by unfold TreeFam.updates; rw [e1, ok_bind, e2], ?_⟩
    have e : ∀ Z : Nat → Int, (fun j => Z j + unitI u.1 u.2 j + (us.map fun u => unitI u.1 u.2 j).sum)
        = fun j => Z j + ((u :: us).map fun u => unitI u.1 u.2 j).sum := by
      intro Z
      funext j
      rw [List.map_cons, List.sum_cons, Int.add_assoc]
    rw [e, e] at h2
    exact h2

end

theorem net_eq (vals : List Nat) (us : List (Nat × Bool)) (j : Nat) :
    net vals us j = (arr vals j : Int) + (us.map fun u => unitI u.1 u.2 j).sum := by
  unfold net arr
  congr 2
  refine List.map_congr_left fun u _ => ?_
  unfold unitI stepI
  by_cases h : u.1 = j
  · rw [if_pos h, if_pos h.symm]
  · rw [if_neg h, if_neg fun e => h e.symm]

theorem unit_beyond {us : List (Nat × Bool)} {n j : Nat} (hu : ∀ u ∈ us, u.1 < n) (hj : n ≤ j) :
    (us.map fun u => unitI u.1 u.2 j).sum = 0 := by
  induction us with
  | nil => rfl
  | cons u us ih =>
    rw [List.map_cons, List.sum_cons, ih fun v hv => hu v (List.mem_cons_of_mem _ hv)]
    have := hu u List.mem_cons_self
    unfold unitI
    rw [if_neg (by omega)]; rfl

section
variable {fam : TreeFam} {b : Build} {H M addr : Nat} {vals ws : List Nat} {us : List (Nat × Bool)}

/-- Updates in any order leave an exact tree if the counters end up within their range. -/
theorem TreeFam.Valid.heals (h : fam.Valid b H M addr vals) (hu : ∀ u ∈ us, u.1 < vals.length)
    (hl : ws.length = vals.length) (hw : ∀ w ∈ ws, w ≤ M)
    (hn : ∀ j, j < vals.length → (ws.getD j 0 : Int) = net vals us j) :
    ∃ t, fam.run b H addr vals us = Outcome.ok t ∧ TreeRep fam b H M ws t := by
  obtain ⟨t, e, B, hB1, hB2, hL⟩ := h.loose
  obtain ⟨t', e', hL'⟩ := hL.updates us hu
  refine ⟨t', by unfold TreeFam.run; rw [e, ok_bind, e'], hL'.lo, hL'.hi, h.cap, ?_, by rw [hl]; exact hL'.align, hL'.up⟩
  rw [hl]
  refine hL'.exact (A := arr ws) (B := fun j => if j < vals.length then arr ws j else B j) h.cap ?_ ?_ (arr_le hw)
    (fun j => ?_) (fun j hj => if_pos hj) fun j hj => arr_ge (by omega)
  · funext j
    rw [← net_eq]
    by_cases hj : j < vals.length
    · exact (hn j hj).symm
    · rw [net_eq, unit_beyond hu (by omega), arr_ge (by omega), arr_ge (by omega)]; rfl
  · funext j
    show (B j : Int) + _ = ((if j < vals.length then arr ws j else B j : Nat) : Int)
    by_cases hj : j < vals.length
    · rw [if_pos hj, hB1 j hj, ← net_eq]
      exact (hn j hj).symm
    · rw [if_neg hj, unit_beyond hu (by omega)]; omega
  · show (if j < vals.length then arr ws j else B j) ≤ M
    by_cases hj : j < vals.length
    · rw [if_pos hj]; exact arr_le hw j
    · rw [if_neg hj]; exact hB2 j

end

end MRS
