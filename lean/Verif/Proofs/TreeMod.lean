import Verif.Proofs.TreeLoose

/-! # Sums after arbitrary updates are right modulo `2^16` -/

set_option autoImplicit false

namespace MRS
open Outcome Spec

/-- Congruence modulo `2^16`, the range of the narrowest numbers in the trees. -/
def Cg (v : Nat) (x : Int) : Prop := (65536 : Int) ∣ (v : Int) - x

theorem Cg.add64 {v v' : Nat} {x x' : Int} (h : Cg v x) (h' : Cg v' x') : Cg (add64 v v') (x + x') := by
  unfold Cg at *
  unfold MRS.add64
  simp only [W64]
  omega

theorem Cg.eq {v : Nat} {x y : Int} (h : Cg v x) (e : x = y) : Cg v y := e ▸ h

theorem load_inv {b : Build} {m : Mem} {off w x : Nat} (h : load b m off w = ok x) : x = rd m off w := by
  obtain ⟨_, _, e⟩ := bind_ok_inv h
  exact (Outcome.ok.inj e).symm

section
variable {b : Build} {c : NodeCfg} {m : Mem} {off j v : Nat} {S : Nat → Int}

theorem pow_dvd {w : Nat} (hw : 2 ≤ w) : (65536 : Int) ∣ ((256 ^ w : Nat) : Int) := by
  have h : (256 : Nat) ^ 2 ∣ 256 ^ w := Nat.pow_dvd_pow 256 hw
  have := Int.natCast_dvd_natCast.2 h
  exact this

theorem nodeSum_cong (wf : c.WF) (h : NodeCong c m off S) (hj : j < c.fanout) (e : nodeSum b c m off j = ok v) :
    Cg v (S (j + 1)) := by
  have hk : 2 ≤ c.keyB := by rcases wf.key_w with h | h <;> omega
  have hs : 2 ≤ c.sumB := by rcases wf.sum_w with h | h <;> omega
  obtain ⟨_, _, e⟩ := bind_ok_inv e
  obtain ⟨s, es, e⟩ := bind_ok_inv e
  obtain ⟨k, ek, e⟩ := bind_ok_inv e
  have ev : v = (s + k) % 256 ^ c.sumB := (Outcome.ok.inj e).symm
  have h1 := Int.dvd_trans (pow_dvd hs) (h.sums (j / c.seg) (wf.seg_lt hj))
  have h2 := Int.dvd_trans (pow_dvd hk) (h.keys j hj)
  have h3 := Int.dvd_trans (pow_dvd hs) (dvd_of_mod (show v % 256 ^ c.sumB = (s + k) % 256 ^ c.sumB by
    rw [ev, Nat.mod_mod]))
  rw [← load_inv es] at h1
  rw [← load_inv ek] at h2
  rw [Nat.mul_comm] at h1
  unfold Cg
  rw [Int.natCast_add] at h3
  omega

end

section
variable {b : Build} {ZI ZL : Nat → Int} {n : Nat} {m : Mem} {c : NodeCfg} {step off o idx child lo hi v : Nat}

theorem inner_piece (wf : c.WF) (h : ∀ idx, idx < ceilDiv n (c.fanout * step) →
      NodeCong c m (off + idx * c.bytes) (innerI ZI (idx * (c.fanout * step)) step))
    (e : nodeSum b c m o child = ok v) (ho : o = off + idx * c.bytes) (hi' : idx < ceilDiv n (c.fanout * step))
    (hc : child < c.fanout) (hlo : lo = idx * (c.fanout * step)) (hhi : hi = lo + child * step) :
    Cg v (isum ZI hi - isum ZI lo) := by
  subst ho hlo hhi
  have := nodeSum_cong wf (h idx hi') hc e
  unfold innerI at this
  rw [Nat.add_sub_cancel] at this
  exact this

theorem leaf_piece (wf : c.WF) (h : ∀ idx, idx < ceilDiv n c.fanout →
      NodeCong c m (off + idx * c.bytes) (leafI ZL (idx * c.fanout)))
    (e : nodeSum b c m o child = ok v) (ho : o = off + idx * c.bytes) (hi' : idx < ceilDiv n c.fanout)
    (hc : child < c.fanout) (hlo : lo = idx * c.fanout) (hhi : hi = lo + child + 1) :
    Cg v (isum ZL hi - isum ZL lo) := by
  subst ho hlo hhi
  exact nodeSum_cong wf (h idx hi') hc e

end

theorem sum_cong {fam : TreeFam} {b : Build} {H n i v : Nat} {ZI ZL : Nat → Int} {t : Tree} (hH : 1 ≤ H)
    (hM : H ≤ fam.maxH) (ft : Facts fam b H n t) (h : LvlCong ZI ZL n t.mem fam.leaf (4 * H) (fam.cs H)) (hi : i < n)
    (hZ : ∀ j, j ≤ i → ZL j = ZI j) (e : fam.sum b H t i = ok v) : Cg v (isum ZI (i + 1)) := by
  have hpos := ft.npos
  have hnle := ft.nle
  have hz : ∀ k, k ≤ i + 1 → isum ZL k = isum ZI k := fun k hk => isum_congr fun j hj => hZ j (by omega)
  have z0 : isum ZI 0 = 0 := rfl
  cases fam with
  | avx2 =>
    have : H = 1 ∨ H = 2 ∨ H = 3 ∨ H = 4 := by
      have : H ≤ 4 := hM
      omega
    obtain ⟨_, _, e⟩ := bind_ok_inv (show avx2Sum b H t i = ok v from e)
    rcases this with rfl | rfl | rfl | rfl
    · have hsp : n ≤ 128 := ft.nspan
      have e : avx2Sum1 b t i = ok v := e
      unfold avx2Sum1 at e
      rw [ft.base, ok_bind] at e
      have c1 := leaf_piece (idx := 0) (lo := 0) (hi := i + 1) avx2Node128_wf h e (by omega)
        (by show 0 < (n + 128 - 1) / 128; omega) (show i < 128 by omega) (by omega) (by omega)
      rw [hz _ (Nat.le_refl _), hz 0 (by omega)] at c1
      exact c1.eq (by omega)
    · have hsp : n ≤ 8192 := ft.nspan
      have hc : ceilDiv n (64 * 128) = 1 := by show (n + 8192 - 1) / 8192 = 1; omega
      have e : avx2Sum2 b t i = ok v := e
      unfold avx2Sum2 at e
      rw [ft.base, ok_bind] at e
      obtain ⟨s1, e1, e⟩ := bind_ok_inv e
      obtain ⟨s2, e2, e⟩ := bind_ok_inv e
      rw [← Outcome.ok.inj e]
      have c1 := inner_piece (idx := 0) (lo := 0) (hi := i / 128 * 128) avx2Node64_wf h.1 e1 (by omega)
        (by show 0 < ceilDiv n (64 * 128); omega) (show i / 128 < 64 by omega) (by omega)
        (show _ = 0 + i / 128 * 128 by omega)
      have c2 := leaf_piece (idx := i / 128) (lo := i / 128 * 128) (hi := i + 1) avx2Node128_wf h.2 e2
        (by
          show 8 + add64 288 (mul64 (i / 128) 288) = 8 + ceilDiv n (64 * 128) * 288 + i / 128 * 288
          rw [hc]
          arith64)
        (by show _ < (n + 128 - 1) / 128; omega) (show i % 128 < 128 by omega) rfl (by omega)
      rw [hz _ (Nat.le_refl _), hz _ (by omega)] at c2
      exact (c1.add64 c2).eq (by omega)
    · have hsp : n ≤ 524288 := ft.nspan
      have hc : ceilDiv n (64 * (64 * 128)) = 1 := by show (n + 524288 - 1) / 524288 = 1; omega
      have hN1 : ceilDiv n (64 * 128) ≤ 64 := by show (n + 8192 - 1) / 8192 ≤ 64; omega
      have e : avx2Sum3 b t i = ok v := e
      unfold avx2Sum3 at e
      rw [ft.base, ok_bind, ft.nn 1 _ rfl, ok_bind] at e
      obtain ⟨s1, e1, e⟩ := bind_ok_inv e
      obtain ⟨s2, e2, e⟩ := bind_ok_inv e
      obtain ⟨s3, e3, e⟩ := bind_ok_inv e
      rw [← Outcome.ok.inj e]
      have c1 := inner_piece (idx := 0) (lo := 0) (hi := i / 8192 * 8192) avx2Node64_wf h.1 e1 (by omega)
        (by show 0 < ceilDiv n (64 * (64 * 128)); omega) (show i / (128 * 64) < 64 by omega) (by omega)
        (show _ = 0 + i / (128 * 64) * (64 * 128) by omega)
      have c2 := inner_piece (idx := i / 8192) (lo := i / 8192 * 8192) (hi := i / 128 * 128) avx2Node64_wf h.2.1 e2
        (by
          show 12 + mul64 (add64 (i / (128 * 64)) 1) 288 = 12 + ceilDiv n (64 * (64 * 128)) * 288 + i / 8192 * 288
          rw [hc]
          arith64)
        (by show _ < (n + 8192 - 1) / 8192; omega) (show i % (128 * 64) / 128 < 64 by omega)
        (show _ = i / 8192 * (64 * 128) by omega) (show _ = i / 8192 * 8192 + i % (128 * 64) / 128 * 128 by omega)
      have c3 := leaf_piece (idx := i / 128) (lo := i / 128 * 128) (hi := i + 1) avx2Node128_wf h.2.2 e3
        (by
          show 12 + add64 (mul64 ((1 + ceilDiv n (64 * 128)) % 2 ^ 32) 288)
            (mul64 (add64 (i % (128 * 64) / 128) (mul64 (i / (128 * 64)) 64)) 288)
            = 12 + ceilDiv n (64 * (64 * 128)) * 288 + ceilDiv n (64 * 128) * 288 + i / 128 * 288
          rw [hc]
          arith64)
        (by show _ < (n + 128 - 1) / 128; omega) (show i % (128 * 64) % 128 < 128 by omega) rfl (by omega)
      rw [hz _ (Nat.le_refl _), hz _ (by omega)] at c3
      exact ((c1.add64 c2).add64 c3).eq (by omega)
    · have hsp : n ≤ 16777216 := ft.nspan
      have hc : ceilDiv n (32 * (64 * (64 * 128))) = 1 := by show (n + 16777216 - 1) / 16777216 = 1; omega
      have hN1 : ceilDiv n (64 * (64 * 128)) ≤ 32 := by show (n + 524288 - 1) / 524288 ≤ 32; omega
      have hN2 : ceilDiv n (64 * 128) ≤ 2048 := by show (n + 8192 - 1) / 8192 ≤ 2048; omega
      have e : avx2Sum4 b t i = ok v := e
      unfold avx2Sum4 at e
      rw [ft.base, ok_bind, ft.nn 1 _ rfl, ok_bind, ft.nn 2 _ rfl, ok_bind] at e
      obtain ⟨s1, e1, e⟩ := bind_ok_inv e
      obtain ⟨s2, e2, e⟩ := bind_ok_inv e
      obtain ⟨s3, e3, e⟩ := bind_ok_inv e
      obtain ⟨s4, e4, e⟩ := bind_ok_inv e
      rw [← Outcome.ok.inj e]
      have c1 := inner_piece (idx := 0) (lo := 0) (hi := i / 524288 * 524288) avx2Node32_wf h.1 e1 (by omega)
        (by show 0 < ceilDiv n (32 * (64 * (64 * 128))); omega) (show i / (128 * 64 * 64) < 32 by omega) (by omega)
        (show _ = 0 + i / (128 * 64 * 64) * (64 * (64 * 128)) by omega)
      have c2 := inner_piece (idx := i / 524288) (lo := i / 524288 * 524288) (hi := i / 8192 * 8192) avx2Node64_wf h.2.1 e2
        (by
          show 16 + add64 160 (mul64 (i / (128 * 64 * 64)) 288)
            = 16 + ceilDiv n (32 * (64 * (64 * 128))) * 160 + i / 524288 * 288
          rw [hc]
          arith64)
        (by show _ < (n + 524288 - 1) / 524288; omega) (show i % (128 * 64 * 64) / (128 * 64) < 64 by omega)
        (show _ = i / 524288 * (64 * (64 * 128)) by omega)
        (show _ = i / 524288 * 524288 + i % (128 * 64 * 64) / (128 * 64) * (64 * 128) by omega)
      have c3 := inner_piece (idx := i / 8192) (lo := i / 8192 * 8192) (hi := i / 128 * 128) avx2Node64_wf h.2.2.1 e3
        (by
          show 16 + add64 (add64 160 (mul64 (ceilDiv n (64 * (64 * 128))) 288))
            (mul64 (add64 (i % (128 * 64 * 64) / (128 * 64)) (mul64 (i / (128 * 64 * 64)) 64)) 288)
            = 16 + ceilDiv n (32 * (64 * (64 * 128))) * 160 + ceilDiv n (64 * (64 * 128)) * 288 + i / 8192 * 288
          rw [hc]
          arith64)
        (by show _ < (n + 8192 - 1) / 8192; omega) (show i % (128 * 64) / 128 < 64 by omega)
        (show _ = i / 8192 * (64 * 128) by omega) (show _ = i / 8192 * 8192 + i % (128 * 64) / 128 * 128 by omega)
      have c4 := leaf_piece (idx := i / 128) (lo := i / 128 * 128) (hi := i + 1) avx2Node128_wf h.2.2.2 e4
        (by
          show 16 + add64 (add64 160 (mul64 ((ceilDiv n (64 * (64 * 128)) + ceilDiv n (64 * 128)) % 2 ^ 32) 288))
            (mul64 (add64 (add64 (i % (128 * 64) / 128) (mul64 (i % (128 * 64 * 64) / (128 * 64)) 64))
              (mul64 (mul64 (i / (128 * 64 * 64)) 64) 64)) 288)
            = 16 + ceilDiv n (32 * (64 * (64 * 128))) * 160 + ceilDiv n (64 * (64 * 128)) * 288
              + ceilDiv n (64 * 128) * 288 + i / 128 * 288
          rw [hc]
          arith64)
        (by show _ < (n + 128 - 1) / 128; omega) (show i % (128 * 64) % 128 < 128 by omega) rfl (by omega)
      rw [hz _ (Nat.le_refl _), hz _ (by omega)] at c4
      exact (((c1.add64 c2).add64 c3).add64 c4).eq (by omega)
  | avx512 =>
    have : H = 1 ∨ H = 2 ∨ H = 3 := by
      have : H ≤ 3 := hM
      omega
    obtain ⟨_, _, e⟩ := bind_ok_inv (show avx512Sum b H t i = ok v from e)
    rcases this with rfl | rfl | rfl
    · have hsp : n ≤ 512 := ft.nspan
      have e : avx512Sum1 b t i = ok v := e
      unfold avx512Sum1 at e
      rw [ft.base, ok_bind] at e
      have c1 := leaf_piece (idx := 0) (lo := 0) (hi := i + 1) avx512Node512_wf h e (by omega)
        (by show 0 < (n + 512 - 1) / 512; omega) (show i < 512 by omega) (by omega) (by omega)
      rw [hz _ (Nat.le_refl _), hz 0 (by omega)] at c1
      exact c1.eq (by omega)
    · have hsp : n ≤ 131072 := ft.nspan
      have hc : ceilDiv n (256 * 512) = 1 := by show (n + 131072 - 1) / 131072 = 1; omega
      have e : avx512Sum2 b t i = ok v := e
      unfold avx512Sum2 at e
      rw [ft.base, ok_bind] at e
      obtain ⟨s1, e1, e⟩ := bind_ok_inv e
      obtain ⟨s2, e2, e⟩ := bind_ok_inv e
      rw [← Outcome.ok.inj e]
      have c1 := inner_piece (idx := 0) (lo := 0) (hi := i / 512 * 512) avx512Node256_wf h.1 e1 (by omega)
        (by show 0 < ceilDiv n (256 * 512); omega) (show i / 512 < 256 by omega) (by omega)
        (show _ = 0 + i / 512 * 512 by omega)
      have c2 := leaf_piece (idx := i / 512) (lo := i / 512 * 512) (hi := i + 1) avx512Node512_wf h.2 e2
        (by
          show 8 + add64 1088 (mul64 (i / 512) 1088) = 8 + ceilDiv n (256 * 512) * 1088 + i / 512 * 1088
          rw [hc]
          arith64)
        (by show _ < (n + 512 - 1) / 512; omega) (show i % 512 < 512 by omega) rfl (by omega)
      rw [hz _ (Nat.le_refl _), hz _ (by omega)] at c2
      exact (c1.add64 c2).eq (by omega)
    · have hsp : n ≤ 16777216 := ft.nspan
      have hc : ceilDiv n (128 * (256 * 512)) = 1 := by show (n + 16777216 - 1) / 16777216 = 1; omega
      have hN1 : ceilDiv n (256 * 512) ≤ 128 := by show (n + 131072 - 1) / 131072 ≤ 128; omega
      have e : avx512Sum3 b t i = ok v := e
      unfold avx512Sum3 at e
      rw [ft.base, ok_bind, ft.nn 1 _ rfl, ok_bind] at e
      obtain ⟨s1, e1, e⟩ := bind_ok_inv e
      obtain ⟨s2, e2, e⟩ := bind_ok_inv e
      obtain ⟨s3, e3, e⟩ := bind_ok_inv e
      rw [← Outcome.ok.inj e]
      have c1 := inner_piece (idx := 0) (lo := 0) (hi := i / 131072 * 131072) avx512Node128_wf h.1 e1 (by omega)
        (by show 0 < ceilDiv n (128 * (256 * 512)); omega) (show i / (512 * 256) < 128 by omega) (by omega)
        (show _ = 0 + i / (512 * 256) * (256 * 512) by omega)
      have c2 := inner_piece (idx := i / 131072) (lo := i / 131072 * 131072) (hi := i / 512 * 512) avx512Node256_wf h.2.1 e2
        (by
          show 12 + add64 576 (mul64 (i / (512 * 256)) 1088)
            = 12 + ceilDiv n (128 * (256 * 512)) * 576 + i / 131072 * 1088
          rw [hc]
          arith64)
        (by show _ < (n + 131072 - 1) / 131072; omega) (show i % (512 * 256) / 512 < 256 by omega)
        (show _ = i / 131072 * (256 * 512) by omega)
        (show _ = i / 131072 * 131072 + i % (512 * 256) / 512 * 512 by omega)
      have c3 := leaf_piece (idx := i / 512) (lo := i / 512 * 512) (hi := i + 1) avx512Node512_wf h.2.2 e3
        (by
          show 12 + add64 (add64 576 (mul64 (ceilDiv n (256 * 512)) 1088))
            (mul64 (add64 (i % (512 * 256) / 512) (mul64 (i / (512 * 256)) 256)) 1088)
            = 12 + ceilDiv n (128 * (256 * 512)) * 576 + ceilDiv n (256 * 512) * 1088 + i / 512 * 1088
          rw [hc]
          arith64)
        (by show _ < (n + 512 - 1) / 512; omega) (show i % (512 * 256) % 512 < 512 by omega) rfl (by omega)
      rw [hz _ (Nat.le_refl _), hz _ (by omega)] at c3
      exact ((c1.add64 c2).add64 c3).eq (by omega)

theorem netSum_eq (vals : List Nat) (us : List (Nat × Bool)) (k : Nat) :
    netSum vals us k = isum (fun j => (arr vals j : Int) + (us.map fun u => unitI u.1 u.2 j).sum) k := by
  unfold netSum
  induction k with
  | zero => rfl
  | succ k ih =>
    rw [List.range_succ, List.map_append, List.sum_append, ih]
    show _ + (net vals us k + 0) = _
    rw [net_eq]
    show _ = isum _ k + (_ + _)
    omega

/-- `sum` after arbitrary updates. -/
theorem TreeFam.Valid.sum_mod {fam : TreeFam} {b : Build} {H M addr : Nat} {vals : List Nat} {us : List (Nat × Bool)}
    (h : fam.Valid b H M addr vals) (hu : ∀ u ∈ us, u.1 < vals.length) :
    ∃ t, fam.run b H addr vals us = Outcome.ok t ∧ ∀ i, i < vals.length →
      ∃ v, fam.sum b H t i = Outcome.ok v ∧ Cg v (netSum vals us (i + 1)) := by
  obtain ⟨t, e, B, hB1, hB2, hL⟩ := h.loose
  obtain ⟨t', e', hL'⟩ := hL.updates us hu
  obtain ⟨t2, e2, _, hS⟩ := h.shaped
  have et : t2 = t := Outcome.ok.inj (e2.symm.trans e)
  subst et
  obtain ⟨t3, e3, hS'⟩ := hS.updates us hu
  have et : t3 = t' := Outcome.ok.inj (e3.symm.trans e')
  subst et
  refine ⟨t3, by unfold TreeFam.run; rw [e, ok_bind, e3], fun i hi => ?_⟩
  obtain ⟨v, ev⟩ := hS'.sum hi
  refine ⟨v, ev, ?_⟩
  obtain ⟨r, hr, hl⟩ := hL'.shape
  have ft := hr.facts hL'.num hL'.ptr hl
  rw [List.length_replicate] at ft
  rw [netSum_eq]
  refine sum_cong hL'.lo hL'.hi ft hL'.cong (Nat.lt_of_lt_of_le hi (le_padTo (leaf_wf fam).fanout_pos)) (fun j hj => ?_) ev
  show (B j : Int) + _ = (arr vals j : Int) + _
  rw [hB1 j (by omega)]

end MRS
