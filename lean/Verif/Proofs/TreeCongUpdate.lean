import Verif.Proofs.TreeCong

/-! # `update` on two trees of the same shape -/

set_option autoImplicit false

namespace MRS
open Outcome Spec

/-- The numbers of nodes of the tree, where `t` has the shape of the tree `r`. -/
structure Facts (fam : TreeFam) (b : Build) (H n : Nat) (t : Tree) : Prop where
  npos : 0 < n
  nspan : n ≤ span fam.leaf (fam.cs H)
  nle : n ≤ 2 ^ 24
  base : t.base = ok (4 * H)
  nn : ∀ l k, (lvlCounts fam.leaf n (fam.cs H))[l]? = some k → t.nn b l = ok k

theorem cs_length {fam : TreeFam} {H : Nat} (h1 : 1 ≤ H) (h2 : H ≤ fam.maxH) : (fam.cs H).length + 1 = H := by
  cases fam with
  | avx2 =>
    have : H = 1 ∨ H = 2 ∨ H = 3 ∨ H = 4 := by
      have : H ≤ 4 := h2
      omega
    rcases this with rfl | rfl | rfl | rfl <;> rfl
  | avx512 =>
    have : H = 1 ∨ H = 2 ∨ H = 3 := by
      have : H ≤ 3 := h2
      omega
    rcases this with rfl | rfl | rfl <;> rfl

section
variable {fam : TreeFam} {b : Build} {H M : Nat} {vals : List Nat} {r t : Tree}

theorem TreeRep.facts (hr : TreeRep fam b H M vals r) (hnum : t.num = some 0) (hptr : t.ptr = some (4 * H))
    (hl : Like H r.mem t.mem) : Facts fam b H vals.length t := by
  have hc := cs_length hr.lo hr.hi
  have i := hr.inv
  unfold TreeFam.Inv at i
  refine ⟨i.npos, i.nspan, i.nle, Tree.base_ok hptr, fun l k hk => ?_⟩
  have hlt : l < H := by
    have := (List.getElem?_eq_some_iff.1 hk).1
    rw [lvlCounts_get, hc] at this
    exact this
  rw [Tree.nn_ok hnum (by rw [hl.size, i.msize, hc]; omega) (by rw [hl.addr]; exact hr.align.hdr), hl.hdr l hlt,
    i.hdr l k hk]

theorem TreeRep.facts_self (hr : TreeRep fam b H M vals r) : Facts fam b H vals.length r := by
  have i := hr.inv
  unfold TreeFam.Inv at i
  exact hr.facts i.num (by rw [i.ptr, cs_length hr.lo hr.hi]) (Like.refl H _)

/-- What `update` leaves: related counters, everything else untouched. -/
def After (fam : TreeFam) (H n : Nat) (r t r1 t1 : Tree) : Prop :=
  Rel H r.mem t.mem (TreeLane fam.leaf n (4 * H) (fam.cs H)) r1.mem t1.mem ∧
    r1 = { r with mem := r1.mem } ∧ t1 = { t with mem := t1.mem }

theorem update_rel {n i : Nat} {s : Bool} (hH : 1 ≤ H) (hM : H ≤ fam.maxH) (fr : Facts fam b H n r)
    (ft : Facts fam b H n t) (hl : Like H r.mem t.mem) (hi : i < n) (hr : i < r.size) (ht : i < t.size) :
    Sim (After fam H n r t) (fam.update b H r i s) (fam.update b H t i s) := by
  have hpos := fr.npos
  have hnle := fr.nle
  have h0 : Rel H r.mem t.mem (TreeLane fam.leaf n (4 * H) (fam.cs H)) r.mem t.mem := Rel.start hl
  have go : ∀ {m m' : Mem}, Rel H r.mem t.mem (TreeLane fam.leaf n (4 * H) (fam.cs H)) m m' →
      Sim (After fam H n r t) (Outcome.ok { r with mem := m }) (Outcome.ok { t with mem := m' }) :=
    fun hm => Sim.ok ⟨hm, rfl, rfl⟩
  cases fam with
  | avx2 =>
    have : H = 1 ∨ H = 2 ∨ H = 3 ∨ H = 4 := by
      have : H ≤ 4 := hM
      omega
    show Sim _ (avx2Update b H r i s) (avx2Update b H t i s)
    unfold avx2Update
    rw [massert_ok (decide_eq_true hr), massert_ok (decide_eq_true ht), ok_bind, ok_bind]
    rcases this with rfl | rfl | rfl | rfl
    · have hsp : n ≤ 128 := fr.nspan
      show Sim _ (avx2Update1 b r i s) (avx2Update1 b t i s)
      unfold avx2Update1
      rw [fr.base, ft.base, ok_bind, ok_bind]
      refine Sim.bind (nodeUpdate_rel h0 avx2Node128_wf (by omega) (show i ≤ 128 by omega) fun o w h => h.off ?_)
        fun _ _ h1 => go h1
      exact ⟨rfl, 0, by show 0 < (n + 128 - 1) / 128; omega, by omega⟩
    · have hsp : n ≤ 8192 := fr.nspan
      show Sim _ (avx2Update2 b r i s) (avx2Update2 b t i s)
      unfold avx2Update2
      rw [fr.base, ft.base, ok_bind, ok_bind]
      have hc : ceilDiv n (64 * 128) = 1 := by show (n + 8192 - 1) / 8192 = 1; omega
      refine Sim.bind (nodeUpdate_rel h0 avx2Node64_wf (by omega)
        (by show add64 _ 1 ≤ 64; unfold add64; simp only [W64]; omega) fun o w h => h.off ?_) fun _ _ h1 => ?_
      · exact .inl ⟨rfl, 0, by show 0 < ceilDiv n (64 * 128); omega, by omega⟩
      refine Sim.bind (nodeUpdate_rel h1 avx2Node128_wf (by omega) (show i % 128 ≤ 128 by omega) fun o w h => h.off ?_)
        fun _ _ h2 => go h2
      refine .inr ⟨rfl, i / 128, by show _ < (n + 128 - 1) / 128; omega, ?_⟩
      show 8 + add64 288 (mul64 (i / 128) 288) = 8 + ceilDiv n (64 * 128) * 288 + i / 128 * 288
      rw [hc]
      arith64
    · have hsp : n ≤ 524288 := fr.nspan
      show Sim _ (avx2Update3 b r i s) (avx2Update3 b t i s)
      unfold avx2Update3
      rw [fr.base, ft.base, ok_bind, ok_bind, fr.nn 1 _ rfl, ft.nn 1 _ rfl, ok_bind, ok_bind]
      have hc : ceilDiv n (64 * (64 * 128)) = 1 := by show (n + 524288 - 1) / 524288 = 1; omega
      have hN1 : ceilDiv n (64 * 128) ≤ 64 := by show (n + 8192 - 1) / 8192 ≤ 64; omega
      refine Sim.bind (nodeUpdate_rel h0 avx2Node64_wf (by omega)
        (by show add64 _ 1 ≤ 64; unfold add64; simp only [W64]; omega) fun o w h => h.off ?_) fun _ _ h1 => ?_
      · exact .inl ⟨rfl, 0, by show 0 < ceilDiv n (64 * (64 * 128)); omega, by omega⟩
      refine Sim.bind (nodeUpdate_rel h1 avx2Node64_wf (by omega)
        (by show add64 _ 1 ≤ 64; unfold add64; simp only [W64]; omega) fun o w h => h.off ?_) fun _ _ h2 => ?_
      · refine .inr (.inl ⟨rfl, i / 8192, by show _ < (n + 8192 - 1) / 8192; omega, ?_⟩)
        show 12 + mul64 (add64 (i / (128 * 64)) 1) 288 = 12 + ceilDiv n (64 * (64 * 128)) * 288 + i / 8192 * 288
        rw [hc]
        arith64
      refine Sim.bind (nodeUpdate_rel h2 avx2Node128_wf (by omega) (show i % (128 * 64) % 128 ≤ 128 by omega)
        fun o w h => h.off ?_) fun _ _ h3 => go h3
      refine .inr (.inr ⟨rfl, i / 128, by show _ < (n + 128 - 1) / 128; omega, ?_⟩)
      show 12 + add64 (mul64 ((1 + ceilDiv n (64 * 128)) % 2 ^ 32) 288)
        (mul64 (add64 (i % (128 * 64) / 128) (mul64 (i / (128 * 64)) 64)) 288)
        = 12 + ceilDiv n (64 * (64 * 128)) * 288 + ceilDiv n (64 * 128) * 288 + i / 128 * 288
      rw [hc]
      arith64
    · have hsp : n ≤ 16777216 := fr.nspan
      show Sim _ (avx2Update4 b r i s) (avx2Update4 b t i s)
      unfold avx2Update4
      rw [fr.base, ft.base, ok_bind, ok_bind, fr.nn 1 _ rfl, ft.nn 1 _ rfl, ok_bind, ok_bind, fr.nn 2 _ rfl,
        ft.nn 2 _ rfl, ok_bind, ok_bind]
      have hc : ceilDiv n (32 * (64 * (64 * 128))) = 1 := by show (n + 16777216 - 1) / 16777216 = 1; omega
      have hN1 : ceilDiv n (64 * (64 * 128)) ≤ 32 := by show (n + 524288 - 1) / 524288 ≤ 32; omega
      have hN2 : ceilDiv n (64 * 128) ≤ 2048 := by show (n + 8192 - 1) / 8192 ≤ 2048; omega
      refine Sim.bind (nodeUpdate_rel h0 avx2Node32_wf (by omega)
        (by show add64 _ 1 ≤ 32; unfold add64; simp only [W64]; omega) fun o w h => h.off ?_) fun _ _ h1 => ?_
      · exact .inl ⟨rfl, 0, by show 0 < ceilDiv n (32 * (64 * (64 * 128))); omega, by omega⟩
      refine Sim.bind (nodeUpdate_rel h1 avx2Node64_wf (by omega)
        (by show add64 _ 1 ≤ 64; unfold add64; simp only [W64]; omega) fun o w h => h.off ?_) fun _ _ h2 => ?_
      · refine .inr (.inl ⟨rfl, i / 524288, by show _ < (n + 524288 - 1) / 524288; omega, ?_⟩)
        show 16 + add64 160 (mul64 (i / (128 * 64 * 64)) 288)
          = 16 + ceilDiv n (32 * (64 * (64 * 128))) * 160 + i / 524288 * 288
        rw [hc]
        arith64
      refine Sim.bind (nodeUpdate_rel h2 avx2Node64_wf (by omega)
        (by show add64 _ 1 ≤ 64; unfold add64; simp only [W64]; omega) fun o w h => h.off ?_) fun _ _ h3 => ?_
      · refine .inr (.inr (.inl ⟨rfl, i / 8192, by show _ < (n + 8192 - 1) / 8192; omega, ?_⟩))
        show 16 + add64 (add64 160 (mul64 (ceilDiv n (64 * (64 * 128))) 288))
          (mul64 (add64 (i % (128 * 64 * 64) / (128 * 64)) (mul64 (i / (128 * 64 * 64)) 64)) 288)
          = 16 + ceilDiv n (32 * (64 * (64 * 128))) * 160 + ceilDiv n (64 * (64 * 128)) * 288 + i / 8192 * 288
        rw [hc]
        arith64
      refine Sim.bind (nodeUpdate_rel h3 avx2Node128_wf (by omega) (show i % (128 * 64) % 128 ≤ 128 by omega)
        fun o w h => h.off ?_) fun _ _ h4 => go h4
      refine .inr (.inr (.inr ⟨rfl, i / 128, by show _ < (n + 128 - 1) / 128; omega, ?_⟩))
      show 16 + add64 (add64 160 (mul64 ((ceilDiv n (64 * (64 * 128)) + ceilDiv n (64 * 128)) % 2 ^ 32) 288))
        (mul64 (add64 (add64 (i % (128 * 64) / 128) (mul64 (i % (128 * 64 * 64) / (128 * 64)) 64))
          (mul64 (mul64 (i / (128 * 64 * 64)) 64) 64)) 288)
        = 16 + ceilDiv n (32 * (64 * (64 * 128))) * 160 + ceilDiv n (64 * (64 * 128)) * 288
          + ceilDiv n (64 * 128) * 288 + i / 128 * 288
      rw [hc]
      arith64
  | avx512 =>
    have : H = 1 ∨ H = 2 ∨ H = 3 := by
      have : H ≤ 3 := hM
      omega
    show Sim _ (avx512Update b H r i s) (avx512Update b H t i s)
    unfold avx512Update
    rw [massert_ok (decide_eq_true hr), massert_ok (decide_eq_true ht), ok_bind, ok_bind]
    rcases this with rfl | rfl | rfl
    · have hsp : n ≤ 512 := fr.nspan
      show Sim _ (avx512Update1 b r i s) (avx512Update1 b t i s)
      unfold avx512Update1
      rw [fr.base, ft.base, ok_bind, ok_bind]
      refine Sim.bind (nodeUpdate_rel h0 avx512Node512_wf (by omega) (show i ≤ 512 by omega) fun o w h => h.off ?_)
        fun _ _ h1 => go h1
      exact ⟨rfl, 0, by show 0 < (n + 512 - 1) / 512; omega, by omega⟩
    · have hsp : n ≤ 131072 := fr.nspan
      show Sim _ (avx512Update2 b r i s) (avx512Update2 b t i s)
      unfold avx512Update2
      rw [fr.base, ft.base, ok_bind, ok_bind]
      have hc : ceilDiv n (256 * 512) = 1 := by show (n + 131072 - 1) / 131072 = 1; omega
      refine Sim.bind (nodeUpdate_rel h0 avx512Node256_wf (by omega)
        (by show add64 _ 1 ≤ 256; unfold add64; simp only [W64]; omega) fun o w h => h.off ?_) fun _ _ h1 => ?_
      · exact .inl ⟨rfl, 0, by show 0 < ceilDiv n (256 * 512); omega, by omega⟩
      refine Sim.bind (nodeUpdate_rel h1 avx512Node512_wf (by omega) (show i % 512 ≤ 512 by omega) fun o w h => h.off ?_)
        fun _ _ h2 => go h2
      refine .inr ⟨rfl, i / 512, by show _ < (n + 512 - 1) / 512; omega, ?_⟩
      show 8 + add64 1088 (mul64 (i / 512) 1088) = 8 + ceilDiv n (256 * 512) * 1088 + i / 512 * 1088
      rw [hc]
      arith64
    · have hsp : n ≤ 16777216 := fr.nspan
      show Sim _ (avx512Update3 b r i s) (avx512Update3 b t i s)
      unfold avx512Update3
      rw [fr.base, ft.base, ok_bind, ok_bind, fr.nn 1 _ rfl, ft.nn 1 _ rfl, ok_bind, ok_bind]
      have hc : ceilDiv n (128 * (256 * 512)) = 1 := by show (n + 16777216 - 1) / 16777216 = 1; omega
      have hN1 : ceilDiv n (256 * 512) ≤ 128 := by show (n + 131072 - 1) / 131072 ≤ 128; omega
      refine Sim.bind (nodeUpdate_rel h0 avx512Node128_wf (by omega)
        (by show add64 _ 1 ≤ 128; unfold add64; simp only [W64]; omega) fun o w h => h.off ?_) fun _ _ h1 => ?_
      · exact .inl ⟨rfl, 0, by show 0 < ceilDiv n (128 * (256 * 512)); omega, by omega⟩
      refine Sim.bind (nodeUpdate_rel h1 avx512Node256_wf (by omega)
        (by show add64 _ 1 ≤ 256; unfold add64; simp only [W64]; omega) fun o w h => h.off ?_) fun _ _ h2 => ?_
      · refine .inr (.inl ⟨rfl, i / 131072, by show _ < (n + 131072 - 1) / 131072; omega, ?_⟩)
        show 12 + add64 576 (mul64 (i / (512 * 256)) 1088)
          = 12 + ceilDiv n (128 * (256 * 512)) * 576 + i / 131072 * 1088
        rw [hc]
        arith64
      refine Sim.bind (nodeUpdate_rel h2 avx512Node512_wf (by omega) (show i % (512 * 256) % 512 ≤ 512 by omega)
        fun o w h => h.off ?_) fun _ _ h3 => go h3
      refine .inr (.inr ⟨rfl, i / 512, by show _ < (n + 512 - 1) / 512; omega, ?_⟩)
      show 12 + add64 (add64 576 (mul64 (ceilDiv n (256 * 512)) 1088))
        (mul64 (add64 (i % (512 * 256) / 512) (mul64 (i / (512 * 256)) 256)) 1088)
        = 12 + ceilDiv n (128 * (256 * 512)) * 576 + ceilDiv n (256 * 512) * 1088 + i / 512 * 1088
      rw [hc]
      arith64

end

end MRS
