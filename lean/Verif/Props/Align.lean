import Verif.Proofs.Misaligned
import Verif.Proofs.SelectBad

/-!
# C32 and C42: alignment

C32: no operation makes a misaligned access, when the allocator returns multiples of 16.  As wished
for the property is false; the exact condition on a sequence of calls is given.

C42: where misaligned accesses are tolerated, and no misaligned access happens, nothing else differs:
a run that counts them as undefined behaviour ends with one or does exactly the same.
-/

set_option autoImplicit false

namespace MRS.Props
open MRS Outcome Spec

/-- Every index buffer is at an address `malloc` may return on x86-64. -/
def Malloc16 (ops : List Op) : Prop := ∀ addr ws, Op.build addr ws ∈ ops → addr % 16 = 0

/-- C32 as a user would want it: a sequence of calls that is valid but for alignment makes no
misaligned access, and neither do queries on the object it leaves. -/
def C32_full : Prop :=
  ∀ (c : Config) (ops : List Op), c.lax.Life ops → Malloc16 ops →
    c.run ops ≠ ub .misaligned ∧ ∀ bm, c.run ops = ok bm →
      (∀ g : Scratch, g.sums 0 = 0 → ∀ i, i < bmSize bm → bmRank c g bm i ≠ ub .misaligned) ∧
      ∀ g : Scratch, g.sums 0 = 0 → ∀ k, k < ones (c.logical ops) (c.logical ops).length →
        bmSelect c g bm k ≠ ub .misaligned

/-- No call of the sequence makes a misaligned access; `a` is the address of the current index
buffer.  `build` of a height-3 `avx512` tree writes 64-bit integers at `data + 12`; a SIMD `flip` on
an `avx2` tree loads 32 bytes at `data + 4 * Height` plus a multiple of 32. -/
def AccessOK (c : Config) : Nat → List Op → Prop
  | _, [] => True
  | _, .build addr _ :: os => ¬ (c.fam = .avx512 ∧ c.H = 3) ∧ AccessOK c addr os
  | a, .flip _ :: os =>
    (c.fam = .avx2 → c.b.simd2 = true → (a + 4 * c.H) % 32 = 0) ∧ AccessOK c a os

section
variable {c : Config} {bm : Bitmap} {B : List Bool}

theorem held_lax (h : Held c bm B) : Alive c.lax bm B :=
  ⟨⟨h.len, h.rep, h.inv.imp_right fun ⟨n, hn⟩ =>
    ⟨n, hn.sup, hn.hlo, hn.hhi, hn.len, hn.tree, .of_lax rfl _⟩⟩, Or.inr fun _ hs => nomatch hs⟩

theorem base_of16 {addr n : Nat} (h16 : addr % 16 = 0) (h1 : 1 ≤ c.H) (h2 : c.H ≤ c.fam.maxH)
    (hn : ¬ (c.fam = .avx512 ∧ c.H = 3)) : c.fam.Aligned c.b addr n c.H := by
  refine aligned_of_base h1 h2 fun _ => ?_
  rcases TreeFam.maxH_cases h1 h2 with ⟨hf, hH⟩ | ⟨hf, hH⟩
  · rw [hf]
    rcases hH with hH | hH | hH | hH <;> rw [hH]
    · show (addr + 4 * 1) % 4 = 0; omega
    · show (addr + 4 * 2) % 4 = 0; omega
    · show (addr + 4 * 3) % 4 = 0; omega
    · show (addr + 4 * 4) % 8 = 0; omega
  · rw [hf]
    rcases hH with hH | hH | hH
    · rw [hH]; show (addr + 4 * 1) % 4 = 0; omega
    · rw [hH]; show (addr + 4 * 2) % 4 = 0; omega
    · exact absurd ⟨hf, hH⟩ hn

/-- One `build`. -/
theorem build_align (hs : c.b.strictAlign = true) (h : Held c bm B) {addr : Nat} {ws : List Word}
    (ho : c.lax.OpOK B (.build addr ws)) (h16 : addr % 16 = 0) :
    (¬ (c.fam = .avx512 ∧ c.H = 3) → ∃ bm', c.step bm (.build addr ws) = ok bm' ∧
      Held c bm' (rebuilt c.blk.width.bits B ws) ∧ bm'.index.mem.addr = addr) ∧
    (c.fam = .avx512 ∧ c.H = 3 → c.step bm (.build addr ws) = ub .misaligned) := by
  obtain ⟨hv, hd⟩ := ho
  have hblk : ceilDiv ws.length c.blk.width.words ≤ 2 ^ 24 := hv.blocks
  have hH : c.H = c.fam.height (ceilDiv ws.length c.blk.width.words) := hv.height
  constructor
  · intro hn
    obtain ⟨h1, h2⟩ := tree_height_range (fam := c.fam) hblk
    rw [← hH] at h1 h2
    obtain ⟨bm', e, hr, ha⟩ := rebuild_rep_of_aligned (c := c) (addr := addr) hv.sup hv.some hblk hH
      (base_of16 h16 h1 h2 hn) hd h.len h.rep
    exact ⟨bm', e, ⟨hr.len, hr.rep, Or.inr ⟨_, hr.inv⟩⟩, ha⟩
  · rintro ⟨hf, hH3⟩
    rcases bmBuild_slock c addr (Vec.ofList ws) ws.length bm with e | e
    · exact e
    · exfalso
      obtain ⟨bm', e', _⟩ := rebuild_rep (c := c.lax) hv hd h.len h.rep
      rw [e'] at e
      obtain ⟨_, vals, v, _, _, _, _, e2⟩ := bmBuild_eq (c := c) (bm := bm) (addr := addr)
        (input := Vec.ofList ws) hv.some (Nat.le_refl _) rfl hblk
      rw [e2] at e
      obtain ⟨t', et, _⟩ := bind_ok_inv e
      rw [hH3, hf] at hH
      have hlt : 131072 < ceilDiv ws.length c.blk.width.words := by
        have hH : 3 = avx512Height _ := hH
        unfold avx512Height at hH
        refine Nat.lt_of_not_le fun hle => ?_
        rw [if_pos hle] at hH
        split at hH <;> cases hH
      rw [hf, hH3] at et
      have := avx512Build3_inv (n := ceilDiv ws.length c.blk.width.words) hs hlt hblk et
      omega

/-- One `flip`. -/
theorem flip_align (hs : c.b.strictAlign = true) (h : Held c bm B) {i : Nat} (hi : i < B.length) :
    ((c.fam = .avx2 → c.b.simd2 = true → (bm.index.mem.addr + 4 * c.H) % 32 = 0) →
      ∃ bm', c.step bm (.flip i) = ok bm' ∧ Held c bm' (Spec.flip B i) ∧
        bm'.index.mem.addr = bm.index.mem.addr) ∧
    (¬ (c.fam = .avx2 → c.b.simd2 = true → (bm.index.mem.addr + 4 * c.H) % 32 = 0) →
      c.step bm (.flip i) = ub .misaligned) := by
  obtain ⟨n, hn⟩ := h.bmRep_lt hi
  constructor
  · intro hu
    obtain ⟨bm', e, hr, ha⟩ := hn.flip (fun hf _ h2 => hu hf h2) hi
    exact ⟨bm', e, ⟨hr.len, hr.rep, Or.inr ⟨_, hr.inv⟩⟩, ha⟩
  · intro hu
    rcases bmFlip_slock c bm i with e | e
    · exact e
    · exfalso
      apply hu
      intro hf h2
      obtain ⟨bm', e', _⟩ := (held_lax h).flip hi
      rw [e'] at e
      unfold bmFlip at e
      obtain ⟨_, _, e⟩ := bind_ok_inv e
      obtain ⟨_, _, e⟩ := bind_ok_inv e
      obtain ⟨_, _, e⟩ := bind_ok_inv e
      obtain ⟨_, _, e⟩ := bind_ok_inv e
      obtain ⟨_, _, e⟩ := bind_ok_inv e
      obtain ⟨t', et, _⟩ := bind_ok_inv e
      have hp := TreeInv.ptr hn.inv.tree
      have hsp := TreeInv.nspan hn.inv.tree
      have h1 := hn.inv.hlo
      have h4 := hn.inv.hhi
      rw [hf] at et hp hsp h4
      have h4 : c.H ≤ 4 := h4
      have hlen : (TreeFam.avx2.cs c.H).length + 1 = c.H := by
        have : c.H = 1 ∨ c.H = 2 ∨ c.H = 3 ∨ c.H = 4 := by omega
        rcases this with h | h | h | h <;> rw [h] <;> rfl
      rw [hlen] at hp
      have hq : i / c.blk.width.bits < n := by
        have h5 := h.len
        rw [hn.inv.len] at h5
        rw [Width.bits_eq, Nat.div_lt_iff_lt_mul (by have := Width.words_pos c.blk.width; omega),
          Nat.mul_comm]
        rw [h5, ← Nat.mul_assoc] at hi
        exact hi
      exact avx2Update_inv hs h2 hp hq (fun h1 => by rw [h1] at hsp; exact hsp) et

theorem exec_align (hs : c.b.strictAlign = true) : ∀ (ops : List Op) {bm : Bitmap} {B : List Bool},
    Held c bm B → c.lax.OpsOK B ops → Malloc16 ops →
    (AccessOK c bm.index.mem.addr ops → ∃ bm', c.exec bm ops = ok bm' ∧
      Held c bm' (ops.foldl (Op.apply c.blk.width.bits) B)) ∧
    (¬ AccessOK c bm.index.mem.addr ops → c.exec bm ops = ub .misaligned) := by
  intro ops
  induction ops with
  | nil => intro bm B h _ _; exact ⟨fun _ => ⟨bm, rfl, h⟩, fun h => absurd trivial h⟩
  | cons o os ih =>
    intro bm B h ho h16
    have h16' : Malloc16 os := fun a w hm => h16 a w (List.mem_cons_of_mem _ hm)
    have next : ∀ (P : Prop) (a : Nat),
        (P → ∃ bm', c.step bm o = ok bm' ∧ Held c bm' (o.apply c.blk.width.bits B) ∧
          bm'.index.mem.addr = a) → (¬ P → c.step bm o = ub .misaligned) →
        (P ∧ AccessOK c a os → ∃ bm', c.exec bm (o :: os) = ok bm' ∧
          Held c bm' ((o :: os).foldl (Op.apply c.blk.width.bits) B)) ∧
        (¬ (P ∧ AccessOK c a os) → c.exec bm (o :: os) = ub .misaligned) := by
      intro P a h1 h2
      constructor
      · rintro ⟨hp, ha⟩
        obtain ⟨bm1, e1, hh, had⟩ := h1 hp
        obtain ⟨bm2, e2, h3⟩ := (ih hh ho.2 h16').1 (by rw [had]; exact ha)
        exact ⟨bm2, by unfold Config.exec; rw [e1, ok_bind]; exact e2, h3⟩
      · intro hna
        by_cases hp : P
        · obtain ⟨bm1, e1, hh, had⟩ := h1 hp
          have e2 := (ih hh ho.2 h16').2 (by rw [had]; exact fun ha => hna ⟨hp, ha⟩)
          unfold Config.exec; rw [e1, ok_bind]; exact e2
        · unfold Config.exec; rw [h2 hp]; rfl
    cases o with
    | build addr ws =>
      obtain ⟨h1, h2⟩ := build_align hs h ho.1 (h16 addr ws List.mem_cons_self)
      exact next _ addr h1 (fun h => h2 (Classical.not_not.1 h))
    | flip i =>
      obtain ⟨h1, h2⟩ := flip_align hs h ho.1
      exact next _ _ h1 h2

end

section
variable {c : Config} {ops : List Op}

/-- C32, exactly: with buffers at multiples of 16, a sequence of calls that is valid but for alignment
runs through iff `AccessOK` holds of it; otherwise it makes a misaligned access. -/
theorem C32_iff (hs : c.b.strictAlign = true) (h : c.lax.Life ops) (h16 : Malloc16 ops) :
    ((∃ bm, c.run ops = ok bm) ↔ AccessOK c 0 ops) ∧
    (c.run ops = ub .misaligned ↔ ¬ AccessOK c 0 ops) := by
  obtain ⟨h1, h2⟩ := exec_align hs ops (Held.start c) h h16
  replace h1 : AccessOK c 0 ops → ∃ bm, c.run ops = ok bm ∧ _ := h1
  replace h2 : ¬ AccessOK c 0 ops → c.run ops = ub .misaligned := h2
  by_cases ha : AccessOK c 0 ops
  · obtain ⟨bm, e, _⟩ := h1 ha
    exact ⟨⟨fun _ => ha, fun _ => ⟨bm, e⟩⟩, fun h => (by rw [e] at h; cases h), fun h => absurd ha h⟩
  · have e := h2 ha
    exact ⟨⟨fun ⟨bm, h⟩ => (by rw [e] at h; cases h), fun h => absurd h ha⟩, fun _ => ha, fun _ => e⟩

/-- Queries make no misaligned access on any object a run leaves, whatever its class. -/
theorem C32_queries (hs : c.b.strictAlign = true) (h : c.lax.Life ops) (h16 : Malloc16 ops)
    {bm : Bitmap} (e : c.run ops = ok bm) :
    (∀ i, i < bmSize bm → bmAccess c bm i = bmAccess c.lax bm i) ∧
    (∀ g : Scratch, g.sums 0 = 0 → ∀ i, i < bmSize bm →
      bmRank c g bm i ≠ ub .misaligned ∧ bmRank c g bm i = bmRank c.lax g bm i) ∧
    ∀ g : Scratch, g.sums 0 = 0 → ∀ k, k < ones (c.logical ops) (c.logical ops).length →
      bmSelect c g bm k ≠ ub .misaligned ∧ bmSelect c g bm k = bmSelect c.lax g bm k := by
  have ha : AccessOK c 0 ops := (C32_iff hs h h16).1.1 ⟨bm, e⟩
  obtain ⟨bm', e', hh⟩ := (exec_align hs ops (Held.start c) h h16).1 ha
  replace e' : c.run ops = ok bm' := e'
  rw [e] at e'
  obtain rfl : bm = bm' := by injection e'
  replace hh : Held c bm (c.logical ops) := hh
  refine ⟨fun i _ => rfl, fun g hg i hi => ?_, fun g hg k hk => ?_⟩
  · rw [hh.size] at hi
    have e1 := hh.rank hg hi
    have hne : bmRank c g bm i ≠ ub .misaligned := by rw [e1]; intro h; cases h
    exact ⟨hne, (bmRank_slock c g bm i).resolve_left hne⟩
  · have hne : bmSelect c g bm k ≠ ub .misaligned := by
      by_cases hb : c.SelectBad (c.logical ops) k
      · rw [hh.select_bad g hb hk]
        unfold badSelect
        cases c.b.ndebug <;> intro h <;> cases h
      · obtain ⟨p, e1, _⟩ := hh.select_sharp hg hb hk
        rw [e1]; intro h; cases h
    exact ⟨hne, (bmSelect_slock c g bm k).resolve_left hne⟩

theorem accessOK_of : ∀ (ops : List Op) (a : Nat), ¬ (c.fam = .avx512 ∧ c.H = 3) →
    (∀ i, Op.flip i ∈ ops → ¬ (c.fam = .avx2 ∧ c.b.simd2 = true)) → AccessOK c a ops := by
  intro ops
  induction ops with
  | nil => intro a _ _; trivial
  | cons o os ih =>
    intro a h1 h2
    have ih := fun a => ih a h1 (fun i hi => h2 i (List.mem_cons_of_mem _ hi))
    cases o with
    | build addr ws => exact ⟨h1, ih _⟩
    | flip i => exact ⟨fun hf hs => absurd ⟨hf, hs⟩ (h2 i List.mem_cons_self), ih _⟩

/-- What holds.  Missing: flips with SIMD code on `avx2` trees, and `avx512` trees of height 3. -/
theorem C32_partial (h : c.lax.Life ops) (h16 : Malloc16 ops)
    (h3 : ¬ (c.fam = .avx512 ∧ c.H = 3))
    (hf : (∀ i, Op.flip i ∉ ops) ∨ ¬ (c.fam = .avx2 ∧ c.b.simd2 = true)) :
    c.run ops ≠ ub .misaligned ∧ ∀ bm, c.run ops = ok bm →
      (∀ g : Scratch, g.sums 0 = 0 → ∀ i, i < bmSize bm → bmRank c g bm i ≠ ub .misaligned) ∧
      ∀ g : Scratch, g.sums 0 = 0 → ∀ k, k < ones (c.logical ops) (c.logical ops).length →
        bmSelect c g bm k ≠ ub .misaligned := by
  cases hs : c.b.strictAlign with
  | true =>
    have ha : AccessOK c 0 ops := accessOK_of ops 0 h3 fun i hi => hf.elim (fun h => absurd hi (h i)) id
    refine ⟨fun e => (C32_iff hs h h16).2.1 e ha, fun bm e => ?_⟩
    obtain ⟨_, h1, h2⟩ := C32_queries hs h h16 e
    exact ⟨fun g hg i hi => (h1 g hg i hi).1, fun g hg k hk => (h2 g hg k hk).1⟩
  | false =>
    have hc : c.lax = c := by
      unfold Config.lax Build.lax
      rw [← hs]
    rw [hc] at h
    obtain ⟨bm, e, ha⟩ := Config.run_ok h
    refine ⟨(by rw [e]; intro h; cases h), fun bm' e' => ?_⟩
    rw [e] at e'
    obtain rfl : bm = bm' := by injection e'
    refine ⟨fun g hg i hi => ?_, fun g hg k hk => ?_⟩
    · rw [ha.size] at hi
      rw [ha.rank hg hi]; intro h; cases h
    · by_cases hb : c.SelectBad (c.logical ops) k
      · rw [ha.select_bad g hb hk]
        unfold badSelect
        cases c.b.ndebug <;> intro h <;> cases h
      · obtain ⟨p, e1, _⟩ := ha.select_sharp hg hb hk
        rw [e1]; intro h; cases h

/-- With SIMD code every life of an `avx2` bitmap of height 1, 2 or 3 in which a bit is flipped makes
a misaligned access. -/
theorem C32_avx2 (hs : c.b.strictAlign = true) (h2 : c.b.simd2 = true) (hf : c.fam = .avx2)
    (hH : c.H ≤ 3) (h : c.lax.Life ops) (h16 : Malloc16 ops) {i : Nat} (hi : Op.flip i ∈ ops) :
    c.run ops = ub .misaligned := by
  refine (C32_iff hs h h16).2.2 fun ha => ?_
  have key : ∀ (ops : List Op) (a : Nat) (B : List Bool), (B ≠ [] → a % 16 = 0 ∧ 1 ≤ c.H) →
      c.lax.OpsOK B ops → Malloc16 ops → AccessOK c a ops → Op.flip i ∉ ops := by
    intro ops
    induction ops with
    | nil => intro a B _ _ _ _ hm; cases hm
    | cons o os ih =>
      intro a B hB ho h16 ha hm
      have h16' : Malloc16 os := fun a w hm => h16 a w (List.mem_cons_of_mem _ hm)
      cases o with
      | build addr ws =>
        refine ih addr _ (fun _ => ⟨h16 addr ws List.mem_cons_self, ?_⟩) ho.2 h16' ha.2
          ((List.mem_cons.1 hm).resolve_left (fun h => nomatch h))
        obtain ⟨h1, _⟩ := tree_height_range (fam := c.lax.fam) ho.1.1.blocks
        rw [← ho.1.1.height] at h1
        exact h1
      | flip j =>
        have hj : j < B.length := ho.1
        obtain ⟨h5, h6⟩ := hB (by rintro rfl; exact absurd hj (Nat.not_lt_zero _))
        have := ha.1 hf h2
        omega
  exact key ops 0 [] (fun h => absurd rfl h) h h16 ha hi

/-- Every `build` of an `avx512` bitmap of height 3 makes a misaligned access. -/
theorem C32_avx512 (hs : c.b.strictAlign = true) (hf : c.fam = .avx512) (hH : c.H = 3)
    (h : c.lax.Life ops) (h16 : Malloc16 ops) (h0 : ops ≠ []) : c.run ops = ub .misaligned := by
  refine (C32_iff hs h h16).2.2 fun ha => ?_
  cases ops with
  | nil => exact h0 rfl
  | cons o os =>
    cases o with
    | build addr ws => exact ha.1 ⟨hf, hH⟩
    | flip i => exact absurd h.1 (Nat.not_lt_zero i)

/-- `avx2::segment_tree<1>` over 64-bit blocks, SIMD code, misaligned accesses undefined. -/
def alCfg : Config := ⟨⟨true, true, false, true⟩, .avx2, 1, block64Default⟩

def alOps : List Op := [.build 16 [5#64, 6#64], .flip 70]

theorem al_life : alCfg.lax.Life alOps :=
  ⟨⟨⟨by decide, by decide, by decide, by decide, by decide⟩, Or.inl rfl⟩,
    by unfold Config.OpOK; decide +kernel, trivial⟩

theorem al_malloc : Malloc16 alOps := by
  intro addr ws h
  rcases List.mem_cons.1 h with h | h
  · injection h with h; rw [h]
  · rcases List.mem_cons.1 h with h | h
    · cases h
    · cases h

/-- C32 is false of the code. -/
theorem C32_false : ¬ C32_full := fun h => (h alCfg alOps al_life al_malloc).1
  (C32_avx2 rfl rfl rfl (by decide) al_life al_malloc (i := 70) (by simp [alOps]))

/-- `C32_partial` on the same calls without SIMD code. -/
example : (⟨⟨true, false, false, true⟩, .avx2, 1, block64Default⟩ : Config).run alOps ≠ ub .misaligned :=
  (C32_partial (c := ⟨⟨true, false, false, true⟩, .avx2, 1, block64Default⟩) (ops := alOps)
    ⟨⟨⟨by decide, by decide, by decide, by decide, by decide⟩, Or.inl rfl⟩,
      by unfold Config.OpOK; decide +kernel, trivial⟩ al_malloc (by decide) (Or.inr (by decide))).1

/-- `avx512::segment_tree<3>`: any bitmap of more than 131072 blocks of 64 bits. -/
example (n : Nat) (h1 : 131072 < n) (h2 : n ≤ 2 ^ 24) :
    (⟨⟨true, true, true, true⟩, .avx512, 3, block64Default⟩ : Config).run
      [.build 32 (List.replicate n 1#64)] = ub .misaligned := by
  have hc : ceilDiv (List.replicate n 1#64).length 1 = n := by
    rw [List.length_replicate]; unfold ceilDiv; omega
  refine C32_avx512 rfl rfl rfl ⟨⟨⟨by decide, ?_, ?_, ?_, fun h => nomatch h⟩, Or.inl rfl⟩, trivial⟩ ?_
    (by simp)
  · rw [List.length_replicate]; omega
  · rw [List.length_replicate]
    show n * 64 ≤ 2 ^ 24 * 64
    omega
  · show 3 = avx512Height (ceilDiv _ 1)
    rw [hc]
    unfold avx512Height
    rw [if_neg (by omega), if_neg (by omega), if_pos h2]
  · intro addr ws h
    rcases List.mem_cons.1 h with h | h
    · injection h with h; rw [h]
    · cases h

/-- `avx2::segment_tree<4>` is the one SIMD `avx2` tree that can be aligned: its summaries are at
`data + 16`, so flips are fine when the buffer is at 16 modulo 32, and not when it is at 0. -/
example (n : Nat) (h1 : 2097152 < n) (h2 : n ≤ 2 ^ 24) :
    (∃ bm, (⟨⟨true, true, true, true⟩, .avx2, 4, block64Default⟩ : Config).run
      [.build 16 (List.replicate n 1#64), .flip 5] = ok bm) ∧
    (⟨⟨true, true, true, true⟩, .avx2, 4, block64Default⟩ : Config).run
      [.build 32 (List.replicate n 1#64), .flip 5] = ub .misaligned := by
  have hc : ceilDiv (List.replicate n 1#64).length 1 = n := by
    rw [List.length_replicate]; unfold ceilDiv; omega
  have hl : ∀ a, Config.Life (⟨⟨true, true, true, true⟩, .avx2, 4, block64Default⟩ : Config).lax
      [.build a (List.replicate n 1#64), .flip 5] := by
    intro a
    refine ⟨⟨⟨by decide, ?_, ?_, ?_, fun h => nomatch h⟩, Or.inl rfl⟩, ?_, trivial⟩
    · rw [List.length_replicate]; omega
    · rw [List.length_replicate]
      show n * 64 ≤ 2 ^ 24 * 64
      omega
    · show 4 = avx2Height (ceilDiv _ 1)
      rw [hc]
      unfold avx2Height
      rw [if_neg (by omega), if_neg (by omega), if_neg (by omega), if_pos h2]
    · show 5 < (rebuilt 64 [] (List.replicate n 1#64)).length
      rw [rebuilt_length (by omega), List.length_replicate]
      unfold ceilDiv; omega
  have hm : ∀ a, a % 16 = 0 → Malloc16 [.build a (List.replicate n 1#64), .flip 5] := by
    intro a ha addr ws h
    rcases List.mem_cons.1 h with h | h
    · injection h with h; rw [h]; exact ha
    · rcases List.mem_cons.1 h with h | h <;> cases h
  exact ⟨(C32_iff rfl (hl 16) (hm 16 rfl)).1.2 ⟨by decide, fun _ _ => rfl, trivial⟩,
    (C32_iff rfl (hl 32) (hm 32 rfl)).2.2 fun h => absurd (h.2.1 rfl rfl) (by decide)⟩

/-! ## C42 -/

/-- C42: any calls, valid or not, on any object: the mutating calls and the queries end with a
misaligned access or do exactly what they do where misaligned accesses are tolerated. -/
theorem C42_mutators (c : Config) (bm : Bitmap) (ops : List Op) :
    c.exec bm ops = ub .misaligned ∨ c.exec bm ops = c.lax.exec bm ops := exec_slock c ops bm

theorem C42_queries (c : Config) (g : Scratch) (bm : Bitmap) (i : Nat) :
    bmAccess c bm i = bmAccess c.lax bm i ∧
    (bmRank c g bm i = ub .misaligned ∨ bmRank c g bm i = bmRank c.lax g bm i) ∧
    (bmSelect c g bm i = ub .misaligned ∨ bmSelect c g bm i = bmSelect c.lax g bm i) :=
  ⟨rfl, bmRank_slock c g bm i, bmSelect_slock c g bm i⟩

/-- Both alternatives of `C42_mutators` occur: the witness of C32 takes the first, `build` alone the
second. -/
example : alCfg.run alOps = ub .misaligned ∧ (∃ bm, alCfg.lax.run alOps = ok bm) ∧
    ∃ bm, alCfg.run [.build 16 [5#64, 6#64]] = ok bm := by
  refine ⟨C32_avx2 rfl rfl rfl (by decide) al_life al_malloc (i := 70) (by simp [alOps]), ?_, ?_⟩
  · obtain ⟨bm, e, _⟩ := Config.run_ok al_life
    exact ⟨bm, e⟩
  · refine (C32_iff (c := alCfg) (ops := [.build 16 [5#64, 6#64]]) rfl ⟨al_life.1, trivial⟩ ?_).1.2
      ⟨by decide, trivial⟩
    intro addr ws h
    exact al_malloc addr ws (by
      rcases List.mem_cons.1 h with h | h
      · rw [h]; exact List.mem_cons_self
      · cases h)

end

end MRS.Props
