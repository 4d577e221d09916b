import Verif.Proofs.SelectBad

/-!
# C29: building again

`build` on an object that already holds a bitmap does not clear the padding of the last block.  The
property as wished for is false; the exact condition under which it holds is that the old bits that
end up in the padding are zero.
-/

set_option autoImplicit false

namespace MRS.Props
open MRS Outcome Spec

/-- Two objects of one class that no query can tell apart (`g`, `g'`: whatever earlier calls left in
the scratch arrays). -/
structure Alike (c : Config) (bm bm' : Bitmap) : Prop where
  size : bmSize bm = bmSize bm'
  access : ∀ i, i < bmSize bm → bmAccess c bm i = bmAccess c bm' i
  rank : ∀ g g' : Scratch, g.sums 0 = 0 → g'.sums 0 = 0 → ∀ i, i < bmSize bm →
    bmRank c g bm i = bmRank c g' bm' i
  select : ∀ g g' : Scratch, g.sums 0 = 0 → g'.sums 0 = 0 → ∀ k r, 0 < bmSize bm →
    bmRank c g bm (bmSize bm - 1) = ok r → k < r → bmSelect c g bm k = bmSelect c g' bm' k

/-- Objects holding the same bits answer alike. -/
theorem alike_of_alive {c : Config} {bm bm' : Bitmap} {B : List Bool} (h : Alive c bm B)
    (h' : Alive c bm' B) : Alike c bm bm' := by
  refine ⟨by rw [h.size, h'.size], fun i hi => ?_, fun g g' hg hg' i hi => ?_,
    fun g g' hg hg' k r h0 hr hk => ?_⟩
  · rw [h.size] at hi; rw [h.access hi, h'.access hi]
  · rw [h.size] at hi; rw [h.rank hg hi, h'.rank hg' hi]
  · rw [h.size] at h0 hr
    rw [h.rank hg (by omega)] at hr
    have hr : Spec.rank B (B.length - 1) = r := by injection hr
    unfold Spec.rank at hr
    rw [show B.length - 1 + 1 = B.length by omega] at hr
    rw [← hr] at hk
    by_cases hb : c.SelectBad B k
    · rw [h.select_bad g hb hk, h'.select_bad g' hb hk]
    · obtain ⟨p, e, hp⟩ := h.select_sharp hg hb hk
      obtain ⟨p', e', hp'⟩ := h'.select_sharp hg' hb hk
      rw [e, e', isSelect_unique hp hp']

/-- Objects that answer alike hold the same bits. -/
theorem eq_of_alike {c : Config} {bm bm' : Bitmap} {B B' : List Bool} (h : Alive c bm B)
    (h' : Alive c bm' B') (hs : Alike c bm bm') : B = B' := by
  have hl : B.length = B'.length := by rw [← h.size, ← h'.size, hs.size]
  refine List.ext_getElem hl fun i hi hi' => ?_
  have := hs.access i (by rw [h.size]; exact hi)
  rw [h.access hi, h'.access hi'] at this
  injection this

/-- C29 as a user would want it: whatever the object held before, after `build` it answers like a
fresh object after the same `build`. -/
def C29_full : Prop :=
  ∀ (c : Config) (ops : List Op) (addr : Nat) (ws : List Word),
    c.Life (ops ++ [.build addr ws]) → c.Life [.build addr ws] →
    ∃ bm bm', c.run (ops ++ [.build addr ws]) = ok bm ∧ c.run [.build addr ws] = ok bm' ∧
      Alike c bm bm'

/-- The bits of `B` that `build` from `nw` words leaves in the padding of the last `m`-bit block are
zero. -/
def CleanPadding (m : Nat) (B : List Bool) (nw : Nat) : Prop :=
  ∀ i, 64 * nw ≤ i → i < m * ceilDiv (64 * nw) m → B.getD i false = false

theorem rebuilt_eq_iff {m : Nat} (hm : 0 < m) (B : List Bool) (ws : List Word) :
    rebuilt m B ws = rebuilt m [] ws ↔ CleanPadding m B ws.length := by
  constructor
  · intro h i h1 h2
    have e1 := rebuilt_get (m := m) (old := B) (ws := ws) (i := i) (by rw [rebuilt_length hm]; exact h2)
    have e2 := rebuilt_get (m := m) (old := []) (ws := ws) (i := i) (by rw [rebuilt_length hm]; exact h2)
    rw [h, e2, if_neg (by omega), if_neg (by omega)] at e1
    injection e1 with e1
    rw [← e1]; rfl
  · intro h
    apply List.ext_getElem?
    intro i
    by_cases hi : i < (rebuilt m B ws).length
    · have hi' : i < (rebuilt m [] ws).length := by rw [rebuilt_length hm] at hi ⊢; exact hi
      rw [rebuilt_get hi, rebuilt_get hi']
      by_cases h1 : i < 64 * ws.length
      · rw [if_pos h1, if_pos h1]
      · rw [if_neg h1, if_neg h1, h i (by omega) (by rw [rebuilt_length hm] at hi; exact hi)]; rfl
    · have hi' : ¬ i < (rebuilt m [] ws).length := by rw [rebuilt_length hm] at hi ⊢; exact hi
      rw [List.getElem?_eq_none (by omega), List.getElem?_eq_none (by omega)]

theorem opsOK_append {c : Config} {os os' : List Op} : ∀ {B : List Bool},
    c.OpsOK B (os ++ os') ↔ c.OpsOK B os ∧ c.OpsOK (os.foldl (Op.apply c.blk.width.bits) B) os' := by
  induction os with
  | nil => intro B; exact ⟨fun h => ⟨trivial, h⟩, fun h => h.2⟩
  | cons o os ih =>
    intro B
    constructor
    · rintro ⟨h1, h2⟩
      exact ⟨⟨h1, (ih.1 h2).1⟩, (ih.1 h2).2⟩
    · rintro ⟨⟨h1, h2⟩, h3⟩
      exact ⟨h1, ih.2 ⟨h2, h3⟩⟩

theorem logical_append (c : Config) (ops ops' : List Op) :
    c.logical (ops ++ ops') = ops'.foldl (Op.apply c.blk.width.bits) (c.logical ops) :=
  List.foldl_append ..

/-- What holds: if the old content leaves only zeros in the padding, the life before `build` is
forgotten, for every continuation.  Missing: old ones in the padding. -/
theorem C29_partial {c : Config} {ops more : List Op} {addr : Nat} {ws : List Word}
    (h : c.Life (ops ++ .build addr ws :: more))
    (hp : CleanPadding c.blk.width.bits (c.logical ops) ws.length) :
    ∃ bm bm', c.run (ops ++ .build addr ws :: more) = ok bm ∧
      c.run (.build addr ws :: more) = ok bm' ∧ Alike c bm bm' := by
  have heq := (rebuilt_eq_iff (Width.bits_pos c.blk.width) (c.logical ops) ws).2 hp
  have h2 := (opsOK_append.1 h).2
  have hl : c.Life (.build addr ws :: more) := by
    have h2 : c.OpOK (c.logical ops) (.build addr ws) ∧
      c.OpsOK (rebuilt c.blk.width.bits (c.logical ops) ws) more := h2
    rw [heq] at h2
    exact ⟨⟨h2.1.1, by rw [← heq]; exact h2.1.2⟩, h2.2⟩
  obtain ⟨bm, e, ha⟩ := Config.run_ok h
  obtain ⟨bm', e', ha'⟩ := Config.run_ok hl
  refine ⟨bm, bm', e, e', alike_of_alive (B := c.logical (.build addr ws :: more)) ?_ ha'⟩
  have : c.logical (ops ++ .build addr ws :: more) = c.logical (.build addr ws :: more) := by
    rw [logical_append]
    show more.foldl _ (rebuilt _ (c.logical ops) ws) = more.foldl _ (rebuilt _ [] ws)
    rw [heq]
  rw [← this]; exact ha

/-- The condition is exact. -/
theorem C29_iff {c : Config} {ops : List Op} {addr : Nat} {ws : List Word}
    (h : c.Life (ops ++ [.build addr ws])) (h' : c.Life [.build addr ws]) :
    ∃ bm bm', c.run (ops ++ [.build addr ws]) = ok bm ∧ c.run [.build addr ws] = ok bm' ∧
      (Alike c bm bm' ↔ CleanPadding c.blk.width.bits (c.logical ops) ws.length) := by
  obtain ⟨bm, e, ha⟩ := Config.run_ok h
  obtain ⟨bm', e', ha'⟩ := Config.run_ok h'
  refine ⟨bm, bm', e, e', ?_⟩
  rw [logical_append] at ha
  rw [← rebuilt_eq_iff (Width.bits_pos c.blk.width)]
  constructor
  · exact fun hs => eq_of_alike ha ha' hs
  · intro heq
    refine alike_of_alive ha ?_
    rw [show [Op.build addr ws].foldl (Op.apply c.blk.width.bits) (c.logical ops) =
      rebuilt c.blk.width.bits [] ws from heq]
    exact ha'

/-- In particular the old bitmap is forgotten when the new words fill whole blocks, or when they are
at least as many as the old bitmap had. -/
theorem C29_whole_or_larger {c : Config} {ops more : List Op} {addr : Nat} {ws : List Word}
    (h : c.Life (ops ++ .build addr ws :: more))
    (hp : c.blk.width.bits ∣ 64 * ws.length ∨ (c.logical ops).length ≤ 64 * ws.length) :
    ∃ bm bm', c.run (ops ++ .build addr ws :: more) = ok bm ∧
      c.run (.build addr ws :: more) = ok bm' ∧ Alike c bm bm' := by
  refine C29_partial h fun i h1 h2 => ?_
  rcases hp with ⟨d, hd⟩ | hp
  · rw [hd] at h1 h2
    have hb := Width.bits_pos c.blk.width
    unfold ceilDiv at h2
    rw [show c.blk.width.bits * d + c.blk.width.bits - 1 =
      (c.blk.width.bits - 1) + c.blk.width.bits * d by omega, Nat.add_mul_div_left _ _ hb,
      Nat.div_eq_of_lt (by omega), Nat.zero_add] at h2
    omega
  · rw [List.getD_eq_getElem?_getD, List.getElem?_eq_none (by omega)]; rfl

/-! ## The witness: eight words of ones, then one word of zeros -/

/-- `mutable_bitmap<avx2::segment_tree<1>, block256_type_a>`, release build with SIMD. -/
def reCfg : Config := ⟨⟨true, true, true, false⟩, .avx2, 1, block256A⟩

def reOld : List Op := [.build 16 (List.replicate 8 0xFFFFFFFFFFFFFFFF#64)]

theorem reLife : reCfg.Life (reOld ++ [.build 16 [0#64]]) :=
  ⟨⟨⟨by decide, by decide, by decide, by decide, by decide⟩, Or.inl rfl⟩,
    ⟨⟨by decide, by decide, by decide, by decide, by decide⟩, Or.inl rfl⟩, trivial⟩

theorem reLife' : reCfg.Life [.build 16 [0#64]] :=
  ⟨⟨⟨by decide, by decide, by decide, by decide, by decide⟩, Or.inl rfl⟩, trivial⟩

/-- The old bit 64 is in the new bitmap. -/
theorem re_dirty : ¬ CleanPadding reCfg.blk.width.bits (reCfg.logical reOld) 1 := by
  intro h
  have : (reCfg.logical reOld).getD 64 false = false := h 64 (by decide) (by decide)
  exact absurd this (by decide +kernel)

/-- C29 is false of the code. -/
theorem C29_false : ¬ C29_full := by
  intro h
  obtain ⟨bm, bm', e, e', hs⟩ := h reCfg reOld 16 [0#64] reLife reLife'
  obtain ⟨b1, b2, e1, e2, hiff⟩ := C29_iff reLife reLife'
  rw [e] at e1; rw [e'] at e2
  injection e1 with e1; injection e2 with e2
  subst e1 e2
  exact re_dirty (hiff.1 hs)

/-- The witness seen by the caller: bit 64 of a bitmap built from one word of zeros is set. -/
example : ∃ bm, reCfg.run (reOld ++ [.build 16 [0#64]]) = ok bm ∧ bmAccess reCfg bm 64 = ok true := by
  obtain ⟨bm, e, ha⟩ := Config.run_ok reLife
  refine ⟨bm, e, ?_⟩
  rw [ha.access (by decide +kernel)]
  congr 1

/-- The hypotheses of `C29_partial`: the old bitmap has ones, none of them in the padding. -/
example : reCfg.Life ([.build 16 [5#64, 0#64, 0#64, 0#64, 7#64]] ++ .build 32 [3#64] :: [.flip 100]) ∧
    CleanPadding reCfg.blk.width.bits (reCfg.logical [.build 16 [5#64, 0#64, 0#64, 0#64, 7#64]])
      [3#64].length := by
  refine ⟨⟨⟨⟨by decide, by decide, by decide, by decide, by decide⟩, Or.inl rfl⟩,
    ⟨⟨by decide, by decide, by decide, by decide, by decide⟩, Or.inl rfl⟩, by unfold Config.OpOK; decide +kernel, trivial⟩, ?_⟩
  have : ∀ i < 256, 64 ≤ i →
      (reCfg.logical [.build 16 [5#64, 0#64, 0#64, 0#64, 7#64]]).getD i false = false := by
    decide +kernel
  exact fun i h1 h2 => this i h2 h1

/-- The hypotheses of `C29_whole_or_larger`: four words fill a block. -/
example : reCfg.Life (reOld ++ .build 32 [3#64, 0#64, 0#64, 1#64] :: [.flip 100]) ∧
    reCfg.blk.width.bits ∣ 64 * [3#64, 0#64, 0#64, 1#64].length :=
  ⟨⟨⟨⟨by decide, by decide, by decide, by decide, by decide⟩, Or.inl rfl⟩,
    ⟨⟨by decide, by decide, by decide, by decide, by decide⟩, Or.inl rfl⟩, by unfold Config.OpOK; decide +kernel, trivial⟩,
    ⟨1, rfl⟩⟩

end MRS.Props
