import Verif.Model.Names

/-!
# C38 and C44: printed names
-/

set_option autoImplicit false
set_option maxRecDepth 10000

namespace MRS.Props
open MRS Outcome

/-- The enumerators of `rank_modes` with their values, rank.hpp lines 12-44. -/
def rankEnum : List (String × Nat) := [
  ("broadword_loop", RankMode.broadword_loop), ("broadword_unrolled", RankMode.broadword_unrolled),
  ("builtin", RankMode.builtin), ("builtin_loop", RankMode.builtin_loop),
  ("builtin_unrolled", RankMode.builtin_unrolled), ("avx2_loop", RankMode.avx2_loop),
  ("avx2_unrolled", RankMode.avx2_unrolled), ("builtin_parallel", RankMode.builtin_parallel),
  ("avx2_parallel", RankMode.avx2_parallel), ("avx512_loop", RankMode.avx512_loop),
  ("avx512_unrolled", RankMode.avx512_unrolled), ("avx512_parallel", RankMode.avx512_parallel)]

/-- The enumerators of `select_modes` with their values, select.hpp lines 155-187. -/
def selectEnum : List (String × Nat) := [
  ("broadword_loop_sdsl", SelectMode.broadword_loop_sdsl),
  ("broadword_loop_succinct", SelectMode.broadword_loop_succinct),
  ("builtin_loop_sdsl", SelectMode.builtin_loop_sdsl),
  ("builtin_loop_succinct", SelectMode.builtin_loop_succinct), ("pdep", SelectMode.pdep),
  ("builtin_loop_pdep", SelectMode.builtin_loop_pdep),
  ("builtin_avx512_pdep", SelectMode.builtin_avx512_pdep),
  ("avx2_avx512_pdep", SelectMode.avx2_avx512_pdep),
  ("avx512_avx512_pdep", SelectMode.avx512_avx512_pdep)]

/-- C38 as wished for: every mode prints its name. -/
def C38_full : Prop :=
  (∀ e ∈ rankEnum, printRankMode e.2 = ok e.1.toList) ∧
  ∀ e ∈ selectEnum, printSelectMode e.2 = ok e.1.toList

/-- C38 is false: `builtin_loop` has the value of `builtin` and prints as `builtin`. -/
theorem C38_false : ¬ C38_full := by
  intro h
  exact absurd (h.1 ("builtin_loop", RankMode.builtin_loop) (by decide)) (by decide)

/-- What holds: every other rank mode and every select mode prints its name.  Missing: `builtin_loop`,
which prints as `builtin`. -/
theorem C38_partial :
    (∀ e ∈ rankEnum, e.1 ≠ "builtin_loop" → printRankMode e.2 = ok e.1.toList) ∧
    printRankMode RankMode.builtin_loop = ok "builtin".toList ∧
    ∀ e ∈ selectEnum, printSelectMode e.2 = ok e.1.toList := by
  refine ⟨?_, ?_, ?_⟩ <;> decide +kernel

/-! ## Names of bitmap types -/

/-- No commas. -/
def NoComma (u : Name) : Prop := ',' ∉ u

theorem comma_split {u v x y : Name} (hu : NoComma u) (hv : NoComma v)
    (h : u ++ ',' :: x = v ++ ',' :: y) : u = v ∧ x = y := by
  induction u generalizing v with
  | nil =>
    cases v with
    | nil => simpa using h
    | cons d v =>
      have h := (List.cons.inj h).1
      exact absurd (h ▸ List.mem_cons_self) hv
  | cons a u ih =>
    cases v with
    | nil =>
      have h := (List.cons.inj h).1
      exact absurd (h ▸ List.mem_cons_self) hu
    | cons d v =>
      obtain ⟨h1, h2⟩ := List.cons.inj h
      obtain ⟨h3, h4⟩ := ih (fun hm => hu (List.mem_cons_of_mem _ hm))
        (fun hm => hv (List.mem_cons_of_mem _ hm)) h2
      exact ⟨by rw [h1, h3], h4⟩

theorem mapFind_mem {m : List (Nat × Name)} {k : Nat} {s : Name} (h : mapFind m k = ok s) :
    (k, s) ∈ m := by
  unfold mapFind at h
  cases e : m.find? fun e => e.1 == k with
  | none => rw [e] at h; cases h
  | some x =>
    rw [e] at h
    obtain rfl : x.2 = s := by injection h
    have h1 := List.find?_some e
    have h2 := List.mem_of_find?_eq_some e
    obtain rfl : x.1 = k := by simpa using h1
    exact h2

theorem rankMap_inj : ∀ a ∈ rankModeMap, ∀ b ∈ rankModeMap, a.2 = b.2 → a.1 = b.1 := by decide +kernel
theorem selectMap_inj : ∀ a ∈ selectModeMap, ∀ b ∈ selectModeMap, a.2 = b.2 → a.1 = b.1 := by
  decide +kernel
theorem rankMap_comma : ∀ a ∈ rankModeMap, ',' ∉ a.2 := by decide +kernel

/-- The part of a name before the first comma. -/
def namePrefix (c : Config) : Name :=
  "mutable_bitmap_".toList ++ c.blk.width.name ++ "<".toList ++ c.fam.name

theorem prefix_inj {c d : Config} (h : namePrefix c = namePrefix d) :
    c.blk.width = d.blk.width ∧ c.fam = d.fam := by
  revert h
  unfold namePrefix
  cases c.blk.width <;> cases d.blk.width <;> cases c.fam <;> cases d.fam <;> decide +kernel

theorem prefix_comma (c : Config) : NoComma (namePrefix c) := by
  unfold namePrefix NoComma
  cases c.blk.width <;> cases c.fam <;> decide +kernel

theorem bmName_eq {c : Config} {s : Name} (h : bmName c = ok s) :
    ∃ r t, printRankMode c.blk.rankMode = ok r ∧ printSelectMode c.blk.selectMode = ok t ∧
      s = namePrefix c ++ ',' :: (r ++ ',' :: (t ++ ['>'])) := by
  unfold bmName at h
  cases e1 : printRankMode c.blk.rankMode with
  | ub f => rw [e1] at h; cases h
  | abort => rw [e1] at h; cases h
  | ok r =>
    cases e2 : printSelectMode c.blk.selectMode with
    | ub f => rw [e1, e2] at h; cases h
    | abort => rw [e1, e2] at h; cases h
    | ok t =>
      rw [e1, e2, ok_bind, ok_bind] at h
      injection h with h
      refine ⟨r, t, rfl, rfl, ?_⟩
      rw [← h]
      unfold namePrefix
      simp

/-- C44: two bitmap types with the same `name()` have the same block size, kind of tree, rank mode and
select mode (as values); the height of the tree does not show. -/
theorem C44 {c d : Config} {s : Name} (hc : bmName c = ok s) (hd : bmName d = ok s) :
    c.blk = d.blk ∧ c.fam = d.fam := by
  obtain ⟨r, t, h1, h2, e⟩ := bmName_eq hc
  obtain ⟨r', t', h1', h2', e'⟩ := bmName_eq hd
  have m1 := mapFind_mem h1
  have m1' := mapFind_mem h1'
  obtain ⟨hp, hx⟩ := comma_split (prefix_comma c) (prefix_comma d) (e.symm.trans e')
  obtain ⟨hr, hx⟩ := comma_split (rankMap_comma _ m1) (rankMap_comma _ m1') hx
  have ht : t = t' := List.append_cancel_right hx
  obtain ⟨hw, hf⟩ := prefix_inj hp
  have k1 := rankMap_inj _ m1 _ m1' hr
  have k2 := selectMap_inj _ (mapFind_mem h2) _ (mapFind_mem h2') ht
  refine ⟨?_, hf⟩
  have ext : ∀ x y : BlockType, x.width = y.width → x.rankMode = y.rankMode →
      x.selectMode = y.selectMode → x = y := by
    rintro ⟨_, _, _⟩ ⟨_, _, _⟩ h1 h2 h3
    cases h1; cases h2; cases h3; rfl
  exact ext _ _ hw k1 k2

/-- Every type with enumerators as modes has a name. -/
theorem C44_defined (c : Config) (hr : c.blk.rankMode ∈ RankMode.all)
    (hs : c.blk.selectMode ∈ SelectMode.all) : ∃ s, bmName c = ok s := by
  have k1 : ∀ m ∈ RankMode.all, ∃ s, printRankMode m = ok s := by
    intro m hm
    simp only [RankMode.all, List.mem_cons, List.not_mem_nil, or_false] at hm
    rcases hm with h | h | h | h | h | h | h | h | h | h | h | h <;> rw [h] <;> exact ⟨_, rfl⟩
  have k2 : ∀ m ∈ SelectMode.all, ∃ s, printSelectMode m = ok s := by
    intro m hm
    simp only [SelectMode.all, List.mem_cons, List.not_mem_nil, or_false] at hm
    rcases hm with h | h | h | h | h | h | h | h | h <;> rw [h] <;> exact ⟨_, rfl⟩
  obtain ⟨r, er⟩ := k1 _ hr
  obtain ⟨s, es⟩ := k2 _ hs
  exact ⟨_, by unfold bmName; rw [er, es, ok_bind, ok_bind]⟩

/-- Names of two exported types. -/
example : bmName ⟨⟨true, true, true, false⟩, .avx2, 2, block256A⟩ =
      ok "mutable_bitmap_256<avx2::segment_tree,builtin_unrolled,builtin_loop_pdep>".toList ∧
    bmName ⟨⟨true, true, true, false⟩, .avx512, 1, block512B⟩ =
      ok "mutable_bitmap_512<avx512::segment_tree,builtin,builtin_loop_pdep>".toList := by
  constructor <;> decide +kernel

end MRS.Props
