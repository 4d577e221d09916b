import Verif.Model.Bitmap

/-!
# Printed names

`rank_mode_map`, `print_rank_mode` (rank.hpp), `select_mode_map`, `print_select_mode` (select.hpp),
`name()` of the trees and of `mutable_bitmap`.  Strings are lists of characters.
-/

set_option autoImplicit false

namespace MRS
open Outcome

/-- A name. -/
abbrev Name := List Char

/-- `std::map` built from an initializer list: of entries with equal keys the first is kept, so
`find` sees the first; `find(k)->second` on an absent key dereferences `end()`. -/
def mapFind (m : List (Nat × Name)) (k : Nat) : Outcome Name :=
  match m.find? fun e => e.1 == k with
  | some e => ok e.2
  | none => ub .oob

/-- The initializer of `rank_mode_map`, rank.hpp lines 53-72 (all of `__SSE4_2__`, `__AVX2__`,
`__AVX512VL__` defined; without them the enumerators are missing as well). -/
def rankModeMap : List (Nat × Name) := [
  (RankMode.broadword_loop, "broadword_loop".toList),
  (RankMode.broadword_unrolled, "broadword_unrolled".toList),
  (RankMode.builtin, "builtin".toList),
  (RankMode.builtin_loop, "builtin_loop".toList),
  (RankMode.builtin_unrolled, "builtin_unrolled".toList),
  (RankMode.avx2_loop, "avx2_loop".toList),
  (RankMode.avx2_unrolled, "avx2_unrolled".toList),
  (RankMode.builtin_parallel, "builtin_parallel".toList),
  (RankMode.avx512_loop, "avx512_loop".toList),
  (RankMode.avx2_parallel, "avx2_parallel".toList),
  (RankMode.avx512_unrolled, "avx512_unrolled".toList),
  (RankMode.avx512_parallel, "avx512_parallel".toList)]

/-- `print_rank_mode`, rank.hpp lines 74-76. -/
def printRankMode (m : Nat) : Outcome Name := mapFind rankModeMap m

/-- The initializer of `select_mode_map`, select.hpp lines 199-215. -/
def selectModeMap : List (Nat × Name) := [
  (SelectMode.broadword_loop_sdsl, "broadword_loop_sdsl".toList),
  (SelectMode.broadword_loop_succinct, "broadword_loop_succinct".toList),
  (SelectMode.builtin_loop_sdsl, "builtin_loop_sdsl".toList),
  (SelectMode.builtin_loop_succinct, "builtin_loop_succinct".toList),
  (SelectMode.pdep, "pdep".toList),
  (SelectMode.builtin_loop_pdep, "builtin_loop_pdep".toList),
  (SelectMode.builtin_avx512_pdep, "builtin_avx512_pdep".toList),
  (SelectMode.avx2_avx512_pdep, "avx2_avx512_pdep".toList),
  (SelectMode.avx512_avx512_pdep, "avx512_avx512_pdep".toList)]

/-- `print_select_mode`, select.hpp lines 217-219. -/
def printSelectMode (m : Nat) : Outcome Name := mapFind selectModeMap m

/-- `segment_tree::name`, avx2/segment_tree.hpp lines 147-149, avx512/segment_tree.hpp 139-141. -/
def TreeFam.name : TreeFam → Name
  | .avx2 => "avx2::segment_tree".toList
  | .avx512 => "avx512::segment_tree".toList

/-- `std::to_string(block_size)`. -/
def Width.name : Width → Name
  | .w64 => "64".toList
  | .w256 => "256".toList
  | .w512 => "512".toList

/-- `mutable_bitmap::name`, mutable_bitmap.hpp lines 39-44. -/
def bmName (c : Config) : Outcome Name := do
  let r ← printRankMode c.blk.rankMode
  let s ← printSelectMode c.blk.selectMode
  ok ("mutable_bitmap_".toList ++ c.blk.width.name ++ "<".toList ++ c.fam.name ++ ",".toList ++ r ++
    ",".toList ++ s ++ ">".toList)

end MRS
