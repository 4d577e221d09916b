# Design of the formal model

Subject: `jermp/mutable_rank_select` (C++), source in `/repo`, read as text.
Tool: Lean 4.33.0 + selected Mathlib modules.  Project: `/verif/lean`.

## 1. How the code is modelled

* **Outcomes.**  Every modelled function returns `Outcome α = ok a | ub fault | abort`.
  `ub` is undefined behaviour (out-of-bounds access, misaligned access, shift >= 64,
  `ctz 0`, ...); `abort` is a failed `assert` (only when the build has assertions).
  "The function works" always means `= ok answer`, so every correctness theorem is also
  an absence-of-UB theorem.
* **Build flags.**  `Build` = {`ndebug`, `simd2` (= not `DISABLE_AVX`), `simd512`
  (= `AVX512`), `strictAlign`}.  `strictAlign = false` is the x86 view in which a
  misaligned access works; `strictAlign = true` is the language/intrinsic contract,
  where a misaligned access is `ub`.  Theorems quantify over the flags.
* **Integers.**  Index and counter arithmetic is on `Nat` with every wrap written out
  (`% 2^64`, `% 2^32`, `% 2^16`); bitmap words and word-level algorithms use `BitVec 64`.
* **Memory of the tree** (`m_data`): a byte-addressed buffer with a base address; typed
  loads/stores are little-endian, bounds checked, alignment checked.  All node code
  (`update`, `sum`, `search`, `build_node_prefix_sums`) works on those bytes.
* **SIMD**: each intrinsic is a lane function written from its documented semantics
  (signed `cmpgt`, `add`, `set1` truncation, mask extraction, `maskz_permutex`, `sad`).
  Both the SIMD and the scalar bodies of each node function are modelled.
* **std::vector** `m_bits`: list of words with checked indexing. `resize` keeps old words.
* `std::ceil(double/pow2)` is modelled as integer ceiling division (exact: operands
  below 2^53, divisors powers of two).
* Function-local `static` scratch arrays are explicit state for the concurrency model
  (C31) and locals elsewhere (each is fully overwritten before it is read).

Layout: `Verif/Spec.lean`, `Verif/SpecTree.lean`, `Verif/SpecPoppy.lean`, `Verif/SpecStream.lean`, `Verif/SpecText.lean` (specifications, independent of the model),
`Verif/Model/*` (code), `Verif/Proofs/*` (lemmas), `Verif/Props/*` (property theorems,
each with a non-vacuity `example`).

## 2. Trusted base

* Lean kernel; axioms `propext`, `Classical.choice`, `Quot.sound` only (no `sorry`,
  `native_decide`, `bv_decide`, own axioms).
* The transcription of the C++ text into `Verif/Model` (each definition cites file and
  lines).  Tables are generated from the source text by `tools/gen_*tables.py`.
* The semantics given to x86 intrinsics / instructions (`pdep`, `tzcnt`, `bt`/`sbb`, SIMD).
* Not modelled: compiler, allocator (only: `malloc` addresses are 16-byte aligned),
  caches/prefetch, `essentials`, benchmarks and tests under `/repo` (except the wrappers named),
  exceptions from
  allocation failure, strict-aliasing rules (the code type-puns `uint8_t` buffers).

## 3. Properties

| id | model / proof |
|----|----|
| C01 C04 C05 C06 C09 C10 C40 | bitmap model; invariant `BmRep`/`Held` (words = spec bits, index = block counts) kept by build and flip; induction over histories |
| C02 | C12 + C22/C23/C26 |
| C03 | C14 + C24/C26 |
| C07 C08 | consequences of C01-C03 through the list specification |
| C11 | all of the above results are `= ok ..` with `strictAlign = false` |
| C12 C13 C14 | tree model, one model per macro; invariant `TreeInv`; telescoping prefix sums |
| C15 | arithmetic of `build`'s level computation; wrong heights end in `ub`/`abort` |
| C16 | leaf representation allows arbitrary (<= 512) padding; non-interference theorem |
| C17 C18 | node model with a `NodeCfg` record; SIMD and scalar bodies both meet the contract |
| C19 | corollary of C01-C03 |
| C20 | bytewise decomposition of SWAR arithmetic |
| C21 | same, plus complete tables by kernel evaluation |
| C22 C23 C24 C26 | word-level lemmas + prefix sums over 4/8 words |
| C25 | mode tables; behaviour of the fall-through templates |
| C27 | bound part of `NodeRep` |
| C28 | negation with a concrete witness (node level and tree level) + `_partial` theorem with the density side condition |
| C29 | negation with witness; exact condition (`C29_iff`): the old bits that end up in the padding are zero |
| C30 | object-store model with shared buffers (`Model/Copy`): implicit memberwise copy and move, moved-from vectors are empty, buffer names are never reused; a tracker (`Model/Sharing`) that knows who shares which index; negation with witness, general failure theorem, positive theorem for the discipline |
| C31 | `Model/Threads`: rank/select as programs over the words of the static arrays, interleaved by a schedule; run alone they equal the functions of `Model/Block`/`Model/Bitmap` (`bmRankA_val`, `bmSelectA_val`); footprint invariant `Only`; negation with one bitmap and two readers, general failure theorems, positive theorem for non-overlapping or static-free instances |
| C32 | `strictAlign = true`: negation for avx2 SIMD heights 1-3 and avx512 height 3; exact condition on call sequences (`C32_iff`); positive for the rest and for all queries |
| C33 | `ndebug = false`: negation with witness; exact condition (`C33_iff`): no `build` leaves a block with more ones than its assertion allows |
| C34 C35 | model of `create_random_bits`, loop invariant; negation for short vectors |
| C36 | splitmix64 as bijection composed with an odd-increment counter |
| C37 | complete tables by `decide` |
| C38 | complete tables; negation for `builtin_loop` |
| C39 | arithmetic on the layout |
| C41 | lockstep relation between the debug and the release run of every function, by structural induction |
| C42 | lockstep relation between the strict and the tolerant run of every function |
| C43 | complete tables, entry by entry against a direct count of the byte |
| C45 | object-store model; without copies every index has one user and that user owns it |
| C46 C47 C48 | `Model/Hft`: each class is a byte or word array with its own position and width functions; generic loops over an abstract node store (`Sound`, `Holds`), per class a proof that positions are disjoint and accessors respect the fields; specification `SpecTree.lean` |
| C49 | negation with witnesses; exact for every size: `C49_find_iff` and `C49_comp_iff` say that the searches are right for all arrays, histories and values iff every zero of the size in binary is where the element type changes (full levels, `C49_partial`, have no zeros); for the other sizes, with `h` the first other zero, values below the prefix of the bits above `h` are found (`C49_find_first_partial`, `C49_comp_first_partial`, and `C49_find_below_partial`, `C49_comp_below_partial` for the leading ones), and a value that covers that prefix and the first `2^(h+1)` elements once more sends the search to the end (`C49_past`, `C49_comp_past`; witnesses for every such size `C49_wrong_place`, `C49_wrong_rest`, `C49_wrong_comp_rest`) |
| C50 | negation for the classical layouts, positive for the level-ordered ones |
| C51 | negation: general under strict shifts, witness of corruption under x86 shifts; `_partial` for roots of at most 57 bits |
| C52 | exact condition, both directions for every array |
| C53 | negation for every array whose root has 64 bits; `_partial` for 63 |
| C54 C55 C56 C57 | `Model/Hft/Hybrid` over the objects of `Model/Hft/Trees`; the array is cut into block sums and blocks (`Proofs/Hft/Blocks`), each part inherits the theorems of its class; C55-C57 have both the exact negation and the `_partial` complement |
| C58 | `Model/Poppy`; invariants of the two passes of the constructor over every L1 entry (`Inv1`, `Inv2`), contents of fresh arrays arbitrary; exact condition for the constructor (`C58_construct_iff`), rank exact on the positions it answers, undefined on the others |
| C59 | exact answer for the first superblock (`C59_actual`), negation for the last one of every word, `_partial`: iff condition for a right answer; in later superblocks the counters of the first one decide in which block `select` looks: the last one if the first superblock has too few ones (`C59_later_few`, `C59_later_wrong`), otherwise the one where the first superblock has its one of that number (`C59_later_first`), or it shifts by a negative number (`C59_later_shift`); lengths between 2^32 and 2^33 (uninitialised L2 entries are read) are missing |
| C60 | all four word functions against the specification; the two families disagree |
| C61 | sum over the L1 entries |
| C62 | `Model/Hft/Serial`: `swap_endian` bit by bit as written, output streams as byte lists, input streams as byte list and fail bit; `SpecStream.lean` has the format; written bytes equal the format, reading the format gives back an object with the same representation invariant, so C46-C48 apply to it |
| C63 | negation: undefined for every cut inside the header (`C63_header`), witness of a wrong answer (`C63_wrong`); `_partial`: after the header the fail bit is set and missing bytes count as zero |
| C64 | negation for every tree of fewer than 2^32 - 1 elements (`C64_write`), for every well-formed stream below 2^32 bytes (`C64_swapped`: each small tree uses up bytes, the count is at least 2^32); `_partial`: size and first block stay |
| C65 | exact value and negation for every object; closed form for `FixedF`; `Hybrid` by summing over the forest |
| C66 C67 C68 | `Model/Mranisz/Rank`: memory from `new[]` holds `none` until written; spec `SpecText.lean`; one invariant for the pass over the text (`PInv`), then per class what the kept array holds (`StdOK`, `BucketOK`/`BchOK`, `CInv`/`CFOK`); queries read only what the invariant names.  `_partial`: every position of a block the text touches; the end of a text of whole blocks is undefined (exact condition for the compressed headers), and so is building `RankCF64` on homogeneous blocks only and `build_bch` unless blocks + 1 is a multiple of 64 |
| C69 | closed forms from the same invariants; order of bits: equal on whole bytes, witness elsewhere |
| C70 C71 | `Model/Mranisz/Select`; spec `Text.UpTo`, `LastWide`, `LastAt` in `SpecText.lean`.  Groups of `L` ones: end, width, bytes stored before (`en`, `bl`, `off` of `Proofs/Mranisz/Sel`).  First loop: `SelBuild` writes the ends and counts the bytes; second loop: `SelLoop` (`S2Inv`: every group before the current has its data, the current one its part).  Queries (`SelQuery`): the three loops over words, bytes, bits find the `k`-th one.  `BuiltSel`/`BuiltBch` hold what is built, `Answers` says what every query gives, undefined or wrong cases included.  `_partial`: all but a last group that is exactly `L` wide; building is undefined without ones and for `Overflow`, both with exact conditions; misaligned loads are a separate outcome (`strict`) |
| C72 | closed forms from the same records; `bitsLen` bounded by a sum over groups; order of bits as C69, counted from one |
| C73 C74 | `Model/Mranisz/File`: files as byte lists, short reads stop the program; `FileIO` has what `save` writes and `load` reads for any object whose arrays are as long as it says; the object read back has the cells up to the saved length, so rank answers the same (`FileRank`).  Select (`FileSel`): the saved length comes from the first pass of `build`, which for the only group can count less than was written; `_partial`: exact condition (`Unsaved`), and then the last one is lost |
| C75 C76 | `Model/Mranisz/Mpe`; memory that is never written is `Junk`: a value for each cell, or none (undefined).  `MpeText`: pairs of a block, kept and left out (`kp`, `df`), ones before a position from the kept bytes (`T_inPair`); `MpeBuild` flags, pass and plan; `MpeEncode` the stored blocks (`StoredAt`); `MpeSuper` the superblocks (`MpeOK` holds what is built); `MpePlace`, `MpeQuery`, `MpeRank` the query.  `_partial`: every text but the empty one, if unwritten memory and unaligned words may be read; `build` reads an unwritten flag for every text (exact outcome); queries read only written bytes except in the last block that is not homogeneous |
| C77 C78 | closed forms from `MpeOK` and `MpeLink` (spec: `Text.pairs`, `total`, `bytes1` to `bytes3`); `load` makes an object that meets `MpeOK` again, so every query inside the blocks has the same outcome, undefined or not; the end of a text with 15 blocks (modulo 16) is lost |
| C79 C80 | `Model/Mranisz/SelMpe`; memory that is never written is `JunkS`.  `SelMpeText`: kind, bytes and offset of a group (`ks`, `wdS`, `offS`); `SelMpeWalk`, `SelMpePlan`, `SelMpeEnc`, `SelMpeLoop`, `SelMpeTop` the second and third loops over the text; `SelMpeSuper` the superblocks (`BuiltMpeS` holds what is built); `SelMpePlace` reading a superblock, `SelMpeQuery` restoring the bytes of a group in the order of the code (`takeLoop_ok`) and the exact outcome of a query (`outS`).  `_partial`: parameters whose offsets fit, texts with ones and without `Overflow`, not the last group if `LastWide`, and a quiet flag for a complete last group; `build` reads an unwritten flag for every text with ones (exact outcome); queries read only written bytes unless the last group takes `L` bits |
| C81 C82 | `SelMpeLink`: what tables and pairs left out add up to (`tabs_grow`, `mpe2_best`); offsets of groups of positions modulo 4096 (`narrow`); a group of `L` ones has at most `2L` bytes in pairs that are not zero (`dense_small`), so all other accepted parameters fit; `load` makes an object that meets `BuiltMpeS` again without values behind `bitsLen` (`selMpe_back`), or the last one is lost (`selMpe_lost`) |
| C83 C84 C85 | `Model/Mranisz/Rank32`; proofs as C66 to C68 with lengths below 2^32 (`Pass32`, `Basic32`, `HPass`, `CF32`); `RankCF32` keeps 32-bit halves and loads two of them as one word in the other order: `Swap` relates such a word to the text, the masks of `masksCF32Table` are swapped too.  `_partial`: texts up to 2^32 - 64 bytes, positions of blocks the text touches; `Wrap32`: the 63 longest texts are built as if empty.  Loads of eight bytes at multiples of four are undefined with `strict` (exact for even blocks left of the border) |
| C86 C87 | closed forms from the same records; `File32` as C73 |
| C88 C89 | `Model/Mranisz/Select32` (names of the 64-bit model in namespace `S32`); `S32Build`, `S32Loop`, `S32Top` as C70 with wrapping counters: `B` is what the first pass counts, `Short` the exact condition for writing beyond the array (`count_le`, `wrap_room`: a count that wraps leaves too little room), `S32Std` and `S32Bch` the queries.  `_partial`: texts below 2^29 bytes with ones whose entries and bytes fit (always so with 128/4096), not the last group if `LastWide`.  Negations: `_entries`, `_bytes`, `_beyond` for what does not fit |
| C90 C91 | closed forms from `BuiltSel` and `BuiltBch`; `Model/Mranisz/FileSel32`, `S32File` as C74 |
| C92 C93 | `Model/Mranisz/Mpe32`; flags, pass, plan and stored blocks are those of C75 (`Mpe32Build` shows that nothing wraps for texts up to 2^32 - 128 bytes), superblocks have 18 words of 32 bits (`Mpe32Super`, `Mpe32Place`), the query `Mpe32Rank`.  The array of flags has one element less than in the 64-bit class, so the flag that `build` reads behind the last block is outside of it: `Junk.flags` is what is there, `none` makes it undefined.  `C92_mpe_build_iff` says exactly which texts can be built.  `_partial` as C75 |
| C94 C95 | closed forms from `MpeOK32`; `Model/Mranisz/MpeFile32`, `Mpe32File` as C78 |
| C96 C97 | `Model/Mranisz/SelMpe32`; kinds, plans and stored bytes of a group are those of C79 (`S32mEnc`, `S32mLoop`: nothing wraps below 2^29 bytes), superblocks have 25 words of 32 bits (`S32mSuper`, `S32mPlace`), the query `S32mQuery`.  `SelMpe32Ok` is about the text only: entries and bytes fit.  `_partial` as C79 and C80; `C97_mpe32_never`: no text is built without reading a flag that was not written or is not there |
| C98 C99 | `S32mLink`: with 32 bits two offsets share the first word, so all accepted parameters fit their fields (`C98_mpe32_params`); sizes and files as C81, C82 |
| C100 | `Model/Mranisz/Threads`: a query is a program over the members `pointer` and `pointer2` that it writes; any number of threads, one query each, any schedule.  Run alone it gives the answer of the models above, whatever the members hold (`Query.act_val`, `C100_alone`).  `_partial`: no overlap with other queries of the same object, or a homogeneous block of the standard type; otherwise a race (`C100_race`, `C100_select_race`) and wrong answers (`C100_wrong`, `C100_false`).  Only the 64-bit classes without pairs; the others use the same two members, but are not modelled as programs |
| C101 | `Model/Mranisz/Life`: objects with pointers to arrays of a heap; programs of declarations, `build`, `load`, `free()`, scope ends, copies and assignments.  Generic in the class (`Life.Kind`); the ten classes in `Model/Mranisz/Classes`.  Invariant: each live array belongs to exactly one object.  `_partial`: programs without copies and assignments; those share arrays (`C101_copy`, `C101_unbuilt`, `C101_assign_leak`, `C101_false`).  Array contents are the object's value; failing `new` not modelled |
| C102 | `Model/Mranisz/Check`: `testRank` and `testSelect` over any query function.  Exactly what they print (`C102_rank_prints`, `C102_select_prints`), silent iff all answers are right (`C102_rank_silent`, `C102_select_silent`).  `_partial` for built objects: undefined for texts of whole blocks (`C102_rank_false`), reports for a wide last group of ones (`C102_select_std_partial`); instances for all classes of 32 and 64 bits (`Props/MraniszCheck`, `Props/MraniszCheck32`) |
| C103 | `Model/Tests`: test/test_mutable_bitmap.hpp, with the two random seeds and the scratch memory as parameters.  The loops over positions and ones accept exactly the right answers, whatever the implementation (`C103_rank_check`, `C103_select_check`).  `_partial`: the whole test of a correct bitmap passes iff the flips do not lower the number of ones (`C103_test_partial`); seeds for which it does not pass in `C103_test_false`.  Bitmaps up to 2^30 bits; log output and timing left out |
| C104 | `Model/TestBlocks`: test/test_rank_select_algorithms.hpp.  The naive functions by induction on words and bits; a test accepts exactly the right algorithms; every implemented mode passes for every seed and build (`C104_tests`, from C22–C24) |
| C105 | `Model/TestTrees`: test/test_node.hpp and test/test_tree.hpp over any array and any generator of arguments in range.  Sum and search phases accept exactly the right answers at the places they look at (`C105_tree_sum_check`, `C105_node_sum_check`, `C105_search_check`).  Correct trees pass for every array not all zero (`C105_tree`; invariant of the update runs: which entries have grown and by how much).  `_partial` for nodes (`C105_node_partial`): memory aligned, and no full segment of `2^28` in `avx2::node32`; else see `C105_node_align_false`, `C105_node32_false`.  `C105_node_blind`: arguments beyond `key_type` are not tested.  An all-zero array is excluded |
| C106 | `Model/Bench`: the benchmarks of single algorithms, perf_rank*, perf_select*, perf_prefix_sum256/512, perf_popcnt*, perf_search*: drawing blocks and arguments, the measured loops, the printed sums.  The sum is what the specification gives, a function of seed, size and bits only, so all modes of one program print the same (`C106_rank256`, `C106_rank512`, `C106_rank64`, `C106_prefix`, `C106_popcnt`, `C106_lanes`, `C106_select`); drawing for select ends on everything `create_random_bits` makes, and only if there is a one (`C106_select`, `C106_select_needs_one`).  `_partial` for search: every block must have a one (`C106_search_partial`), else it divides by zero (`C106_search_divides_by_zero`).  The vector modes of perf_popcnt print something else (`C106_popcnt_vec`).  Timers and printing are left out; the loop of perf_select that draws again runs on fuel, and running out is the outcome `diverges` |
| C107 | `Model/BenchStructs`: perf_mutable_bitmap, perf_immutable_bitmap with `poppy_wrapper`, and `perf_test` with the option `-i` (shared with perf_compressed_bitmap and perf_prefix_sum).  Every configuration prints for `rank`, `select` and `flip` what the specification gives for the queries drawn, so the lines depend on size, density and seeds only; the flips leave the bitmap as it was (`C107_rank`, `C107_select`, `C107_flip`; `select` within the range of C28).  poppy: `C107_poppy_rank_partial` if the last position is not drawn, else undefined (`C107_poppy_rank_last`, `C107_poppy_rank_repository`), and undefined below 2048 bits (`C107_poppy_short`).  `-i`: `C107_report`, `C107_option_oob`, `C107_help`.  Times, `bytes()` of mutable_bitmap and the sdsl and succinct wrappers (not in the tree) are left out |
| C108 | `Model/BenchStructs`: perf_prefix_sum and perf_hft for arbitrary values and draws.  `sum` prints the prefix sums asked for (`C108_sum`, `C108_hft_sum`); `search` what its specification gives, for numbers up to `n` only (`C108_search`, `C108_hft_search`).  `update` of perf_prefix_sum is 40 million decrements, which never fault (`C108_update_runs`), print and leave sums that are right modulo `2^16` (`C108_update_mod`) and are never all legal (`C108_update_false`, `C108_update_partial`, `C108_update_wraps`); of perf_hft right for the uncompressed classes (`C108_hft_update_partial`) and out of range for the others (`C108_hft_update_false`, `C108_hft_update_wraps`) |
| C109 | `Proofs/TreeShape`: which accesses `update` and `sum` make depends on the shape of the buffer only, shown by simulating every tree by one with all counters 1 (`C109_runs`, no condition on the counters).  `search` is not so protected: `C109_search_oob`, `C109_search_ctz` |
| C110 | `Proofs/TreeCong*`, `Proofs/TreeLoose`: `update` adds the same amount to every number stored, whatever it holds (two runs compared, nodes shown disjoint), so every number stays congruent to a sum of integers modulo its range; hence a tree whose counters end up in range is exact again: sums, searches, later updates (`C110_heals`) |
| C111 | `Proofs/TreeMod`: the same invariant carried through `sum`: right modulo `2^16` after any updates (`C111_sum_mod_partial`), not modulo `2^32` (`C111_not_mod32`) |
| C112 | `Model/BenchCompressed`: perf_compressed_bitmap.cpp over the thirteen classes (as `Kind`s): `rank` proved for `rank_basic`, and for the others under the conditions of C67, C68, C75; `select` under those of C70, C71, C79 (`_partial`: last group not wide, no overflow); negations: wrong total with the program's own seeds (`C112_select_false`), undefined `build` (`C112_rank_cf_homog`, `C112_rank_bch_beyond`, `C112_*_unwritten`) |
| C44 | names are split at their commas; the two maps are injective |

## 4. Threads (C31)

Each word access to a static array is one atomic step; schedules are lists of thread numbers.  This is
kinder than C++ (a data race is undefined behaviour) and than the hardware (vector accesses can be seen
partly).  `C31_wrong` therefore does not depend on either; `C31_race` states the race itself.

## 5. Findings about the unchanged code

* F1 `avx2/node` updates use aligned 256-bit accesses on data that `malloc` aligns to 16 bytes (C32).
* F2 `avx512::segment_tree<3>` reads 64-bit summaries at 4-byte aligned addresses (C32).
* F3 `avx2::segment_tree<4>` over 512-bit blocks with SIMD code: search compares signed 32-bit keys, and
  keys reach 2^31 on dense bitmaps; select fails exactly at the ranks of `Config.SelectBad` (C28).
* F4 `build` on a used object keeps old words in the padding (C29).
* F5 the implicit copy of a bitmap leaves `m_ptr` of the copy pointing into the original (C30).
* F6 rank and select keep scratch data in function-local static arrays (C31).
* F7 `avx512` debug builds assert that block counts are at most 256, also for 512-bit blocks (C33).
* F8 `builtin_loop` prints as `builtin` (C38).
* F9 the padding of the last leaf is stale after a rebuild; not observable (C16).
* F10 `create_random_bits` leaves the vector when it has fewer than four words and all are zero (C35).
* F11 a tree whose template height is not `height(n)` fails at once (C15).
* F12 `TypeL::find` and `compFind` test against the end of the array instead of the end of the level (C49).
* F13 `find` and `compFind` of the classical Fenwick classes call `clzll(0)` on an empty tree; `add(0, ..)`
  never ends or calls `ctz(0)` (C50).
* F14 `bitwrite_inc` shifts by 64 whenever a node starts a word (every non-empty `BitL`), and does not
  sign-extend the carry of a decrease into the next word (C51).
* F15 `TypeF` makes misaligned accesses unless all nodes have one type (C52).
* F16 `TypeL` with a root of exactly 64 bits stores through a null pointer (C53).
* F17 `find` past the total returns `size()`, the interface comment says zero (C47).
* F18 `operator>>` of `TypeF` and `TypeL` assigns to a `const` `Size`: it does not compile when used (not expressible in the model).
* F19 `Hybrid::find`/`compFind` with small trees of classical numbering call `clzll(0)` when the search ends
  in an empty small tree: number of elements a multiple of `2^CUT` and value at least the total, or `CUT` 0
  (C55, C56).
* F20 `Hybrid::add` past the end reads past the vector of small trees (C57).
* F21 `poppy::select64` is 0-based from the least significant end but `select512` calls it 1-based and
  `rank` counts from the most significant end: `select` is right only by chance and never for the last
  one of a word; 64 is shifted by when a word is full (C59).
* F22 `poppy::rank(pos)` reads out of bounds for every position after the last whole line of 2048 bits
  (or whole superblock, from 2^32 bits on), `pos = nbits` included (C58).
* F23 the `poppy` constructor writes out of bounds for fewer than 2048 bits, for a superblock with more than
  2^32 - 8192 ones (`cum + 8191` wraps), and when the blocks after the last whole line bring the samples
  over the reserved number (C58).
* F24 `poppy::select(0)` reads before the L1 table (C59); for later superblocks it reads the L2 entries of
  the first one (`l2Entries_[l2Id]` without `offset`): wrong positions or a negative shift (`C59_later_*`).
* F25 `poppy::bytes()` leaves out the two arrays of 65536 entries inside the object (768 KiB, C61).
* F26 `operator>>` of the Fenwick classes does not look at the state of the stream: a cut header leads to the
  use of uninitialised counts, a cut tree to zeros in place of the missing nodes (C63).
* F27 `Hybrid::operator<<` loops up to the byte-swapped number of small trees and reads past the vector (C64).
* F28 `Hybrid::operator>>` does not swap the number of small trees back, throws the number of elements away, and
  appends the small trees that it reads to those already there (C64).
* F29 `bitCount()` subtracts `sizeof(Tree)` in bytes from a number of bits: 112 too many for each array;
  `Hybrid::bitCount()` adds the size of the object in bytes, and of `Hybrid<BOTTOM, TOP, ...>` (C65).
* F30 `RankBasic64` (standard) and `RankCF64`: `rank(8 * textLen)` reads memory that was never written when the
  text is made of whole blocks of 64 bytes (C66, C68); the library's `testRank` asks for it.
* F31 `build_bch` reads `emptyBlock` beyond its end unless blocks + 1 is a multiple of 64; the values do not matter
  to any answer (C67).  The end query is answered only under the condition of `C67_bch_end`.
* F32 `RankCF64::build` runs out of bounds on every text whose blocks are all homogeneous (C68).
* F33 `getSize()` of the compressed rank leaves out 552 (`RankCF64`: 528) bytes of members (mostly the
  table `masks`, one per object), and 128 bytes of an
  allocated array when no block is stored (C69).
* F34 the compressed rank numbers bits from the most significant bit of each byte, the rest of the library from the
  least; the two agree on whole bytes (C69; the source says so in a comment).
* F35 compressed select: when the last group has fewer than `L` ones but is exactly `L` bits wide (16 bytes, only
  the last bit set, `L = 128`), it is taken for `L` ones: `select(1)` is 0 instead of 127 (C70, C71).
* F36 compressed select with fewer than `L` ones and the last one at position `THRESHOLD`: the first pass counts a
  bitmap, the second writes 8 bytes for each one, beyond the array if there are enough (C70, C71).
* F37 compressed select of a text without ones: the standard variant reads an entry that was never written, the
  compressed headers write zeros beyond the array from 130 bytes on (C70, C71).
* F38 compressed select reads 64-bit words at byte offsets that need not be multiples of 8 (C70: `C70_std_misaligned`).
* F39 `getSize()` of the compressed select leaves out 2088 bytes of members, and 128 bytes that are allocated when
  nothing is stored (C72).
* F40 the compressed select counts from one and answers `2^64 - 1` for 0; the benchmark asks for 0 up to the number
  of ones less one, as of the other classes (C72: `C72_wrapper_select_false`).
* F41 `selectLenTempNotExtended` is `unsigned int`: beyond `2^31` groups `build_bch` would use a truncated length
  (precondition of C71).
* F42 compressed select: for a text of fewer than `L` ones the first pass counts the bytes of the group from another
  width than the second pass uses.  When it counts too few (last one at a multiple of 8 below `THRESHOLD`, or at
  `THRESHOLD` with many ones), `save` leaves the rest out and after `load` the last one cannot be found (C74:
  `C74_std_lost`, `C74_bch_lost`).
* F43 `RankMPE64::build` packs the flags (`blockToCompress`) of blocks that do not exist: for every text it reads one
  that was never written, and others beyond the array (C76: `C76_mpe_build_unwritten`).  The answers do not depend
  on them (C75).
* F44 `RankMPE64::build` of an empty text reads `ranksTemp[2^64 - 1]` (C75: `C75_mpe_empty`).
* F45 `RankMPE64::rank` reads up to 8 bytes after the last stored block, which `build` allocates but never writes
  (`save` writes them to the file); the bits are masked away (C76: `C76_mpe_last_unwritten`).
* F46 `RankMPE64::rank` reads 64-bit words at stored blocks, whose sizes are even but need not be multiples of 8
  (C76: `C76_mpe_aligned`).
* F47 `RankMPE64::rank` of the number of bits, for texts of whole blocks, reads beyond the arrays inside the room for
  alignment; with 15 blocks modulo 16 that is a rank which was never written (C75: `C75_mpe_end_partial`, C78:
  `C78_mpe_end_lost`).
* F48 `getSize()` of `RankMPE64` leaves out 1568 bytes of members (C77).
* F49 `SelectMPE64::build` writes no flag for a complete last group (`blockToCompress` is only set when another group
  follows or the group is incomplete) and packs it anyway; if memory holds a nonzero value there, ones of this group are
  answered from bytes that mean something else (C79: `C79_mpe_flag_wrong`, C80: `C80_mpe_build_unwritten`).
* F50 `SelectMPE64::build` packs the flags of groups that do not exist, read beyond the array (C80); without ones the
  array has no entries and its first is read or written (C80: `C80_mpe_no_ones`).  F35, F36, F38, F40 and F42 apply as for
  `SelectBasic64` (C79: `C79_mpe_last_wrong`, C80: `C80_mpe_overflow`, C82: `C82_mpe_lost`).
* F51 `SelectMPE64::select` copies one byte more than a group has when its last byte is the first of a pair; for the last
  stored group that byte was never written, and it need not be saved (C80: `C80_mpe_unwritten`, C82:
  `C82_mpe_unwritten`).  Its value is not used.
* F52 `SELECT_MPE2` and `SELECT_MPE3` read twelve bits of the offsets of the second to fifth group of a superblock, but the
  constructor only asks for fifteen groups to fit fourteen bits: with `129 <= L <= 137` it accepts parameters for which the
  fifth of five groups of positions is answered with ones of the first (C81: `C81_mpe_narrow`).  The benchmark's
  parameters are not affected, nor any other parameters that the constructor accepts (`C79_mpe_select_partial`).
* F53 `getSize()` of `SelectMPE64` leaves out 2104 bytes of members and `buffer`, and 128 bytes that are allocated when
  nothing is stored (C81).
* F54 The 32-bit rank classes pad the text length in `unsigned int`: for the 63 longest texts (above 2^32 - 64 bytes) the
  padded length is zero and the object is built as if the text were empty.  `RankBasic32` standard and `RankCF32` then
  read null for every query (C83, C85: `_longest`); with compressed headers the first 15872 positions are all answered 0
  (C84: `C84_bch_rank_false`).
* F55 F30 to F32 apply to the 32-bit classes: the end of a text of whole blocks (C83, C84, C85), flags read beyond their
  array by `build_bch` (C84), `RankCF32::build` on homogeneous blocks only (C85).
* F56 `RankCF32::rank` loads `unsigned long long` from an array of `unsigned int` at odd indices: for even blocks left of
  the border that hold both bits every load is misaligned (C85: `C85_cf_misaligned`).  x86 tolerates it.
* F57 `RankCF32::getSize()` returns `unsigned int`: for texts just below 4 GiB without homogeneous blocks it reports about
  256 MiB of more than 4 GiB (C86: `C86_cf_size_false`).  It also leaves out 528 bytes of members.
* F58 `SelectBasic32` measures in `unsigned int` without checks: when the entries (`L <= 2`) or the stored bytes (`L = 6`,
  `THRESHOLD = 7`, 2^28 bytes 3F) do not fit, `build` allocates the wrapped size and writes beyond it (C88, C89:
  `_entries`, `_bytes`); ones from position 2^32 on, in texts of more than 2^29 bytes, are never answered right (`_beyond`).
* F59 F35 to F38, F40 and F42 apply to the 32-bit select classes (C88, C89, C91); with 128/4096 F36 cannot happen, as
  positions take four bytes.  `getSize()` leaves out 1068 bytes of members, and 128 bytes that are allocated when nothing
  is stored (C90).
* F60 `RankMPE32::build` allocates one flag less than `RankMPE64` and reads one behind the last: an access outside of the
  array for every text (C93: `C93_mpe_build_beyond`), where the 64-bit class reads an unwritten element (F43).
* F61 `RankMPE32` pads the length modulo 2^32 and computes the size of the stored bytes modulo 2^32: the 127 longest texts
  and those of 2^32 - 255 bytes or more that are not compressed (2^32 - 128 bytes 55) are written outside of what is
  allocated (C92: `C92_mpe_longest`, `C92_mpe_many_bytes`).  Every shorter text fits (`fitsMpe_of_length`).
* F62 Unwritten bytes, alignment, the end lost by `save`, and `getSize()` (1572 bytes) are as in the 64-bit class (C93 to
  C95).
* F63 F49 to F51 apply to `SelectMPE32`: no text is built without reading a flag that was not written or does not exist
  (C97: `C97_mpe32_never`), and what memory held can decide answers (C96: `C96_mpe32_flag_wrong`).  F58 and F59 apply as
  for `SelectBasic32` (C96: `_beyond`, `_last_wrong`, C97: `_entries`, `_bytes`, `_overflow`, C99: `_lost`).  F52 does not
  (C98: `C98_mpe32_params`).
* F64 `getSize()` of `SelectMPE32` leaves out 1084 bytes, and 128 more that are allocated when nothing is stored (C98).
* F65 Queries of the compressed structures write the members `pointer` and `pointer2` of the object.  Two threads that
  query one object race (C100: `C100_race`, `C100_select_race`), and even with harmless races the first thread may count
  the ones of the other thread's block (`C100_wrong`, `C100_select_wrong`).
* F66 The compressed structures declare neither copy constructor nor assignment.  A copy of a built object shares its
  arrays: the second destructor deletes them again, and queries between read deleted memory (C101: `C101_copy`).  For
  `SelectMPE32` and `SelectMPE64` copying a fresh object suffices (`C101_unbuilt`).  Assigning to a built object leaks
  its arrays (`C101_assign_leak`).
* F67 `testRank` ends with the query `rank(8 * textLen)`, which is undefined for texts of whole blocks (C102:
  `C102_rank_std_partial`, `C102_rank_false`), so there the self-check of a correct object reads beyond its arrays.
* F68 `test_mutable_bitmap` reuses the number of ones counted before the flips for the `select` queries after them.  If
  the flips lower it, the test walks off the words and cannot pass, although every answer is right (C103:
  `C103_test_partial`, `C103_test_false`).
* F69 `test_node` keeps the node in a `std::vector<uint8_t>`, aligned to 16 bytes, while `avx2::node128::update` uses an
  aligned load of 32 bytes; the test faults if the vector is not aligned to 32 (C105: `C105_node_align_false`).  With
  values up to `2^28` the test of `avx2::node32` can draw a segment whose sum is `2^31`, where `search` is wrong
  (`C105_node32_false`).  It draws search arguments in `key_type`, so for `node128` and `node512` none from `2^16` on
  is tested (`C105_node_blind`).
* F70 perf_search256 and perf_search512 draw `hasher.next() % r`, `r` the ones of the block drawn, without the test
  `r != 0` of perf_select*: a block of zeros is a division by zero (C106: `C106_search_divides_by_zero`).  The vector
  modes of perf_popcnt256/512 write `tmp =` where the others add, so they print the ones of one word and the calls
  before are dead code (`C106_popcnt_vec`).  The vector comparison of perf_search is signed (`C106_search_signed`).
* F71 The option `-i` is used as an index of `sizes` unchecked (C107: `C107_option_oob`), and the help texts name values
  out of range: 24 to 72 for perf_prefix_sum with 17 sizes, 0 to 25 for perf_immutable_bitmap with 25 and for
  perf_compressed_bitmap with 24 (`C107_help`).  perf_immutable_bitmap poppy rank is undefined behaviour for the first
  eight of its sizes with the seed in the source: too short for the constructor up to `2^10`, and the last position is
  asked for from `2^11` to `2^15` (`C107_poppy_short`, `C107_poppy_rank_repository`).
* F72 perf_prefix_sum and perf_hft compare the operation with `sarch`, so `search` is benchmarked with numbers below `n`
  instead of below the sum and visits only the front of the array (C108: `C108_search`, `C108_hft_search`).  The deltas
  `+1` and `-1` of perf_prefix_sum become `true` when passed as `bool sign`, so `update` only decrements and every
  counter drawn passes below zero (`C108_update_false`); in perf_hft every element drawn moves 4000 or more in one
  direction, out of the range of the compressed classes (`C108_hft_update_false`).
* F73 One decrement of a counter that is 0 is harmless for `update` and `sum` but makes `search` read out of bounds (avx2)
  or count the trailing zeros of 0 (avx512) for numbers below what `sum` reports (C109: `C109_search_oob`,
  `C109_search_ctz`).  `update` has no assertion on the counters.
* F74 While a counter is below 0, `sum` mixes 16-bit and 32-bit wrapping: after one decrement of a counter that is 0 the
  prefix sums of value -1 are reported as 65535 within the segment and as `2^32 - 1` behind it (C111: `C111_not_mod32`).
  The tree recovers once the counter is back in range (C110).
* F75 `perf_compressed_bitmap select_basic_512_8192 select 0.5` asks, for its smallest size and its own seeds, an object
  that answers every query wrongly (233 ones, the last at position 511, so the wide last group of C70): every line shows
  the sum of `q - 1` (C112: `C112_select_false`).  The program also draws numbers from 0 while the classes count
  from one: `select(0)` adds `2^64 - 1` and the last one is never asked for.  `rank_cf` is undefined for a density so near
  to 1 that all bits are ones (`C112_rank_cf_homog`).

"avx2/..." and "avx512/..." in comments stand for `include/segment_tree/avx2/...` and
`include/segment_tree/avx512/...`.
