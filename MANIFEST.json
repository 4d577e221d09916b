{
 "claims": [
  {
   "property": "C01",
   "status": "proved",
   "theorems": [
    "MRS.Props.C01_access",
    "MRS.Props.C01_access_build_flips"
   ],
   "note": ""
  },
  {
   "property": "C02",
   "status": "proved",
   "theorems": [
    "MRS.Props.C02_rank"
   ],
   "note": ""
  },
  {
   "property": "C03",
   "status": "proved",
   "theorems": [
    "MRS.Props.C03_select",
    "MRS.Props.C03_select_unique"
   ],
   "note": ""
  },
  {
   "property": "C04",
   "status": "proved",
   "theorems": [
    "MRS.Props.C04_flip"
   ],
   "note": ""
  },
  {
   "property": "C05",
   "status": "proved",
   "theorems": [
    "MRS.Props.C05_flip_involution"
   ],
   "note": ""
  },
  {
   "property": "C06",
   "status": "proved",
   "theorems": [
    "MRS.Props.C06_flips_commute"
   ],
   "note": ""
  },
  {
   "property": "C07",
   "status": "proved",
   "theorems": [
    "MRS.Props.C07_rank_select"
   ],
   "note": ""
  },
  {
   "property": "C08",
   "status": "proved",
   "theorems": [
    "MRS.Props.C08_select_rank"
   ],
   "note": ""
  },
  {
   "property": "C09",
   "status": "proved",
   "theorems": [
    "MRS.Props.C09_rank_steps"
   ],
   "note": ""
  },
  {
   "property": "C10",
   "status": "proved",
   "theorems": [
    "MRS.Props.C10_size_padding"
   ],
   "note": ""
  },
  {
   "property": "C11",
   "status": "proved",
   "theorems": [
    "MRS.Props.C11_no_undefined_behaviour"
   ],
   "note": ""
  },
  {
   "property": "C12",
   "status": "proved",
   "theorems": [
    "MRS.Props.C12_sum"
   ],
   "note": ""
  },
  {
   "property": "C13",
   "status": "proved",
   "theorems": [
    "MRS.Props.C13_update"
   ],
   "note": ""
  },
  {
   "property": "C14",
   "status": "proved",
   "theorems": [
    "MRS.Props.C14_search",
    "MRS.Props.C14_search_smallest"
   ],
   "note": ""
  },
  {
   "property": "C15",
   "status": "proved",
   "theorems": [
    "MRS.Props.C15_height_zero",
    "MRS.Props.C15_height_least",
    "MRS.Props.C15_levels",
    "MRS.Props.C15_too_low",
    "MRS.Props.C15_too_high"
   ],
   "note": ""
  },
  {
   "property": "C16",
   "status": "proved",
   "theorems": [
    "MRS.Props.C16_previous_state",
    "MRS.Props.C16_tail_unobservable",
    "MRS.Props.C16_leftover_exists"
   ],
   "note": ""
  },
  {
   "property": "C17",
   "status": "proved",
   "theorems": [
    "MRS.Props.C17_node",
    "MRS.Props.C17_update_fanout"
   ],
   "note": ""
  },
  {
   "property": "C18",
   "status": "proved",
   "theorems": [
    "MRS.Props.C18_builds_agree"
   ],
   "note": ""
  },
  {
   "property": "C19",
   "status": "proved",
   "theorems": [
    "MRS.Props.C19_configuration_independence"
   ],
   "note": ""
  },
  {
   "property": "C20",
   "status": "proved",
   "theorems": [
    "MRS.Props.C20_popcount",
    "MRS.Props.C20_popcount_lane",
    "MRS.Props.C20_byte_counts"
   ],
   "note": ""
  },
  {
   "property": "C21",
   "status": "proved",
   "theorems": [
    "MRS.Props.C21_select_u64"
   ],
   "note": ""
  },
  {
   "property": "C22",
   "status": "proved",
   "theorems": [
    "MRS.Props.C22_rank_u256"
   ],
   "note": ""
  },
  {
   "property": "C23",
   "status": "proved",
   "theorems": [
    "MRS.Props.C23_rank_u512"
   ],
   "note": ""
  },
  {
   "property": "C24",
   "status": "proved",
   "theorems": [
    "MRS.Props.C24_select_u256",
    "MRS.Props.C24_select_u512"
   ],
   "note": ""
  },
  {
   "property": "C25",
   "status": "proved",
   "theorems": [
    "MRS.Props.C25_exported",
    "MRS.Props.C25_rank_u256",
    "MRS.Props.C25_rank_u512",
    "MRS.Props.C25_select_u256",
    "MRS.Props.C25_select_u512"
   ],
   "note": ""
  },
  {
   "property": "C26",
   "status": "proved",
   "theorems": [
    "MRS.Props.C26_rank64",
    "MRS.Props.C26_select64"
   ],
   "note": ""
  },
  {
   "property": "C27",
   "status": "proved",
   "theorems": [
    "MRS.Props.C27_fields_exact",
    "MRS.Props.C27_full"
   ],
   "note": ""
  },
  {
   "property": "C28",
   "status": "partial",
   "theorems": [
    "MRS.Props.C28_partial",
    "MRS.Props.C28_fails",
    "MRS.Props.C28_iff",
    "MRS.Props.C28_where",
    "MRS.Props.C28_false"
   ],
   "note": "False of the code as it stands: C28_false gives a witness. C28_iff says exactly at which ranks select fails, C28_where in which configuration and from how many ones."
  },
  {
   "property": "C29",
   "status": "partial",
   "theorems": [
    "MRS.Props.C29_partial",
    "MRS.Props.C29_iff",
    "MRS.Props.C29_whole_or_larger",
    "MRS.Props.C29_false"
   ],
   "note": "False of the code as it stands: C29_false gives a witness. C29_iff gives the exact condition: the old bits left in the padding are zero."
  },
  {
   "property": "C30",
   "status": "partial",
   "theorems": [
    "MRS.Props.C30_partial",
    "MRS.Props.C30_false",
    "MRS.Props.C30_wrong",
    "MRS.Props.C30_dangling"
   ],
   "note": "False as stated (C30_false): the implicit copy shares the index pointer. C30_wrong: after a copy, a flip through either object makes rank of the other wrong by one behind the block, for every bitmap and history. C30_dangling: destroying the original leaves the copy's index dangling. C30_partial: all programs that respect the sharing discipline are right. Missing: objects whose index was spoilt."
  },
  {
   "property": "C31",
   "status": "partial",
   "theorems": [
    "MRS.Props.C31_false",
    "MRS.Props.C31_partial",
    "MRS.Props.C31_disjoint_partial",
    "MRS.Props.C31_race",
    "MRS.Props.C31_wrong"
   ],
   "note": "False in general: two ranks of one template instance with static arrays race at their first access (C31_race) and give wrong answers under some schedule (C31_wrong, C31_false). Partial: right when no other query of the same instance overlaps (lock discipline), or the instance has no static arrays; then also no data race. Missing: overlapping queries of one instance, where the claim is false."
  },
  {
   "property": "C32",
   "status": "partial",
   "theorems": [
    "MRS.Props.C32_iff",
    "MRS.Props.C32_queries",
    "MRS.Props.C32_partial",
    "MRS.Props.C32_avx2",
    "MRS.Props.C32_avx512",
    "MRS.Props.C32_false"
   ],
   "note": "False as stated (C32_false): SIMD flips on avx2 trees of height 1-3 and builds of avx512 trees of height 3. C32_iff gives the exact condition on a sequence of calls; queries never make a misaligned access (C32_queries). Missing for the full statement: exactly the excluded cases."
  },
  {
   "property": "C33",
   "status": "partial",
   "theorems": [
    "MRS.Props.C33_partial",
    "MRS.Props.C33_iff",
    "MRS.Props.C33_build",
    "MRS.Props.C33_false"
   ],
   "note": "False of the code as it stands: C33_false gives a witness. C33_iff says exactly which call sequences stop at an assertion; C33_build spells it out for one build."
  },
  {
   "property": "C34",
   "status": "proved",
   "theorems": [
    "MRS.Props.C34",
    "MRS.Props.C34_zero_needed"
   ],
   "note": "Exact description of the bits, for zero vectors of at least 4 words; C34_zero_needed shows the zero vector is needed."
  },
  {
   "property": "C35",
   "status": "partial",
   "theorems": [
    "MRS.Props.C35_iff",
    "MRS.Props.C35_partial",
    "MRS.Props.C35_false"
   ],
   "note": "False as stated (C35_false: empty vector). C35_iff gives the exact condition; C35_partial covers vectors of at least four words."
  },
  {
   "property": "C36",
   "status": "proved",
   "theorems": [
    "MRS.Props.C36_period",
    "MRS.Props.C36_onto",
    "MRS.Props.C36_seeds"
   ],
   "note": ""
  },
  {
   "property": "C37",
   "status": "proved",
   "theorems": [
    "MRS.Props.C37",
    "MRS.Props.C37_rows"
   ],
   "note": "Complete tables against a closed form, and the rows the six node classes read."
  },
  {
   "property": "C38",
   "status": "partial",
   "theorems": [
    "MRS.Props.C38_partial",
    "MRS.Props.C38_false"
   ],
   "note": "False as stated: builtin_loop prints builtin (C38_false). Every other mode prints its name."
  },
  {
   "property": "C39",
   "status": "proved",
   "theorems": [
    "MRS.Props.C39",
    "MRS.Props.C39_empty",
    "MRS.Props.C39_index",
    "MRS.Props.C39_overhead"
   ],
   "note": "Exact size; the fixed part of essentials::vec_bytes (submodule absent) is a parameter."
  },
  {
   "property": "C40",
   "status": "proved",
   "theorems": [
    "MRS.Props.C40_ones_move_by_one"
   ],
   "note": ""
  },
  {
   "property": "C41",
   "status": "proved",
   "theorems": [
    "MRS.Props.C41_mutators",
    "MRS.Props.C41_queries"
   ],
   "note": ""
  },
  {
   "property": "C42",
   "status": "proved",
   "theorems": [
    "MRS.Props.C42_mutators",
    "MRS.Props.C42_queries"
   ],
   "note": "Any calls on any object state."
  },
  {
   "property": "C43",
   "status": "proved",
   "theorems": [
    "MRS.Props.C43",
    "MRS.Props.C43_bounds"
   ],
   "note": "Complete finite tables."
  },
  {
   "property": "C44",
   "status": "proved",
   "theorems": [
    "MRS.Props.C44",
    "MRS.Props.C44_defined"
   ],
   "note": ""
  },
  {
   "property": "C45",
   "status": "proved",
   "theorems": [
    "MRS.Props.C45"
   ],
   "note": "All programs without copies, any number of objects; misaligned accesses (C32) tolerated; ranks at which select fails (C28) excepted."
  },
  {
   "property": "C46",
   "status": "proved",
   "theorems": [
    "MRS.Props.C46"
   ],
   "note": "all eight classes, limits stated per class"
  },
  {
   "property": "C47",
   "status": "proved",
   "theorems": [
    "MRS.Props.C47",
    "MRS.Props.C47_past_end"
   ],
   "note": "seven classes; TypeL is C49"
  },
  {
   "property": "C48",
   "status": "proved",
   "theorems": [
    "MRS.Props.C48"
   ],
   "note": "seven classes; TypeL is C49"
  },
  {
   "property": "C49",
   "status": "partial",
   "theorems": [
    "MRS.Props.C49_partial",
    "MRS.Props.C49_find_below_partial",
    "MRS.Props.C49_comp_below_partial",
    "MRS.Props.C49_find_first_partial",
    "MRS.Props.C49_comp_first_partial",
    "MRS.Props.C49_find_iff",
    "MRS.Props.C49_comp_iff",
    "MRS.Props.C49_wrong",
    "MRS.Props.C49_wrong_comp",
    "MRS.Props.C49_past",
    "MRS.Props.C49_comp_past",
    "MRS.Props.C49_wrong_place",
    "MRS.Props.C49_wrong_rest",
    "MRS.Props.C49_wrong_comp_rest"
   ],
   "note": "false in general; exact: for a size, find and compFind are right for all arrays, histories and values iff every zero of the size in binary is where the element type changes (C49_find_iff, C49_comp_iff); for the other sizes right below the first such zero and sent to the end past it, with witnesses for every such size"
  },
  {
   "property": "C50",
   "status": "partial",
   "theorems": [
    "MRS.Props.C50_partial",
    "MRS.Props.C50_wrong",
    "MRS.Props.C50_add0_fixedF",
    "MRS.Props.C50_add0_level"
   ],
   "note": "false for the classical layouts (C50_wrong); holds for the level-ordered ones"
  },
  {
   "property": "C51",
   "status": "partial",
   "theorems": [
    "MRS.Props.C51_partial",
    "MRS.Props.C51_shift",
    "MRS.Props.C51_corrupts"
   ],
   "note": "false under strict shifts (C51_shift) and for wide nodes (C51_corrupts); holds up to 57 bits with x86 shifts"
  },
  {
   "property": "C52",
   "status": "proved",
   "theorems": [
    "MRS.Props.C52"
   ],
   "note": "exact condition"
  },
  {
   "property": "C53",
   "status": "partial",
   "theorems": [
    "MRS.Props.C53_partial",
    "MRS.Props.C53_null"
   ],
   "note": "false for roots of 64 bits (C53_null); holds up to 63"
  },
  {
   "property": "C54",
   "status": "proved",
   "theorems": [
    "MRS.Props.C54"
   ],
   "note": ""
  },
  {
   "property": "C55",
   "status": "partial",
   "theorems": [
    "MRS.Props.C55_partial",
    "MRS.Props.C55_wrong"
   ],
   "note": "Negation C55_wrong is exact: with classical small trees the search is undefined exactly where the partial theorem does not apply. Missing: TypeL trees whose size has a bad zero (ZerosOk; exact in C49)."
  },
  {
   "property": "C56",
   "status": "partial",
   "theorems": [
    "MRS.Props.C56_partial",
    "MRS.Props.C56_wrong"
   ],
   "note": "As C55."
  },
  {
   "property": "C57",
   "status": "partial",
   "theorems": [
    "MRS.Props.C57_partial",
    "MRS.Props.C57_wrong"
   ],
   "note": "C57_wrong: index in a later block and not a multiple of 2^CUT; C57_partial: all others."
  },
  {
   "property": "C58",
   "status": "partial",
   "theorems": [
    "MRS.Props.C58_construct_iff",
    "MRS.Props.C58_rank_partial",
    "MRS.Props.C58_rank_ub",
    "MRS.Props.C58_adapter_partial",
    "MRS.Props.C58_adapter_last",
    "MRS.Props.C58_count",
    "MRS.Props.C58_short",
    "MRS.Props.C58_dense"
   ],
   "note": "exact condition for construction; rank right on the answered positions and undefined on all others (negation for pos = nbits and for the adapter); missing: positions the code does not answer"
  },
  {
   "property": "C59",
   "status": "partial",
   "theorems": [
    "MRS.Props.C59_actual",
    "MRS.Props.C59_wrong",
    "MRS.Props.C59_adapter_wrong",
    "MRS.Props.C59_zero",
    "MRS.Props.C59_partial",
    "MRS.Props.C59_later_few",
    "MRS.Props.C59_later_wrong",
    "MRS.Props.C59_later_first",
    "MRS.Props.C59_later_shift"
   ],
   "note": "the property is false: exact answer in the first superblock, iff condition for a right one, negation for every last one of a word; in whole later superblocks the answer stays near a block chosen by the counters of the first one, or is an undefined shift (C59_later_few, C59_later_wrong, C59_later_first, C59_later_shift). Missing: the exact answer there, lengths between 2^32 and 2^33"
  },
  {
   "property": "C60",
   "status": "proved",
   "theorems": [
    "MRS.Props.C60_msb",
    "MRS.Props.C60_lsb",
    "MRS.Props.C60_popcount",
    "MRS.Props.C60_disagree"
   ],
   "note": "naive/popcount_search count from 1 at the top, pdep/broadword from 0 at the bottom; the families disagree"
  },
  {
   "property": "C61",
   "status": "proved",
   "theorems": [
    "MRS.Props.C61_bytes",
    "MRS.Props.C61_adapter"
   ],
   "note": "exact formula"
  },
  {
   "property": "C62",
   "status": "proved",
   "theorems": [
    "MRS.Props.C62",
    "MRS.Props.C62_find",
    "MRS.Props.C62_compFind",
    "MRS.Props.C62_format"
   ],
   "note": "all six classes whose operator>> compiles; TypeF and TypeL: writing only (their operator>> does not compile, F18)"
  },
  {
   "property": "C63",
   "status": "partial",
   "theorems": [
    "MRS.Props.C63_partial",
    "MRS.Props.C63_header",
    "MRS.Props.C63_wrong"
   ],
   "note": "false as stated: C63_header, C63_wrong; C63_partial says what happens after the header"
  },
  {
   "property": "C64",
   "status": "partial",
   "theorems": [
    "MRS.Props.C64_read_partial",
    "MRS.Props.C64_write",
    "MRS.Props.C64_swapped",
    "MRS.Props.C64_returns"
   ],
   "note": "false as stated: C64_write (every tree of fewer than 2^32 - 1 elements), C64_swapped; C64_read_partial is what is left"
  },
  {
   "property": "C65",
   "status": "partial",
   "theorems": [
    "MRS.Props.C65",
    "MRS.Props.C65_neg",
    "MRS.Props.C65_fixedF",
    "MRS.Props.C65_hybrid"
   ],
   "note": "false as stated: C65_neg for every object; C65 gives the exact value (112 bits too many per array), C65_fixedF closed form, C65_hybrid for Hybrid"
  },
  {
   "property": "C66",
   "status": "partial",
   "theorems": [
    "MRS.Props.C66_basic_rank_partial",
    "MRS.Props.C66_basic_beyond",
    "MRS.Props.C66_basic_end",
    "MRS.Props.C66_basic_rank_false"
   ],
   "note": "Missing: the query at the end of a text of whole 64-byte blocks, which the code answers from uninitialised memory (C66_basic_end, negation C66_basic_rank_false)."
  },
  {
   "property": "C67",
   "status": "partial",
   "theorems": [
    "MRS.Props.C67_bch_rank_partial",
    "MRS.Props.C67_bch_rank_strict_partial",
    "MRS.Props.C67_bch_build_beyond",
    "MRS.Props.C67_bch_end",
    "MRS.Props.C67_bch_rank_false"
   ],
   "note": "Missing: build without reading beyond the flags (C67_bch_build_beyond shows it does for all other block counts) and the end query (exact condition C67_bch_end; negation C67_bch_rank_false)."
  },
  {
   "property": "C68",
   "status": "partial",
   "theorems": [
    "MRS.Props.C68_cf_rank_partial",
    "MRS.Props.C68_cf_homogeneous",
    "MRS.Props.C68_cf_beyond",
    "MRS.Props.C68_cf_rank_false"
   ],
   "note": "Missing: texts of homogeneous blocks only (undefined, C68_cf_homogeneous) and the end query (undefined, C68_cf_beyond); negation C68_cf_rank_false."
  },
  {
   "property": "C69",
   "status": "partial",
   "theorems": [
    "MRS.Props.C69_basic_size",
    "MRS.Props.C69_bch_size",
    "MRS.Props.C69_cf_size",
    "MRS.Props.C69_wrapper_size",
    "MRS.Props.C69_wrapper_rank_partial",
    "MRS.Props.C69_wrapper_rank_false"
   ],
   "note": "getSize in closed form and the exact amount by which it misses what the object takes; bit order agrees with the library on whole bytes only (witness C69_wrapper_rank_false)."
  },
  {
   "property": "C70",
   "status": "partial",
   "theorems": [
    "MRS.Props.C70_std_select_partial",
    "MRS.Props.C70_std_select_strict",
    "MRS.Props.C70_std_misaligned",
    "MRS.Props.C70_std_last_wrong",
    "MRS.Props.C70_std_no_ones",
    "MRS.Props.C70_std_overflow",
    "MRS.Props.C70_std_zero",
    "MRS.Props.C70_std_select_false"
   ],
   "note": "Right for every one of a complete group and of the last group unless it is exactly L wide; exact conditions and outcomes for the wrong last group, for building (no ones, overflow) and for misaligned loads; full claim refuted."
  },
  {
   "property": "C71",
   "status": "partial",
   "theorems": [
    "MRS.Props.C71_bch_select_partial",
    "MRS.Props.C71_bch_select_strict",
    "MRS.Props.C71_bch_last_wrong",
    "MRS.Props.C71_bch_overflow",
    "MRS.Props.C71_bch_no_ones",
    "MRS.Props.C71_bch_zero",
    "MRS.Props.C71_bch_select_false"
   ],
   "note": "As C70, for parameters the constructor accepts and fewer than 2^31 groups; full claim refuted."
  },
  {
   "property": "C72",
   "status": "partial",
   "theorems": [
    "MRS.Props.C72_std_size",
    "MRS.Props.C72_bch_size",
    "MRS.Props.C72_wrapper_select_partial",
    "MRS.Props.C72_wrapper_select_false"
   ],
   "note": "Closed forms for getSize() and the memory taken (which differ), bound on stored bytes; the wrapper's answer is in the right byte; that it is the library's answer is refuted."
  },
  {
   "property": "C73",
   "status": "proved",
   "theorems": [
    "MRS.Props.C73_basic_file",
    "MRS.Props.C73_basic_answers",
    "MRS.Props.C73_bch_file",
    "MRS.Props.C73_cf_file"
   ],
   "note": "standard, compressed headers, and combined form; for the last, on the texts that build accepts (C68 has the others)"
  },
  {
   "property": "C74",
   "status": "partial",
   "theorems": [
    "MRS.Props.C74_std_file_partial",
    "MRS.Props.C74_std_many",
    "MRS.Props.C74_std_lost",
    "MRS.Props.C74_std_file_false",
    "MRS.Props.C74_bch_file_partial",
    "MRS.Props.C74_bch_many",
    "MRS.Props.C74_bch_lost"
   ],
   "note": "holds with the exact exception Unsaved (fewer than L ones, last one in certain places), where the last one is lost; false in full (C74_std_file_false)"
  },
  {
   "property": "C75",
   "status": "partial",
   "theorems": [
    "MRS.Props.C75_mpe_rank_partial",
    "MRS.Props.C75_mpe_end_partial",
    "MRS.Props.C75_mpe_empty",
    "MRS.Props.C75_mpe_rank_false"
   ],
   "note": "every text but the empty one, any content of unwritten memory, unaligned loads allowed; positions of the blocks, and the end with 16-byte aligned arrays; false in full (empty text)"
  },
  {
   "property": "C76",
   "status": "partial",
   "theorems": [
    "MRS.Props.C76_mpe_build_unwritten",
    "MRS.Props.C76_mpe_rank_written_partial",
    "MRS.Props.C76_mpe_last_unwritten",
    "MRS.Props.C76_mpe_aligned"
   ],
   "note": "false: build reads an unwritten flag for every text (exact outcome), queries in the last mixed block read unwritten bytes, unaligned words are read just where the block is not stored at a multiple of 8; what remains is proved"
  },
  {
   "property": "C77",
   "status": "partial",
   "theorems": [
    "MRS.Props.C77_mpe_size",
    "MRS.Props.C77_mpe_stored_le",
    "MRS.Props.C77_mpe2_smallest",
    "MRS.Props.C77_wrapper_size",
    "MRS.Props.C77_wrapper_rank_partial",
    "MRS.Props.C77_wrapper_rank_false"
   ],
   "note": "closed forms; getSize() differs from the memory taken by a constant; MPE2 is smallest; the wrapper agrees with the library at whole bytes, refuted elsewhere"
  },
  {
   "property": "C78",
   "status": "partial",
   "theorems": [
    "MRS.Props.C78_mpe_file_partial",
    "MRS.Props.C78_mpe_answers",
    "MRS.Props.C78_mpe_end_lost"
   ],
   "note": "every position of the blocks, with the same outcome; refuted for the end of a text with 15 blocks modulo 16"
  },
  {
   "property": "C79",
   "status": "partial",
   "theorems": [
    "MRS.Props.C79_mpe_select_partial",
    "MRS.Props.C79_mpe_select_strict",
    "MRS.Props.C79_mpe_misaligned",
    "MRS.Props.C79_mpe_last_wrong",
    "MRS.Props.C79_mpe_flag_wrong",
    "MRS.Props.C79_mpe_zero",
    "MRS.Props.C79_mpe_select_false"
   ],
   "note": "Right for SELECT_MPE1 with all accepted parameters and for the other types with L <= 128 (for 129 <= L <= 137 it is refuted, C81), texts with ones outside the overflow case, every one but those of a LastWide last group, if memory holds a quiet value for the flag of a complete last group; strict alignment gives the same or a misaligned load. Negated in general: wide last group, flag value, both with witnesses."
  },
  {
   "property": "C80",
   "status": "partial",
   "theorems": [
    "MRS.Props.C80_mpe_build_unwritten",
    "MRS.Props.C80_mpe_no_ones",
    "MRS.Props.C80_mpe_overflow",
    "MRS.Props.C80_mpe_written_partial",
    "MRS.Props.C80_mpe_unwritten"
   ],
   "note": "Exact outcome of build: unwritten or foreign flags for every text with ones, out of bounds without ones and in the overflow case. Queries need only written bytes unless the last group takes L bits; witness of the unwritten read otherwise."
  },
  {
   "property": "C81",
   "status": "partial",
   "theorems": [
    "MRS.Props.C81_mpe_narrow",
    "MRS.Props.C81_mpe_size"
   ],
   "note": "Offsets do not fit for SELECT_MPE2 and SELECT_MPE3 with 129 <= L <= 137, which the constructor accepts: wrong answers for every text whose first five groups are wide. Sizes: closed form, what getSize() leaves out, bounds by SelectBasic64 (SELECT_MPE3 may be larger, bounded) and comparison of the types for all texts."
  },
  {
   "property": "C82",
   "status": "partial",
   "theorems": [
    "MRS.Props.C82_mpe_file_partial",
    "MRS.Props.C82_mpe_many",
    "MRS.Props.C82_mpe_lost",
    "MRS.Props.C82_mpe_unwritten",
    "MRS.Props.C82_mpe_file_false"
   ],
   "note": "Same outcome after load unless the byte behind the saved ones is read (only if the last group takes L bits) or part of a single group was not saved; both with witnesses. Cut files end the program."
  },
  {
   "property": "C83",
   "status": "partial",
   "theorems": [
    "MRS.Props.C83_basic_rank_partial",
    "MRS.Props.C83_basic_beyond",
    "MRS.Props.C83_basic_end",
    "MRS.Props.C83_basic_longest",
    "MRS.Props.C83_basic_rank_false"
   ],
   "note": "Right for every position below 2^32 of the blocks that a text of at most 2^32 - 64 bytes touches. The end of a text of whole blocks is undefined, and the 63 longest texts are built as if empty (negations proved)."
  },
  {
   "property": "C84",
   "status": "partial",
   "theorems": [
    "MRS.Props.C84_bch_rank_partial",
    "MRS.Props.C84_bch_rank_strict_partial",
    "MRS.Props.C84_bch_build_beyond",
    "MRS.Props.C84_bch_end",
    "MRS.Props.C84_bch_longest",
    "MRS.Props.C84_bch_rank_false"
   ],
   "note": "As C83, if reading flags beyond their array does no harm; exact condition when build reads beyond (always, unless the blocks are 31 modulo 32), exact outcome at the end of the last block; the longest texts get the answer 0 at the first 15872 positions."
  },
  {
   "property": "C85",
   "status": "partial",
   "theorems": [
    "MRS.Props.C85_cf_rank_partial",
    "MRS.Props.C85_cf_strict_partial",
    "MRS.Props.C85_cf_misaligned",
    "MRS.Props.C85_cf_strict_false",
    "MRS.Props.C85_cf_homogeneous",
    "MRS.Props.C85_cf_beyond",
    "MRS.Props.C85_cf_longest"
   ],
   "note": "Right on hosts that allow loads of eight bytes at multiples of four, for texts of at most 2^32 - 64 bytes with a block that is not homogeneous; where loads must be aligned only homogeneous blocks and odd blocks left of the border; undefined otherwise (negations proved)."
  },
  {
   "property": "C86",
   "status": "partial",
   "theorems": [
    "MRS.Props.C86_basic_size",
    "MRS.Props.C86_bch_size",
    "MRS.Props.C86_cf_size_partial",
    "MRS.Props.C86_cf_size_false"
   ],
   "note": "Closed forms and the exact difference to what is taken. RankCF32 returns the size modulo 2^32 (witness of a wrong size)."
  },
  {
   "property": "C87",
   "status": "proved",
   "theorems": [
    "MRS.Props.C87_basic_file",
    "MRS.Props.C87_bch_file",
    "MRS.Props.C87_cf_file"
   ],
   "note": "For every text of at most 2^32 - 64 bytes that build accepts."
  },
  {
   "property": "C88",
   "status": "partial",
   "theorems": [
    "MRS.Props.C88_std_select_partial",
    "MRS.Props.C88_std_benchmark",
    "MRS.Props.C88_std_select_strict",
    "MRS.Props.C88_std_misaligned",
    "MRS.Props.C88_std_last_wrong",
    "MRS.Props.C88_std_select_false",
    "MRS.Props.C88_std_no_ones",
    "MRS.Props.C88_std_overflow",
    "MRS.Props.C88_std_entries",
    "MRS.Props.C88_std_bytes",
    "MRS.Props.C88_std_beyond",
    "MRS.Props.C88_std_zero"
   ],
   "note": "Right for every one of texts below 2^29 bytes whose entries and bytes fit (with the benchmark's parameters: all), except in a last group exactly L wide; exact outcomes for that group, for texts without ones, for overflow of room, entries and bytes, and for misaligned loads; full claim refuted."
  },
  {
   "property": "C89",
   "status": "partial",
   "theorems": [
    "MRS.Props.C89_bch_select_partial",
    "MRS.Props.C89_bch_benchmark",
    "MRS.Props.C89_bch_select_strict",
    "MRS.Props.C89_bch_misaligned",
    "MRS.Props.C89_bch_last_wrong",
    "MRS.Props.C89_bch_select_false",
    "MRS.Props.C89_bch_no_ones",
    "MRS.Props.C89_bch_overflow",
    "MRS.Props.C89_bch_entries",
    "MRS.Props.C89_bch_bytes",
    "MRS.Props.C89_bch_beyond",
    "MRS.Props.C89_bch_zero"
   ],
   "note": "Right for every one of texts below 2^29 bytes whose entries and bytes fit (with the benchmark's parameters: all), except in a last group exactly L wide; exact outcomes for that group, for texts without ones, for overflow of room, entries and bytes, and for misaligned loads; full claim refuted."
  },
  {
   "property": "C90",
   "status": "partial",
   "theorems": [
    "MRS.Props.C90_std_size",
    "MRS.Props.C90_bch_size"
   ],
   "note": "Closed forms for getSize() and the memory taken (which differ by 1068 or 1196), bound on stored bytes."
  },
  {
   "property": "C91",
   "status": "partial",
   "theorems": [
    "MRS.Props.C91_std_file_partial",
    "MRS.Props.C91_std_many",
    "MRS.Props.C91_std_lost",
    "MRS.Props.C91_std_file_false",
    "MRS.Props.C91_bch_file_partial",
    "MRS.Props.C91_bch_many",
    "MRS.Props.C91_bch_lost",
    "MRS.Props.C91_bch_file_false"
   ],
   "note": "Holds with the exact exception Unsaved32 (fewer than L ones, last one in certain places), where the last one is lost; false in full."
  },
  {
   "property": "C92",
   "status": "partial",
   "theorems": [
    "MRS.Props.C92_mpe_rank_partial",
    "MRS.Props.C92_mpe_end_partial",
    "MRS.Props.C92_mpe_empty",
    "MRS.Props.C92_mpe_longest",
    "MRS.Props.C92_mpe_many_bytes",
    "MRS.Props.C92_mpe_many_bytes_exists",
    "MRS.Props.C92_mpe_build_iff",
    "MRS.Props.C92_mpe_rank_false"
   ],
   "note": "texts that are not empty and fit (exactly those that can be built), any content of memory, unaligned loads allowed; positions of the blocks below 2^32, and the end with 16-byte aligned arrays; false in full (texts that wrap)"
  },
  {
   "property": "C93",
   "status": "partial",
   "theorems": [
    "MRS.Props.C93_mpe_build_beyond",
    "MRS.Props.C93_mpe_rank_written_partial",
    "MRS.Props.C93_mpe_last_unwritten",
    "MRS.Props.C93_mpe_aligned"
   ],
   "note": "false: build reads a flag outside of its array for every text (exact outcome), queries in the last mixed block read unwritten bytes, unaligned words are read just where the block is not stored at a multiple of 8; what remains is proved"
  },
  {
   "property": "C94",
   "status": "partial",
   "theorems": [
    "MRS.Props.C94_mpe_size",
    "MRS.Props.C94_mpe2_smallest"
   ],
   "note": "closed forms; getSize() differs from the memory taken by a constant; MPE2 is smallest"
  },
  {
   "property": "C95",
   "status": "partial",
   "theorems": [
    "MRS.Props.C95_mpe_file_partial",
    "MRS.Props.C95_mpe_answers",
    "MRS.Props.C95_mpe_end_lost"
   ],
   "note": "every position of the blocks, with the same outcome; refuted for the end of a text with 15 blocks modulo 16"
  },
  {
   "property": "C96",
   "status": "partial",
   "theorems": [
    "MRS.Props.C96_mpe32_select_partial",
    "MRS.Props.C96_mpe32_benchmark",
    "MRS.Props.C96_mpe32_select_strict",
    "MRS.Props.C96_mpe32_misaligned",
    "MRS.Props.C96_mpe32_last_wrong",
    "MRS.Props.C96_mpe32_flag_wrong",
    "MRS.Props.C96_mpe32_zero",
    "MRS.Props.C96_mpe32_select_false",
    "MRS.Props.C96_mpe32_beyond"
   ],
   "note": "Right for all parameters the constructor accepts and texts with ones whose entries and bytes fit (with the benchmark's parameters: all below 2^29 bytes), outside the overflow case, every one but those of a LastWide last group, if memory holds a quiet value for the flag of a complete last group; strict alignment gives the same or a misaligned load. Full claim refuted with witnesses."
  },
  {
   "property": "C97",
   "status": "partial",
   "theorems": [
    "MRS.Props.C97_mpe32_build_unwritten",
    "MRS.Props.C97_mpe32_never",
    "MRS.Props.C97_mpe32_no_ones",
    "MRS.Props.C97_mpe32_overflow",
    "MRS.Props.C97_mpe32_entries",
    "MRS.Props.C97_mpe32_bytes",
    "MRS.Props.C97_mpe32_written_partial",
    "MRS.Props.C97_mpe32_unwritten"
   ],
   "note": "Exact outcome of build: unwritten or foreign flags for every text, out of bounds without ones, in the overflow case, and when entries or bytes do not fit. Queries need only written bytes unless the last group takes L bits; witness otherwise."
  },
  {
   "property": "C98",
   "status": "partial",
   "theorems": [
    "MRS.Props.C98_mpe32_params",
    "MRS.Props.C98_mpe32_size"
   ],
   "note": "All accepted parameters fit their fields. Sizes: closed form, what getSize() leaves out (1084 or 1212 bytes, so the claim that it is what the object takes is false), bounds by SelectBasic32 and comparison of the types for all texts."
  },
  {
   "property": "C99",
   "status": "partial",
   "theorems": [
    "MRS.Props.C99_mpe32_file_partial",
    "MRS.Props.C99_mpe32_many",
    "MRS.Props.C99_mpe32_lost",
    "MRS.Props.C99_mpe32_unwritten",
    "MRS.Props.C99_mpe32_file_false"
   ],
   "note": "Same outcome after load unless the byte behind the saved ones is read (only if the last group takes L bits) or part of a single group was not saved; both with witnesses. Cut files end the program."
  },
  {
   "property": "C100",
   "status": "partial",
   "theorems": [
    "MRS.Props.C100_alone",
    "MRS.Props.C100_partial",
    "MRS.Props.C100_disjoint_partial",
    "MRS.Props.C100_even_partial",
    "MRS.Props.C100_race",
    "MRS.Props.C100_select_race",
    "MRS.Props.C100_wrong",
    "MRS.Props.C100_false",
    "MRS.Props.C100_select_wrong"
   ],
   "note": "Right for queries that overlap no other query of the same object; otherwise queries race on the members they write, and answers can be wrong (finding F65).  Only the 64-bit classes without pairs are modelled as programs."
  },
  {
   "property": "C101",
   "status": "partial",
   "theorems": [
    "MRS.Props.C101_partial",
    "MRS.Props.C101_rank_std",
    "MRS.Props.C101_copy",
    "MRS.Props.C101_assign_leak",
    "MRS.Props.C101_false",
    "MRS.Props.C101_unbuilt"
   ],
   "note": "Every program without copies and assignments is defined, leaks nothing and queries see the last build or load; copies and assignments share arrays, so they are double deletions, uses after deletion or leaks (shown)."
  },
  {
   "property": "C102",
   "status": "partial",
   "theorems": [
    "MRS.Props.C102_rank_prints",
    "MRS.Props.C102_rank_silent",
    "MRS.Props.C102_select_prints",
    "MRS.Props.C102_select_silent",
    "MRS.Props.C102_rank_std_partial",
    "MRS.Props.C102_rank_bch_partial",
    "MRS.Props.C102_rank_cf_partial",
    "MRS.Props.C102_select_std_partial",
    "MRS.Props.C102_select_bch_partial",
    "MRS.Props.C102_rank_false",
    "MRS.Props.C102_rank_std32_partial",
    "MRS.Props.C102_rank_bch32_partial",
    "MRS.Props.C102_rank_cf32_partial",
    "MRS.Props.C102_rank_mpe_partial",
    "MRS.Props.C102_rank_mpe32_partial",
    "MRS.Props.C102_select_std32_partial",
    "MRS.Props.C102_select_bch32_partial",
    "MRS.Props.C102_select_bch_wide",
    "MRS.Props.C102_select_mpe_partial",
    "MRS.Props.C102_select_mpe32_partial"
   ],
   "note": "Exactly what the self-checks print, for any queries; silent iff all answers are right. For built objects of all classes: silent except for texts of whole blocks (undefined, shown; RankMPE is silent there too) and a wide last group of ones (reported, shown)."
  },
  {
   "property": "C103",
   "status": "partial",
   "theorems": [
    "MRS.Props.C103_rank_check",
    "MRS.Props.C103_select_check",
    "MRS.Props.C103_select_check_over",
    "MRS.Props.C103_test_partial",
    "MRS.Props.C103_test_false"
   ],
   "note": "checks accept exactly the right answers; a correct bitmap passes iff the flips do not lower the number of ones; seeds where it does not pass given"
  },
  {
   "property": "C104",
   "status": "proved",
   "theorems": [
    "MRS.Props.C104_naive_rank",
    "MRS.Props.C104_naive_select",
    "MRS.Props.C104_rank_check",
    "MRS.Props.C104_select_check",
    "MRS.Props.C104_tests"
   ],
   "note": ""
  },
  {
   "property": "C105",
   "status": "partial",
   "theorems": [
    "MRS.Props.C105_tree_sum_check",
    "MRS.Props.C105_node_sum_check",
    "MRS.Props.C105_search_check",
    "MRS.Props.C105_tree",
    "MRS.Props.C105_node_partial",
    "MRS.Props.C105_node_align_false",
    "MRS.Props.C105_node32_false",
    "MRS.Props.C105_node_blind"
   ],
   "note": "trees proved; nodes pass if the memory is aligned and no segment of avx2::node32 sums to 2^31, counterexamples otherwise"
  },
  {
   "property": "C106",
   "status": "partial",
   "theorems": [
    "MRS.Props.C106_rank256",
    "MRS.Props.C106_rank512",
    "MRS.Props.C106_rank64",
    "MRS.Props.C106_prefix",
    "MRS.Props.C106_popcnt",
    "MRS.Props.C106_popcnt_vec",
    "MRS.Props.C106_lanes",
    "MRS.Props.C106_select",
    "MRS.Props.C106_select_needs_one",
    "MRS.Props.C106_search_partial",
    "MRS.Props.C106_search_divides_by_zero",
    "MRS.Props.C106_search_signed"
   ],
   "note": "search benchmarks divide by zero on a block of zeros and the vector modes of perf_popcnt print another sum; the rest proved for all seeds, sizes and bits"
  },
  {
   "property": "C107",
   "status": "partial",
   "theorems": [
    "MRS.Props.C107_rank",
    "MRS.Props.C107_select",
    "MRS.Props.C107_flip",
    "MRS.Props.C107_poppy_short",
    "MRS.Props.C107_poppy_rank_partial",
    "MRS.Props.C107_poppy_rank_last",
    "MRS.Props.C107_poppy_rank_repository",
    "MRS.Props.C107_report",
    "MRS.Props.C107_option_oob",
    "MRS.Props.C107_help"
   ],
   "note": "mutable bitmaps proved for all configurations, seeds and sizes; the poppy adapter is undefined on short bitmaps and at the last position, and -i is unchecked (negations proved)"
  },
  {
   "property": "C108",
   "status": "partial",
   "theorems": [
    "MRS.Props.C108_sum",
    "MRS.Props.C108_search",
    "MRS.Props.C108_update_runs",
    "MRS.Props.C108_update_false",
    "MRS.Props.C108_update_partial",
    "MRS.Props.C108_update_wraps",
    "MRS.Props.C108_hft_sum",
    "MRS.Props.C108_hft_search",
    "MRS.Props.C108_hft_update_partial",
    "MRS.Props.C108_hft_update_false",
    "MRS.Props.C108_hft_update_wraps",
    "MRS.Props.C108_update_mod"
   ],
   "note": "sum and search proved for all trees, arrays and draws; the updates of both programs leave the legal range (negations proved), in segment trees they are proved not to fault and to print and leave numbers that are right modulo 2^16, in the uncompressed Fenwick trees they are right"
  },
  {
   "property": "C109",
   "status": "proved",
   "theorems": [
    "MRS.Props.C109_runs",
    "MRS.Props.C109_search_oob",
    "MRS.Props.C109_search_ctz"
   ],
   "note": "no condition on the counters; witnesses that search is not protected"
  },
  {
   "property": "C110",
   "status": "proved",
   "theorems": [
    "MRS.Props.C110_heals"
   ],
   "note": "every tree, array and list of updates whose outcome is within range, also after further legal updates"
  },
  {
   "property": "C111",
   "status": "partial",
   "theorems": [
    "MRS.Props.C111_sum_mod_partial",
    "MRS.Props.C111_not_mod32"
   ],
   "note": "right modulo 2^16 after any updates; modulo 2^32 refuted by C111_not_mod32"
  },
  {
   "property": "C112",
   "status": "partial",
   "theorems": [
    "MRS.Props.C112_build",
    "MRS.Props.C112_rank_std",
    "MRS.Props.C112_rank_bch",
    "MRS.Props.C112_rank_bch_beyond",
    "MRS.Props.C112_rank_cf_partial",
    "MRS.Props.C112_rank_cf_homog",
    "MRS.Props.C112_rank_mpe",
    "MRS.Props.C112_rank_mpe_unwritten",
    "MRS.Props.C112_select_std_partial",
    "MRS.Props.C112_select_bch_partial",
    "MRS.Props.C112_select_mpe_partial",
    "MRS.Props.C112_select_mpe_unwritten",
    "MRS.Props.C112_select_wide",
    "MRS.Props.C112_select_false"
   ],
   "note": "rank and build proved (rank_cf if some block is mixed, bch and mpe if memory beyond their flags may be read); select unless the last group is wide; false with the program's own seeds for select_basic_512_8192"
  }
 ]
}
