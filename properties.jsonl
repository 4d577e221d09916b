{"id": "C01", "title": "access returns the current bit", "statement": "After build(in, w) on a fresh mutable_bitmap followed by any sequence of flip calls on valid positions, access(i) returns the i-th bit of in (0 in the zero padding), inverted once per flip(i) in the history.", "quantifier": "every input word array of 1 to 2^24 blocks, every finite sequence of valid flips, every i < size(), every block size, tree family and build flag", "why_tests_cant": "the histories and inputs are unbounded; tests sample a few random ones", "anchors": ["include/mutable_bitmap.hpp: mutable_bitmap::access, build, flip"]}
{"id": "C02", "title": "rank counts the ones in B[0..i]", "statement": "After build and any sequence of valid flips, rank(i) equals the number of set bits at positions 0..i inclusive of the current bitmap.", "quantifier": "every input, every finite flip history, every i < size(), every supported block type / tree family / build flag", "why_tests_cant": "a wrong carry, boundary or node offset shows only for particular block/segment/node boundaries and histories", "anchors": ["include/mutable_bitmap.hpp: mutable_bitmap::rank", "include/segment_tree/avx2/segment_tree.hpp: sum", "include/segment_tree/avx512/segment_tree.hpp: sum", "include/rank_select_algorithms/rank.hpp"]}
{"id": "C03", "title": "select finds the k-th one", "statement": "After build and any sequence of valid flips, for k smaller than the current number of ones, select(k) returns the position p with B[p]=1 and exactly k ones before p.", "quantifier": "every input, every flip history, every k < number of ones, every supported configuration (avx2+SIMD+512-bit blocks needs the density side condition of C28)", "why_tests_cant": "requires every block/segment/node boundary and every density pattern", "anchors": ["include/mutable_bitmap.hpp: mutable_bitmap::select", "include/segment_tree/avx2/segment_tree.hpp: search", "include/segment_tree/avx512/segment_tree.hpp: search", "include/rank_select_algorithms/select.hpp"]}
{"id": "C04", "title": "flip changes exactly one bit", "statement": "flip(i) inverts the bit read by access(i) and leaves access(j) unchanged for every j != i; size() is unchanged.", "quantifier": "every reachable bitmap, every valid i and j", "why_tests_cant": "quantifies over all pairs of positions in all reachable states", "anchors": ["include/mutable_bitmap.hpp: mutable_bitmap::flip, access"]}
{"id": "C05", "title": "flip is an involution", "statement": "flip(i); flip(i) restores every observable answer (access, rank, select) to what it was.", "quantifier": "every reachable bitmap and valid i", "why_tests_cant": "observational equality over all queries in all reachable states", "anchors": ["include/mutable_bitmap.hpp: mutable_bitmap::flip"]}
{"id": "C06", "title": "flips commute", "statement": "Two flip histories that are permutations of each other leave bitmaps that answer every access, rank and select identically.", "quantifier": "every input and every pair of permuted valid histories", "why_tests_cant": "number of interleavings/orders is unbounded", "anchors": ["include/mutable_bitmap.hpp: mutable_bitmap::flip"]}
{"id": "C07", "title": "rank inverts select", "statement": "For k < number of ones: access(select(k)) is true and rank(select(k)) = k+1.", "quantifier": "every reachable bitmap and every valid k", "why_tests_cant": "needs rank and select to agree at every position of every state", "anchors": ["include/mutable_bitmap.hpp: rank, select"]}
{"id": "C08", "title": "select inverts rank", "statement": "If access(i) is true then select(rank(i)-1) = i.", "quantifier": "every reachable bitmap and every valid i with bit set", "why_tests_cant": "as C07", "anchors": ["include/mutable_bitmap.hpp: rank, select"]}
{"id": "C09", "title": "rank is a monotone counting function", "statement": "rank(i+1) - rank(i) is 1 if access(i+1) else 0, rank(0) is access(0), hence rank is monotone, rank(i) <= i+1, and rank(size()-1) is the number of ones.", "quantifier": "every reachable bitmap, every i", "why_tests_cant": "relates all adjacent positions including block and node boundaries", "anchors": ["include/mutable_bitmap.hpp: rank, access, size"]}
{"id": "C10", "title": "size and zero padding", "statement": "After build(in, w), size() is w*64 rounded up to a multiple of the block size, bits() begins with in and the remaining words are zero.", "quantifier": "every w and block size, fresh objects", "why_tests_cant": "all lengths modulo the block size", "anchors": ["include/mutable_bitmap.hpp: build, size, bits"]}
{"id": "C11", "title": "no out-of-bounds access and no undefined arithmetic", "statement": "With valid arguments, build/access/flip/rank/select never read or write outside m_bits, m_data or a constant table, never shift by 64 or more, never call ctz on zero and never fall into an unsupported-mode branch (misaligned accesses are treated separately in C32).", "quantifier": "every input, every history, every valid query, every configuration", "why_tests_cant": "absence of undefined behaviour for all inputs; a sanitizer only sees executed paths", "anchors": ["include/mutable_bitmap.hpp", "include/segment_tree/avx2/segment_tree_macros.hpp", "include/segment_tree/avx512/segment_tree_macros.hpp", "include/segment_tree/avx2/node128.hpp", "include/segment_tree/avx2/node64.hpp", "include/segment_tree/avx2/node32.hpp", "include/segment_tree/avx512/node512.hpp", "include/segment_tree/avx512/node256.hpp", "include/segment_tree/avx512/node128.hpp"]}
{"id": "C12", "title": "segment tree sum", "statement": "segment_tree::build(A,n) then any valid update sequence: sum(i) returns A'[0]+...+A'[i] where A' is the updated array.", "quantifier": "every array of 1..2^24 values <= 512 kept within [0,512] by the updates, every height selected by height(n), both families, SIMD and scalar", "why_tests_cant": "all lengths, all histories", "anchors": ["include/segment_tree/avx2/segment_tree.hpp: build, sum, update", "include/segment_tree/avx512/segment_tree.hpp: build, sum, update"]}
{"id": "C13", "title": "segment tree update is a point update", "statement": "update(i,sign) changes sum(j) by +1/-1 for all j >= i and for no j < i, even when i is in the last child of an inner node (where the child index equals the fanout).", "quantifier": "every reachable tree and valid i, j", "why_tests_cant": "all positions relative to the node boundaries", "anchors": ["include/segment_tree/avx2/segment_tree_macros.hpp: DYRS_AVX2_UPDATE_H1..H4", "include/segment_tree/avx512/segment_tree_macros.hpp: DYRS_AVX512_UPDATE_H1..H3", "include/segment_tree/avx2/node128.hpp", "include/segment_tree/avx2/node64.hpp", "include/segment_tree/avx2/node32.hpp", "include/segment_tree/avx512/node512.hpp", "include/segment_tree/avx512/node256.hpp", "include/segment_tree/avx512/node128.hpp"]}
{"id": "C14", "title": "segment tree search", "statement": "For x < sum(n-1), search(x) returns the smallest position p with sum(p) > x together with the sum of the values before p.", "quantifier": "every reachable tree, every valid x (height-4 avx2 SIMD trees need the side condition of C28)", "why_tests_cant": "all values, ties through zero values, and boundaries", "anchors": ["include/segment_tree/avx2/segment_tree_macros.hpp: DYRS_AVX2_SEARCH_H1..H4", "include/segment_tree/avx512/segment_tree_macros.hpp: DYRS_AVX512_SEARCH_H1..H3"]}
{"id": "C15", "title": "height(n) is the right template height", "statement": "For 1 <= n <= 2^24 height(n) is the least template Height whose levels hold n values: build lays out height(n) levels, level l having one node per group of children, with exactly one root node, and height(n) is 0 exactly for n > 2^24. A smaller template Height makes build write outside the buffer; template Height 2 over a one-level array makes every sum read outside it.", "quantifier": "every n", "why_tests_cant": "all n up to 2^24 (and beyond)", "anchors": ["include/segment_tree/avx2/segment_tree.hpp: height, build", "include/segment_tree/avx512/segment_tree.hpp: height, build"]}
{"id": "C16", "title": "stale padding in the last leaf is unobservable", "statement": "build leaves values of the previous leaf node in the unused tail of the last leaf node; no sum(i), i<n, search(x), x<total, or update depends on them.", "quantifier": "every n, every input, every history", "why_tests_cant": "non-interference over all inputs", "anchors": ["include/segment_tree/avx2/segment_tree.hpp: build (tmp reuse, lines 70-87)", "include/segment_tree/avx512/segment_tree.hpp: build (tmp reuse, lines 64-81)"]}
{"id": "C17", "title": "node contract", "statement": "For every node type, after Node::build(A) and any valid updates: sum(i) is the prefix sum, update(i,s) adds +-1 to entry i (no-op for i = fanout), and search(x) returns the first position whose prefix sum exceeds x, or fanout if none (inner nodes), with the sum before it.", "quantifier": "every node type, every content within the key range, every i and x, SIMD and scalar code", "why_tests_cant": "2^16..2^32-valued entries, all positions", "anchors": ["include/segment_tree/avx2/node128.hpp", "include/segment_tree/avx2/node64.hpp", "include/segment_tree/avx2/node32.hpp", "include/segment_tree/avx512/node512.hpp", "include/segment_tree/avx512/node256.hpp", "include/segment_tree/avx512/node128.hpp", "include/util.hpp: build_node_prefix_sums"]}
{"id": "C18", "title": "SIMD and scalar builds agree", "statement": "For the same history, a build with SIMD and a build without (DISABLE_AVX / no AVX512) return the same results.", "quantifier": "every history and query inside the domain of C14", "why_tests_cant": "the two code paths are never linked in one test binary", "anchors": ["include/segment_tree/avx2/node128.hpp", "include/segment_tree/avx2/node64.hpp", "include/segment_tree/avx2/node32.hpp", "include/segment_tree/avx512/node512.hpp", "include/segment_tree/avx512/node256.hpp", "include/segment_tree/avx512/node128.hpp"]}
{"id": "C19", "title": "configuration independence", "statement": "The answers of access/rank/select depend only on the logical bitmap, not on the tree family, the block size or the rank/select mode (for positions below both sizes).", "quantifier": "every pair of supported configurations, every history", "why_tests_cant": "product of configurations and histories", "anchors": ["include/types.hpp", "include/mutable_bitmap.hpp"]}
{"id": "C20", "title": "popcount routines are exact", "statement": "popcount_u64<broadword>, popcount_u64<builtin>, byte_counts, and every 64-bit lane of popcount_m256i / popcount_m512i return the number of ones.", "quantifier": "every 64-bit word / every 256- and 512-bit vector", "why_tests_cant": "2^64 and more inputs", "anchors": ["include/rank_select_algorithms/common.hpp: popcount_u64, byte_counts, popcount_m256i, popcount_m512i"]}
{"id": "C21", "title": "select_u64 variants are exact", "statement": "For each of the five select_u64 implementations, x and k < popcount(x): the result is the position of the k-th one of x.", "quantifier": "every 64-bit word and k", "why_tests_cant": "2^64 words", "anchors": ["include/rank_select_algorithms/select.hpp: select_u64"]}
{"id": "C22", "title": "rank_u256 modes are exact", "statement": "For every supported rank mode, rank_u256<Mode>(x,i) is the number of ones in bits 0..i of the 256-bit block.", "quantifier": "every block, every i < 256, every supported mode", "why_tests_cant": "2^256 blocks", "anchors": ["include/rank_select_algorithms/rank.hpp: rank_u256"]}
{"id": "C23", "title": "rank_u512 modes are exact", "statement": "For every supported rank mode, rank_u512<Mode>(x,i) is the number of ones in bits 0..i of the 512-bit block.", "quantifier": "every block, every i < 512, every supported mode", "why_tests_cant": "2^512 blocks", "anchors": ["include/rank_select_algorithms/rank.hpp: rank_u512"]}
{"id": "C24", "title": "select_u256/u512 modes are exact", "statement": "For every supported select mode and k < number of ones in the block, select_u256/512<Mode>(x,k) is the position of the k-th one.", "quantifier": "every block and k, every supported mode", "why_tests_cant": "2^256 / 2^512 blocks", "anchors": ["include/rank_select_algorithms/select.hpp: select_u256, select_u512"]}
{"id": "C25", "title": "unsupported mode/width combinations are rejected in debug builds and never used by the exported types", "statement": "Every rank/select mode declared in the enums but not implemented for a width (avx512_* for 256 bits, avx2_* for 512 bits, select_modes::pdep for both) aborts in debug builds whatever the block. In release builds the rank and the vector select modes return 0 whatever the block, and select_modes::pdep walks past the block: it reads the word after it and never returns a position inside it. The block types exported by types.hpp never use such a combination.", "quantifier": "every mode and width", "why_tests_cant": "mode/width table is complete, over all inputs", "anchors": ["include/rank_select_algorithms/rank.hpp", "include/rank_select_algorithms/select.hpp", "include/types.hpp"]}
{"id": "C26", "title": "block64 rank/select are exact", "statement": "block64_type::rank(x,i) counts the ones in bits 0..i and block64_type::select(x,k) is the position of the k-th one, including i = 63.", "quantifier": "every word, i < 64, k < popcount", "why_tests_cant": "2^64 words", "anchors": ["include/types.hpp: block64_type"]}
{"id": "C27", "title": "index counters never overflow", "statement": "At every supported size (2^24 blocks of up to 512 bits) and density no key, summary or sum computed by build or update exceeds its 16/32/64-bit type, so the returned sums are exact.", "quantifier": "every input up to the documented maximum", "why_tests_cant": "extreme sizes (1 GiB) are never tested", "anchors": ["include/segment_tree/avx2/segment_tree.hpp: build", "include/segment_tree/avx512/segment_tree.hpp: build", "include/util.hpp: build_node_prefix_sums"]}
{"id": "C28", "title": "select is right at every density up to the documented size limit", "statement": "select(k) is right for every bitmap accepted by build's size assertion, in every configuration. (False for avx2 + SIMD + 512-bit blocks at height 4: signed 32-bit key comparisons fail once a run of keys reaches 2^31.)", "quantifier": "every bitmap up to 2^24*block_size bits and every valid k", "why_tests_cant": "needs > 2^31 ones inside a 9*2^28-bit window", "anchors": ["include/segment_tree/avx2/node32.hpp: search"]}
{"id": "C29", "title": "rebuild forgets the old bitmap", "statement": "build(in,w) on an object already built gives the same observable bitmap as on a fresh object. (False: resize keeps old words in the padding.)", "quantifier": "every pair of successive inputs", "why_tests_cant": "all pairs of lengths/contents", "anchors": ["include/mutable_bitmap.hpp: build (lines 25-27)"]}
{"id": "C30", "title": "copies are independent", "statement": "Flipping a copy of a bitmap does not change the answers of the original and vice versa. (False: the implicit copy shares m_ptr.)", "quantifier": "every bitmap, every history on both objects", "why_tests_cant": "aliasing histories", "anchors": ["include/segment_tree/avx2/segment_tree.hpp: segment_tree (implicit copy; m_ptr, m_num_nodes_per_level)", "include/segment_tree/avx512/segment_tree.hpp"]}
{"id": "C31", "title": "concurrent const queries do not interfere", "statement": "rank/select calls running in several threads on unmodified bitmaps return the same results as when run alone. (False for modes with function-local static scratch arrays; sequential calls never see earlier calls' scratch.)", "quantifier": "every interleaving of the scratch-array steps", "why_tests_cant": "thread schedules", "anchors": ["include/rank_select_algorithms/rank.hpp: static uint64_t counts[4]", "include/rank_select_algorithms/select.hpp: static uint64_t cnts, sums"]}
{"id": "C32", "title": "no misaligned access", "statement": "No operation performs a typed or aligned-vector access at an address that is not a multiple of the required alignment. (False for avx2 update with SIMD at heights 1-3 and for avx512 height-3 trees.)", "quantifier": "every allocation address the allocator may return (16-byte aligned), every operation", "why_tests_cant": "depends on addresses", "anchors": ["include/segment_tree/avx2/node128.hpp: update line 57", "include/segment_tree/avx2/segment_tree.hpp: build line 64", "include/segment_tree/avx512/segment_tree.hpp: build line 58"]}
{"id": "C33", "title": "debug builds do not reject valid calls", "statement": "With assertions enabled no valid call sequence fails an assertion. (False for avx512 trees over 512-bit blocks: build asserts val <= 256.)", "quantifier": "every input and history in debug builds", "why_tests_cant": "all inputs; the shipped tests are built in Release", "anchors": ["include/segment_tree/avx512/segment_tree.hpp: build line 74", "include/segment_tree/avx2/segment_tree.hpp", "include/mutable_bitmap.hpp"]}
{"id": "C34", "title": "create_random_bits reports the number of ones", "statement": "On a zero-initialised vector of at least 4 words create_random_bits returns exactly the number of ones it leaves in the vector, and the first 256 bits are not all zero.", "quantifier": "every length >= 4, every threshold and seed", "why_tests_cant": "all seeds, thresholds and lengths", "anchors": ["include/util.hpp: create_random_bits"]}
{"id": "C35", "title": "create_random_bits stays inside the vector", "statement": "create_random_bits never reads or writes outside bits. (False for vectors shorter than 4 words whose words are all zero.)", "quantifier": "every length, threshold, seed", "why_tests_cant": "small lengths are never tested", "anchors": ["include/util.hpp: create_random_bits lines 62-67"]}
{"id": "C36", "title": "splitmix64 has full period and never repeats", "statement": "From any seed the first 2^64 outputs of splitmix64 are pairwise distinct (a permutation of all 64-bit values).", "quantifier": "every seed", "why_tests_cant": "2^64 outputs", "anchors": ["include/util.hpp: splitmix64::next"]}
{"id": "C37", "title": "update tables are step functions", "statement": "Row r of each update_* table holds 0 in lanes below the step and +1 (second half: -1) from the step on, exactly as the node code assumes.", "quantifier": "every row of every table", "why_tests_cant": "complete finite tables, checked in the kernel", "anchors": ["include/segment_tree/avx2/tables.hpp", "include/segment_tree/avx512/tables.hpp"]}
{"id": "C38", "title": "mode names identify modes", "statement": "print_rank_mode / print_select_mode return the name of the mode. (False: builtin and builtin_loop have the same value, so builtin_loop prints as builtin.)", "quantifier": "every mode", "why_tests_cant": "complete finite tables", "anchors": ["include/rank_select_algorithms/rank.hpp: rank_mode_map", "include/rank_select_algorithms/select.hpp: select_mode_map"]}
{"id": "C39", "title": "space accounting", "statement": "bytes() equals the bytes of the bit array plus 20 bytes of fixed fields, the header and all nodes; the index overhead is bounded by a fixed fraction of the bitmap plus a constant.", "quantifier": "every size", "why_tests_cant": "all sizes", "anchors": ["include/mutable_bitmap.hpp: bytes", "include/segment_tree/avx2/segment_tree.hpp: bytes", "include/segment_tree/avx512/segment_tree.hpp: bytes"]}
{"id": "C40", "title": "the number of ones moves by one per flip", "statement": "flip(i) changes the total number of ones (rank(size()-1)) by +1 if the bit was 0 and -1 if it was 1.", "quantifier": "every reachable bitmap, every valid i", "why_tests_cant": "all histories", "anchors": ["include/mutable_bitmap.hpp: flip, rank"]}
{"id": "C41", "title": "assertions do not change results", "statement": "With assertions enabled, build and flip either stop at a failed assertion or do exactly what the release build does, and so do access and rank; a value returned by select is the value the release build returns.", "quantifier": "every configuration, every object state (also corrupt ones), every call, valid or not", "why_tests_cant": "all states and arguments; compares two builds of the program", "anchors": ["include/mutable_bitmap.hpp: build, access, flip, rank, select", "include/segment_tree/avx2/segment_tree.hpp", "include/segment_tree/avx512/segment_tree.hpp", "include/rank_select_algorithms/select.hpp"]}
{"id": "C42", "title": "alignment is the only difference between strict and tolerant targets", "statement": "Counting misaligned accesses as undefined behaviour changes nothing else: build, flip, access, rank and select end with a misaligned access or do exactly what they do where misaligned accesses are tolerated.", "quantifier": "every configuration, every object state (also corrupt ones), every sequence of calls, valid or not", "why_tests_cant": "all states and arguments, and compares two machines", "anchors": ["include/mutable_bitmap.hpp: build, access, flip, rank, select", "include/segment_tree/avx2/node128.hpp", "include/segment_tree/avx512/node128.hpp"]}
{"id": "C43", "title": "byte tables are right", "statement": "The byte lookup tables hold exactly what their users assume: lt_cnt the number of ones of each byte, select_in_byte and lt_sel the position of the k-th one of each byte (8 and 0 where there is none), ps_overflow the byte 128-k repeated eight times; and an index beyond them is out of bounds.", "quantifier": "every byte, every k, every index", "why_tests_cant": "a wrong entry shows only for the few words whose bytes reach it, through a select of the right rank", "anchors": ["include/rank_select_algorithms/common.hpp: tables::select_in_byte", "include/rank_select_algorithms/common.hpp: lt_cnt, lt_sel, ps_overflow"]}
{"id": "C44", "title": "name() identifies the type up to the height", "statement": "Two mutable_bitmap types with the same name() have the same block size, tree family, rank mode and select mode values, and every type whose modes are enumerators has a name.", "quantifier": "every pair of bitmap types", "why_tests_cant": "ranges over all template instantiations", "anchors": ["include/mutable_bitmap.hpp: name", "include/types.hpp: block types", "include/rank_select_algorithms/rank.hpp: print_rank_mode", "include/rank_select_algorithms/select.hpp: print_select_mode"]}
{"id": "C45", "title": "moving and swapping bitmaps keeps values", "statement": "In a program that creates, builds, flips, destroys, move-constructs and move-assigns bitmaps but never copies one, no operation is undefined and every object answers size, access, rank and select according to its own value; a moved-from object is empty and may be rebuilt. In particular std::swap exchanges the values.", "quantifier": "every program over any number of objects, all configurations, all moves including self-moves", "why_tests_cant": "the index pointer inside the moved object must follow its heap buffer through every sequence of moves; tests run a few of them", "anchors": ["include/mutable_bitmap.hpp: mutable_bitmap (implicit move)", "include/segment_tree/avx2/segment_tree.hpp: segment_tree (m_ptr, m_data; implicit move)", "include/segment_tree/avx512/segment_tree.hpp"]}
{"id": "C46", "title": "Fenwick trees answer prefix sums after any history", "statement": "Build a tree of any of the eight vendored Fenwick classes over an array and perform any sequence of add calls (negative increments included). Then size() is the number of elements and prefix(i) is the sum modulo 2^64 of the first i elements of the array updated in the same way. Adds past the end have no effect. For the compressed classes the elements must stay between 0 and BOUND and BOUND and the size must meet the stated limits of the class.", "quantifier": "every class, BOUND, array, history and index", "why_tests_cant": "nodes of different widths are packed next to each other, so an error shows only for particular widths, positions and carries; sizes and histories are unbounded", "anchors": ["include/hft/fenwick/fixedf.hpp: FixedF", "include/hft/fenwick/fixedl.hpp: FixedL", "include/hft/fenwick/bytef.hpp: ByteF", "include/hft/fenwick/bytel.hpp: ByteL", "include/hft/fenwick/bitf.hpp: BitF", "include/hft/fenwick/bitl.hpp: BitL", "include/hft/fenwick/typef.hpp: TypeF", "include/hft/fenwick/typel.hpp: TypeL", "include/hft/common.hpp: byteread, bytewrite, bytewrite_inc, bitread, bitwrite_inc, rho, clear_rho, mask_rho, mask_lambda"]}
{"id": "C47", "title": "find returns the largest index whose prefix does not exceed the value", "statement": "After any history on a non-empty tree, find(&val) returns the largest index whose prefix sum is at most val and leaves the difference in val. With val at least the total it returns size() (the comment in the interface promises zero). All classes except TypeL.", "quantifier": "every class but TypeL, array of non-negative elements, history, value", "why_tests_cant": "binary descent over unbounded sizes and values, duplicates and zero elements", "anchors": ["include/hft/fenwick/fenwick_tree.hpp: find", "include/hft/fenwick/fixedf.hpp: FixedF", "include/hft/fenwick/fixedl.hpp: FixedL", "include/hft/fenwick/bytef.hpp: ByteF", "include/hft/fenwick/bytel.hpp: ByteL", "include/hft/fenwick/bitf.hpp: BitF", "include/hft/fenwick/bitl.hpp: BitL", "include/hft/fenwick/typef.hpp: TypeF"]}
{"id": "C48", "title": "compFind is find on the complements to BOUND", "statement": "After any history on a non-empty tree, compFind(&val) returns the largest index whose prefix sum of BOUND - element is at most val and leaves the difference in val. All classes except TypeL.", "quantifier": "every class but TypeL, array within BOUND, history, value", "why_tests_cant": "the complement of a node is computed from its height, so errors depend on size and height", "anchors": ["include/hft/fenwick/fenwick_tree.hpp: compFind", "include/hft/fenwick/fixedf.hpp: FixedF", "include/hft/fenwick/fixedl.hpp: FixedL", "include/hft/fenwick/bytef.hpp: ByteF", "include/hft/fenwick/bytel.hpp: ByteL", "include/hft/fenwick/bitf.hpp: BitF", "include/hft/fenwick/bitl.hpp: BitL", "include/hft/fenwick/typef.hpp: TypeF"]}
{"id": "C49", "title": "searches of TypeL", "statement": "find and compFind of TypeL return the largest index whose prefix (of the elements, of the complements) does not exceed the value.", "quantifier": "every array, history and value", "why_tests_cant": "wrong only for sizes with an incomplete level and values that reach it", "anchors": ["include/hft/fenwick/typel.hpp: find, compFind"]}
{"id": "C50", "title": "empty trees and index 0", "statement": "find and compFind on an empty tree are defined and return 0. (add at index 0 is outside the interface; its effect is stated per class.)", "quantifier": "every class, BOUND and value", "why_tests_cant": "undefined behaviour of clz(0) is invisible on most machines", "anchors": ["include/hft/fenwick/fixedf.hpp: find, add", "include/hft/common.hpp: mask_lambda, rho"]}
{"id": "C51", "title": "BitL keeps bit-packed nodes apart", "statement": "BitL answers prefix sums after any history for every BOUND its static_assert admits, under the language rules for shifts.", "quantifier": "every BOUND, array within it, history", "why_tests_cant": "corruption needs a wide node straddling a word boundary and a decrease; the undefined shift has a benign effect on x86", "anchors": ["include/hft/fenwick/bitl.hpp: BitL", "include/hft/common.hpp: bitwrite_inc"]}
{"id": "C52", "title": "when TypeF makes misaligned accesses", "statement": "Where misaligned accesses are undefined, a TypeF over an array within bounds works if all its nodes have one element type (leaves of more than 16 bits, or root of at most 8 bits, or leaves of at least 9 and root of at most 16 bits), and otherwise its constructor makes a misaligned access.", "quantifier": "every BOUND and array", "why_tests_cant": "x86 tolerates the accesses", "anchors": ["include/hft/fenwick/typef.hpp: TypeF, pos"]}
{"id": "C53", "title": "widest root of TypeL", "statement": "TypeL can be built and queried whenever its root fits in 64 bits.", "quantifier": "every BOUND and array", "why_tests_cant": "fails only at exactly 64 bits", "anchors": ["include/hft/fenwick/typel.hpp: TypeL"]}
{"id": "C54", "title": "Hybrid tree prefix sums after any history", "statement": "After construction over an array and any history of add(idx, inc), prefix(i) of Hybrid<TOP,BOTTOM,BOUND,CUT> is the sum modulo 2^64 of the first i elements of the updated array, and size() is its length, for every pair of classes and every CUT within the limits of the classes.", "quantifier": "every pair of the eight classes, BOUND, CUT, array, history, index", "why_tests_cant": "64 class pairs times CUT times BOUND times histories", "anchors": ["include/hft/fenwick/hybrid.hpp: Hybrid::Hybrid, buildTop, prefix, add"]}
{"id": "C55", "title": "Hybrid tree find", "statement": "find(&val) of Hybrid returns the largest index whose prefix sum does not exceed val and leaves the difference in val, for every value.", "quantifier": "every pair of classes, CUT, array, history, value", "why_tests_cant": "fails only when the search ends in an empty small tree (size a multiple of 2^CUT and val at least the total, or CUT 0) and then by undefined behaviour", "anchors": ["include/hft/fenwick/hybrid.hpp: Hybrid::find"]}
{"id": "C56", "title": "Hybrid tree compFind", "statement": "compFind(&val) of Hybrid is find on the array of differences to BOUND, for every value.", "quantifier": "every pair of classes, CUT, array within BOUND, history, value", "why_tests_cant": "as C55; also needs BOUND*2^CUT not to wrap", "anchors": ["include/hft/fenwick/hybrid.hpp: Hybrid::compFind"]}
{"id": "C57", "title": "Hybrid tree add past the end", "statement": "add at an index past the end leaves every prefix sum, as it does in the eight plain classes.", "quantifier": "every pair of classes, CUT, array, history, index past the end", "why_tests_cant": "undefined behaviour (vector index out of range) only for indices in later blocks", "anchors": ["include/hft/fenwick/hybrid.hpp: Hybrid::add"]}
{"id": "C58", "title": "Poppy: construction and rank", "statement": "BitmapPoppy(bits, nbits) can be constructed for every bitmap, and rank(pos) is the number of ones before pos (bits numbered from the most significant one of each word) for every pos up to nbits.", "quantifier": "every sequence of words, nbits below 2^48, content of the fresh arrays, position", "why_tests_cant": "fails for nbits below 2048, for superblocks with almost only ones, and by out-of-bounds reads at positions after the last whole line or superblock, pos = nbits included; the benchmark only queries random positions", "anchors": ["include/poppy/bitmap.h: BitmapPoppy::BitmapPoppy, rank, size", "include/poppy/popcount.h: popcountLinear", "src/perf_immutable_bitmap.cpp: poppy_wrapper"]}
{"id": "C59", "title": "Poppy: select", "statement": "select(r) is the position of one number r, counted from 1.", "quantifier": "every constructible bitmap, every rank", "why_tests_cant": "in the first superblock the right word is always found, so errors stay below 64 positions and look plausible; some ranks are right by chance; behind it the wrong counters are used, which takes bitmaps of 2^33 bits to see; the benchmark never compares the answer", "anchors": ["include/poppy/bitmap.h: BitmapPoppy::select", "include/poppy/popcount.h: select512, select64, select64_pdep_tzcnt"]}
{"id": "C60", "title": "Poppy: select in a word", "statement": "The four select functions for a word agree on which one they name and from which end they count; suxpopcount is the number of ones.", "quantifier": "every word and every rank", "why_tests_cant": "2^64 words; the broadword version compares eight lanes at once", "anchors": ["include/poppy/popcount.h: select64_naive, select64_pdep_tzcnt, select64_popcount_search, select64_broadword, suxpopcount"]}
{"id": "C61", "title": "Poppy: bytes", "statement": "bytes() is 40 plus 8 per line of 2048 bits, 12 per superblock and 4 per sample (one sample per 8192 ones of a superblock, rounded up).", "quantifier": "every constructible bitmap", "why_tests_cant": "depends on the density of every superblock", "anchors": ["include/poppy/bitmap.h: BitmapPoppy::bytes"]}
{"id": "C62", "title": "Fenwick trees: streams, round trip", "statement": "Writing a Fenwick tree with operator<< and reading it back with operator>> gives a tree with the same size, prefix sums and search results, now and after any further updates, and leaves the rest of the stream unread. The format is the number of elements, the counted level starts (level-ordered classes) and the counted arrays, all numbers with the most significant byte first.", "quantifier": "every class with a usable operator>>, every array within the limits of the class, every history of updates before writing and after reading, everything before and after in the stream", "why_tests_cant": "a byte-order slip shows only for numbers above 255, a wrong count only when something follows in the stream, a lost padding byte only after later updates; the repository has no test of streams", "anchors": ["include/hft/fenwick/fixedf.hpp: operator<<, operator>>", "include/hft/fenwick/fixedl.hpp: operator<<, operator>>", "include/hft/fenwick/bytef.hpp, bytel.hpp, bitf.hpp, bitl.hpp: operator<<, operator>>", "include/hft/darray.hpp: operator<<, operator>>", "include/hft/common.hpp: swap_endian, hton, ntoh"]}
{"id": "C63", "title": "Fenwick trees: streams that end early", "statement": "A stream that ends before the tree does is recognised: no undefined behaviour, and no object that answers as if all had been read.", "quantifier": "every class with a usable operator>>, every array and history, every length at which the stream is cut", "why_tests_cant": "there are as many cuts as bytes and uninitialised variables often happen to hold zero", "anchors": ["include/hft/darray.hpp: operator>>", "include/hft/fenwick/*.hpp: operator>>"]}
{"id": "C64", "title": "Hybrid: streams", "statement": "Writing a Hybrid tree and reading it back gives a tree that answers as the written one.", "quantifier": "every pair of classes, every CUT, every array and history, every stream", "why_tests_cant": "the loop bound is the byte-swapped count, so a run reads far out of bounds and may stop anywhere; the functions are templates that the repository never instantiates", "anchors": ["include/hft/fenwick/hybrid.hpp: operator<<, operator>>"]}
{"id": "C65", "title": "Fenwick trees: bitCount", "statement": "bitCount() is the number of bits the object takes: its members, the whole pages of its arrays, and its level starts.", "quantifier": "every object of less than 2^60 bytes of the eight classes; every Hybrid", "why_tests_cant": "there is no independent count to compare with at run time; the error is a few bytes among pages", "anchors": ["include/hft/fenwick/*.hpp: bitCount", "include/hft/darray.hpp: bitCount, page_aligned"]}
{"id": "C66", "title": "Compressed rank, standard headers", "statement": "RankBasic64<RANK_BASIC_STANDARD> built from a text answers rank(i) with the number of ones among the first i bits (most significant bit of each byte first), for every i up to and including the number of bits, without undefined behaviour.", "quantifier": "every text of fewer than 2^60 bytes, every i, every address new[] returns", "why_tests_cant": "homogeneous blocks are not stored, so answers depend on which of 2^512 blocks occur where; the library's own testRank reads memory that happens to be right or not", "anchors": ["include/mranisz/shared/rank.hpp: RankBasic64::build, build_std, getRank_std", "src/perf_compressed_bitmap.cpp: mranisz_rank_wrapper"]}
{"id": "C67", "title": "Compressed rank, compressed headers", "statement": "RankBasic64<RANK_BASIC_COMPRESSED_HEADERS> answers rank(i) with the number of ones among the first i bits for every i up to and including the number of bits, without undefined behaviour; packed 16-bit differences and the offsets from the flag words never overflow.", "quantifier": "every text of fewer than 2^60 bytes, every i, every content of the memory after the flags", "why_tests_cant": "63 differences share 16 words with carries possible between fields; the flags are read beyond their array and the heap usually hides it", "anchors": ["include/mranisz/shared/rank.hpp: RankBasic64::build_bch, getRank_bch"]}
{"id": "C68", "title": "Compressed rank, cache friendly", "statement": "RankCF64 answers rank(i) with the number of ones among the first i bits for every i up to and including the number of bits, without undefined behaviour, however the stored blocks are moved across the border.", "quantifier": "every text of fewer than 2^60 bytes, every i, every address new[] returns", "why_tests_cant": "the layout depends on the whole pattern of homogeneous and other blocks; a text without stored blocks fails only by reading beyond an array of flags", "anchors": ["include/mranisz/shared/rank.hpp: RankCF64::build, rank"]}
{"id": "C69", "title": "Compressed rank: sizes, and the wrapper", "statement": "getSize() is the memory the object takes, linear in the number of blocks and of blocks that are not homogeneous; size() of the benchmark wrapper is the number of bits; the wrapper counts as the library's own bitmaps do.", "quantifier": "every text of fewer than 2^60 bytes; every vector of words; every position", "why_tests_cant": "sizes depend on the number of homogeneous blocks of the whole text; bit orders agree on whole bytes and on palindromic bytes", "anchors": ["include/mranisz/shared/rank.hpp: getSize, getTextSize", "src/perf_compressed_bitmap.cpp: mranisz_rank_wrapper::build, size, bytes"]}
{"id": "C70", "title": "Compressed select, standard", "statement": "SelectBasic64<SELECT_BASIC_STANDARD, L, THRESHOLD> answers select(i) with the position of the i-th one, counted from one, for every i from 1 to the number of ones, without undefined behaviour, and is built for every text.", "quantifier": "every text of fewer than 2^57 bytes, every L >= 1, every THRESHOLD, every i, every address new[] returns", "why_tests_cant": "three encodings of a group of ones depend on where the ones lie in the whole text; the last, incomplete group is encoded by separate code, and wrong only when its width is exactly L or THRESHOLD + 1", "anchors": ["include/mranisz/shared/select.hpp: SelectBasic64::build_std, getSelect_std"]}
{"id": "C71", "title": "Compressed select, compressed headers", "statement": "SelectBasic64<SELECT_BASIC_COMPRESSED_HEADERS, L, THRESHOLD> answers as the standard variant does; the fifteen 16-bit offsets relative to the first of sixteen groups never overflow for parameters that the constructor accepts.", "quantifier": "every text of fewer than 2^57 bytes and 2^31 groups, every accepted L and THRESHOLD, every i, every address new[] returns", "why_tests_cant": "a sum of fifteen lengths reaches 65535 only for extreme patterns; without a one the second pass writes as much as the text is long beyond an empty array, which the heap may hide", "anchors": ["include/mranisz/shared/select.hpp: SelectBasic64::build_bch, getSelect_bch, constructors"]}
{"id": "C72", "title": "Compressed select: sizes, and the wrapper", "statement": "getSize() is the memory the object takes, linear in the number of groups of L ones and of stored bytes, which are at most c bytes for each byte of the text (c = 2 for 128/4096, 4 for 512/8192) and one for each group; the wrapper of the benchmark answers as the library's own select does.", "quantifier": "every text of fewer than 2^57 bytes; every vector of words; every index", "why_tests_cant": "the stored bytes depend on the widths of all groups; bit orders agree on palindromic bytes", "anchors": ["include/mranisz/shared/select.hpp: getSize, getTextSize", "src/perf_compressed_bitmap.cpp: mranisz_select_wrapper::build, operator(), bytes"]}
{"id": "C73", "title": "Compressed rank: save then load", "statement": "An object that is saved and loaded answers every query that the saved one answers, with the same number, and only those; loading stops behind the object, whatever follows; loading from a file that was cut anywhere inside the object ends the program instead of giving an object.", "quantifier": "every text of fewer than 2^60 bytes (for RankCF64: one that build accepts), every earlier content and every continuation of the file, all addresses the allocator may return in build and in load, every cut", "why_tests_cant": "all texts, all addresses (the arrays are aligned by hand inside the allocation), all cuts", "anchors": ["include/mranisz/shared/rank.hpp: RankBasic64::save, RankBasic64::load, RankCF64::save, RankCF64::load"]}
{"id": "C74", "title": "Compressed select: save then load", "statement": "An object that is saved and loaded answers every query as the saved one does; loading stops behind the object; loading from a cut file ends the program instead of giving an object.", "quantifier": "every text of fewer than 2^57 bytes that build accepts, every L and THRESHOLD the constructor accepts, every index from 1 to the number of ones, every continuation of the file, all addresses, every cut", "why_tests_cant": "the length that is saved and the bytes that are written come from two separate passes; they differ only for texts with fewer than L ones whose last one is in certain places", "anchors": ["include/mranisz/shared/select.hpp: SelectBasic64::save, SelectBasic64::load, build_std, build_bch"]}
{"id": "C75", "title": "Compressed rank without pairs: answers", "statement": "rank(i) of RankMPE64 built from a text is the number of ones among its first i bits, for each of the three types.", "quantifier": "every text of fewer than 2^60 bytes, every i up to the number of bits, all three types, all addresses the allocator may return, every content of memory that was never written", "why_tests_cant": "unbounded texts; which pairs of a block are left out, where a block is stored and how the superblock packs it depend on all bytes before; memory content is not under a test's control", "anchors": ["include/mranisz/shared/rank.hpp: RankMPE64, build_v1, build_v2, getRank_v1, getRank_v2"]}
{"id": "C76", "title": "Compressed rank without pairs: only written memory is read, at aligned addresses", "statement": "build and rank of RankMPE64 read no memory that was never written or is not theirs, and read 64-bit words at multiples of 8 only.", "quantifier": "every text of fewer than 2^60 bytes, every position, all three types, all addresses", "why_tests_cant": "on common machines such reads return something and the bits are masked away; no test result shows them", "anchors": ["include/mranisz/shared/rank.hpp: RankMPE64, build_v1, build_v2, getRank_v1, getRank_v2"]}
{"id": "C77", "title": "Compressed rank without pairs: sizes and the benchmark's wrapper", "statement": "getSize() is what the object takes; it is a fixed number of bytes for each 16 blocks plus, for each block that is not homogeneous, the best of the ways to store it that the type allows, never more than the block; RANK_MPE2 is never larger than the other types.  The wrapper of the benchmark has the size of the words and counts as the library's bitmaps do.", "quantifier": "every text of fewer than 2^60 bytes, all three types; every sequence of words", "why_tests_cant": "closed form over all texts; comparison of the types over all texts", "anchors": ["include/mranisz/shared/rank.hpp: RankMPE64::getSize", "src/perf_compressed_bitmap.cpp: mranisz_rank_wrapper"]}
{"id": "C78", "title": "Compressed rank without pairs: save then load", "statement": "An object that is saved and loaded answers every query as the saved one does; loading stops behind the object; loading from a cut file ends the program instead of giving an object.", "quantifier": "every text of fewer than 2^60 bytes that is not empty, all three types, every position up to the number of bits, every continuation of the file, all addresses, every cut", "why_tests_cant": "all texts, all addresses, all cuts; the arrays are read beyond their saved length", "anchors": ["include/mranisz/shared/rank.hpp: RankMPE64::save, RankMPE64::load"]}
{"id": "C79", "title": "Compressed select without pairs: answers", "statement": "select(i) of SelectMPE64 built from a text is the position of its i-th one (counted from one), for each of the three types.", "quantifier": "every text of fewer than 2^57 bytes with at least one one, every i from 1 to the number of ones, all three types, all parameters L and THRESHOLD that the constructor accepts, all addresses the allocator may return, every content of memory that was never written", "why_tests_cant": "unbounded texts; which pairs of a group are left out, where a group is stored and how the superblock packs it depend on all bytes before; memory content is not under a test's control", "anchors": ["include/mranisz/shared/select.hpp: SelectMPE64, build_v1, build_v2, getSelect_v1, getSelect_v2"]}
{"id": "C80", "title": "Compressed select without pairs: build is defined and only written memory is read", "statement": "build of SelectMPE64 is defined for every text, and build and select read no memory that was never written or is not theirs.", "quantifier": "every text of fewer than 2^57 bytes, every one, all three types, all parameters, all addresses", "why_tests_cant": "on common machines such reads return something; the value usually does not matter, so no test result shows them", "anchors": ["include/mranisz/shared/select.hpp: SelectMPE64, build_v1, build_v2, getSelect_v1, getSelect_v2"]}
{"id": "C81", "title": "Compressed select without pairs: parameters that the constructor accepts, and sizes", "statement": "The parameters that the constructor accepts are such that offsets inside a superblock fit their fields.  getSize() is what the object takes; leaving out pairs never makes the stored bits larger than those of SelectBasic64, and SELECT_MPE2 is never larger than the other types.", "quantifier": "every text of fewer than 2^57 bytes with at least one one, all three types, all parameters", "why_tests_cant": "the benchmark uses one pair of parameters; comparison of the types over all texts", "anchors": ["include/mranisz/shared/select.hpp: SelectMPE64, SelectMPE64::SelectMPE64, SelectMPE64::getSize"]}
{"id": "C82", "title": "Compressed select without pairs: save then load", "statement": "An object that is saved and loaded answers every query as the saved one does; loading stops behind the object; loading from a cut file ends the program instead of giving an object.", "quantifier": "every text of fewer than 2^57 bytes with at least one one, all three types, all accepted parameters whose offsets fit, every one, every continuation of the file, all addresses, every cut", "why_tests_cant": "all texts, all addresses, all cuts; the arrays are read beyond their saved length", "anchors": ["include/mranisz/shared/select.hpp: SelectMPE64::save, SelectMPE64::load"]}
{"id": "C83", "title": "32-bit compressed rank, standard headers", "statement": "RankBasic32<RANK_BASIC_STANDARD> built from a text answers rank(i) with the number of ones among the first i bits (most significant bit of each byte first), for every i up to and including the number of bits, without undefined behaviour.", "quantifier": "every text of fewer than 2^32 bytes, every i below 2^32, every address new[] returns", "why_tests_cant": "texts near 4 GiB are where unsigned int lengths wrap, no test builds one; answers depend on which of 2^512 blocks occur where", "anchors": ["include/mranisz/shared/rank.hpp: RankBasic32::build, build_std, getRank_std"]}
{"id": "C84", "title": "32-bit compressed rank, compressed headers", "statement": "RankBasic32<RANK_BASIC_COMPRESSED_HEADERS> answers rank(i) with the number of ones among the first i bits for every i up to and including the number of bits, without undefined behaviour; packed 16-bit differences and the offsets from the flag word never overflow.", "quantifier": "every text of fewer than 2^32 bytes, every i below 2^32, every content of the memory after the flags", "why_tests_cant": "31 differences share 16 numbers; the flags are read beyond their array and the heap usually hides it; texts near 4 GiB get wrong numbers", "anchors": ["include/mranisz/shared/rank.hpp: RankBasic32::build_bch, getRank_bch"]}
{"id": "C85", "title": "32-bit compressed rank, cache friendly", "statement": "RankCF32 answers rank(i) with the number of ones among the first i bits for every i up to and including the number of bits, without undefined behaviour, also where loads must be aligned.", "quantifier": "every text of fewer than 2^32 bytes, every i below 2^32, every address new[] returns, hosts that allow and that forbid unaligned loads", "why_tests_cant": "the layout depends on the whole pattern of homogeneous blocks; the two halves of a word are loaded in the other order and only the masks undo it; x86 hides the unaligned loads", "anchors": ["include/mranisz/shared/rank.hpp: RankCF32::build, rank"]}
{"id": "C86", "title": "32-bit compressed rank: sizes", "statement": "getSize() is the memory the object takes, linear in the number of blocks and of blocks that are not homogeneous.", "quantifier": "every text of fewer than 2^32 bytes that build accepts, all three classes", "why_tests_cant": "sizes depend on the number of homogeneous blocks of the whole text; RankCF32 returns an unsigned int, which wraps only for texts near 4 GiB", "anchors": ["include/mranisz/shared/rank.hpp: RankBasic32::getSize, RankCF32::getSize"]}
{"id": "C87", "title": "32-bit compressed rank: save then load", "statement": "An object that is saved and loaded answers every query that the saved one answers, with the same number, and only those; loading stops behind the object, whatever follows; loading from a file that was cut anywhere inside the object ends the program instead of giving an object.", "quantifier": "every text of at most 2^32 - 64 bytes (for RankCF32: one that build accepts), every earlier content and every continuation of the file, all addresses the allocator may return in build and in load, every cut", "why_tests_cant": "all texts, all addresses (the arrays are aligned by hand inside the allocation), all cuts", "anchors": ["include/mranisz/shared/rank.hpp: RankBasic32::save, RankBasic32::load, RankCF32::save, RankCF32::load"]}
{"id": "C88", "title": "32-bit compressed select, standard", "statement": "SelectBasic32<SELECT_BASIC_STANDARD, L, THRESHOLD> answers select(i) with the position of the i-th one, counted from one, for every i from 1 to the number of ones, without undefined behaviour, also where loads must be aligned, and is built for every text.", "quantifier": "every text of fewer than 2^32 bytes, every L and THRESHOLD the constructor accepts, every i, every address new[] returns", "why_tests_cant": "positions, entries and stored bytes are unsigned int and overflow only for texts of hundreds of megabytes; three encodings of a group depend on where the ones lie in the whole text; x86 hides the unaligned loads", "anchors": ["include/mranisz/shared/select.hpp: SelectBasic32::build_std, getSelect_std, constructors"]}
{"id": "C89", "title": "32-bit compressed select, compressed headers", "statement": "SelectBasic32<SELECT_BASIC_COMPRESSED_HEADERS, L, THRESHOLD> answers as the standard variant does; the fifteen 16-bit offsets relative to the first of sixteen groups never overflow for parameters that the constructor accepts.", "quantifier": "every text of fewer than 2^32 bytes, every L and THRESHOLD the constructor accepts, every i, every address new[] returns", "why_tests_cant": "a sum of fifteen lengths reaches 65535 only for extreme patterns; two offsets share one word; counters wrap only for texts of hundreds of megabytes", "anchors": ["include/mranisz/shared/select.hpp: SelectBasic32::build_bch, getSelect_bch, constructors"]}
{"id": "C90", "title": "32-bit compressed select: sizes", "statement": "getSize() is the memory the object takes, linear in the number of groups of L ones and of stored bytes, which are at most c bytes for each byte of the text (c = 1 for 128/4096) and one for each group.", "quantifier": "every text of fewer than 2^29 bytes that build accepts, both variants", "why_tests_cant": "the stored bytes depend on the widths of all groups", "anchors": ["include/mranisz/shared/select.hpp: SelectBasic32::getSize"]}
{"id": "C91", "title": "32-bit compressed select: save then load", "statement": "An object that is saved and loaded answers every query as the saved one does; loading stops behind the object; loading from a cut file ends the program instead of giving an object.", "quantifier": "every text of fewer than 2^29 bytes that build accepts, every L and THRESHOLD the constructor accepts, every index from 1 to the number of ones, every earlier content and every continuation of the file, all addresses, every cut", "why_tests_cant": "the length that is saved and the bytes that are written come from two separate passes; they differ only for texts with fewer than L ones whose last one is in certain places", "anchors": ["include/mranisz/shared/select.hpp: SelectBasic32::save, SelectBasic32::load, build_std, build_bch"]}
{"id": "C92", "title": "32-bit compressed rank without pairs: answers", "statement": "rank(i) of RankMPE32 built from a text is the number of ones among its first i bits, for each of the three types; a text can be built just if it is not empty and its padded length and its stored bytes fit.", "quantifier": "every text of fewer than 2^32 bytes, every i below 2^32 up to the number of bits, all three types, all addresses the allocator may return, every content of memory that was never written", "why_tests_cant": "texts near 4 GiB; the sizes that wrap depend on how well the whole text compresses", "anchors": ["include/mranisz/shared/rank.hpp: RankMPE32, build_v1, build_v2, getRank_v1, getRank_v2"]}
{"id": "C93", "title": "32-bit compressed rank without pairs: only its own written memory is read, at aligned addresses", "statement": "build and rank of RankMPE32 read no memory that was never written or is not theirs, and read 64-bit words at multiples of 8 only.", "quantifier": "every text of fewer than 2^32 bytes, every position, all three types, all addresses", "why_tests_cant": "on common machines such reads return something and the bits are masked away; no test result shows them", "anchors": ["include/mranisz/shared/rank.hpp: RankMPE32, build_v1, build_v2, getRank_v1, getRank_v2"]}
{"id": "C94", "title": "32-bit compressed rank without pairs: sizes", "statement": "getSize() is what the object takes; it is a fixed number of bytes for each 16 blocks plus, for each block that is not homogeneous, the best of the ways to store it that the type allows; RANK_MPE2 is never larger than the other types, and can be built whenever they can.", "quantifier": "every text that is not empty and fits, all three types", "why_tests_cant": "closed form over all texts; comparison of the types over all texts", "anchors": ["include/mranisz/shared/rank.hpp: RankMPE32::getSize"]}
{"id": "C95", "title": "32-bit compressed rank without pairs: save then load", "statement": "An object that is saved and loaded answers every query as the saved one does; loading stops behind the object; loading from a cut file ends the program instead of giving an object.", "quantifier": "every text that is not empty and fits, all three types, every position below 2^32 up to the number of bits, every continuation of the file, all addresses, every cut", "why_tests_cant": "all texts, all addresses, all cuts; the arrays are read beyond their saved length", "anchors": ["include/mranisz/shared/rank.hpp: RankMPE32::save, RankMPE32::load"]}
{"id": "C96", "title": "32-bit compressed select without pairs: answers", "statement": "select(i) of SelectMPE32 built from a text is the position of its i-th one (counted from one), for each of the three types.", "quantifier": "every text of fewer than 2^29 bytes with at least one one, every i from 1 to the number of ones, all three types, all parameters L and THRESHOLD that the constructor accepts, all addresses the allocator may return, every content of memory that was never written", "why_tests_cant": "unbounded texts; which pairs of a group are left out, where a group is stored and how the superblock packs it depend on all bytes before; memory content is not under a test's control", "anchors": ["include/mranisz/shared/select.hpp: SelectMPE32, build_v1, build_v2, getSelect_v1, getSelect_v2"]}
{"id": "C97", "title": "32-bit compressed select without pairs: build is defined and only written memory is read", "statement": "build of SelectMPE32 is defined for every text, and build and select read no memory that was never written or is not theirs, and write none that is not theirs.", "quantifier": "every text of fewer than 2^29 bytes, every one, all three types, all parameters, all addresses", "why_tests_cant": "on common machines such reads return something; the value usually does not matter, so no test result shows them; sizes wrap only for texts of hundreds of megabytes", "anchors": ["include/mranisz/shared/select.hpp: SelectMPE32, build_v1, build_v2, getSelect_v1, getSelect_v2"]}
{"id": "C98", "title": "32-bit compressed select without pairs: parameters that the constructor accepts, and sizes", "statement": "The parameters that the constructor accepts are such that offsets inside a superblock fit their fields.  getSize() is what the object takes; leaving out pairs never makes the stored bits larger than those of SelectBasic32 (by more than a bound for SELECT_MPE3), and SELECT_MPE2 is never larger than the other types.", "quantifier": "every text of fewer than 2^29 bytes with at least one one, all three types, all parameters", "why_tests_cant": "the benchmark uses one pair of parameters; comparison of the types over all texts", "anchors": ["include/mranisz/shared/select.hpp: SelectMPE32, SelectMPE32::SelectMPE32, SelectMPE32::getSize"]}
{"id": "C99", "title": "32-bit compressed select without pairs: save then load", "statement": "An object that is saved and loaded answers every query as the saved one does; loading stops behind the object; loading from a cut file ends the program instead of giving an object.", "quantifier": "every text of fewer than 2^29 bytes with at least one one, all three types, all accepted parameters, every one, every continuation of the file, all addresses, every cut", "why_tests_cant": "all texts, all addresses, all cuts; the arrays are read beyond their saved length", "anchors": ["include/mranisz/shared/select.hpp: SelectMPE32::save, SelectMPE32::load"]}
{"id": "C100", "title": "compressed structures: queries in several threads", "statement": "However threads are scheduled, each query of a built compressed rank or select structure gives the answer it gives alone, if no thread modifies the structure by build, load or free.", "quantifier": "every number of threads, every assignment of objects and queries that have an answer to threads, every schedule, everything the members may hold before", "why_tests_cant": "interleavings cannot be enumerated and are not under a test's control; wrong answers need an interruption between two accesses", "anchors": ["include/mranisz/shared/rank.hpp: RankBasic64::getRank_std, RankBasic64::getRank_bch, RankCF64::rank", "include/mranisz/shared/select.hpp: SelectBasic64::getSelect_std, SelectBasic64::getSelect_bch"]}
{"id": "C101", "title": "compressed structures: object lifetimes", "statement": "Objects may be declared, built, loaded, freed, rebuilt, copied, assigned and destroyed in any order; nothing is deleted twice or used after deletion, no array is leaked, and a query sees what the last build or load of its object stored.", "quantifier": "every class, every finite sequence of these operations on any number of objects, every text and file they can be built or loaded from", "why_tests_cant": "sequences of operations are unbounded, and double deletion or a leak need not show in a test", "anchors": ["include/mranisz/shared/rank.hpp: RankBasic64::~RankBasic64, RankBasic64::free, RankBasic64::freeMemory, RankBasic64::initialize, RankCF64, RankMPE64", "include/mranisz/shared/select.hpp: SelectBasic64, SelectMPE64::freeMemory, SelectMPE64::initialize"]}
{"id": "C102", "title": "compressed structures: self-checks", "statement": "testRank and testSelect print exactly the wrong answers of an object, in order, and so print nothing just when all answers for the text are right; run on an object built from the same text they are defined and print nothing.", "quantifier": "every text, every query function (for the first half), every object built from a text (for the second)", "why_tests_cant": "a self-check that misses errors looks like one that found none; whether it reads beyond an array does not show", "anchors": ["include/mranisz/shared/rank.hpp: RankBasic32::testRank, RankBasic64::testRank, RankCF64::testRank, RankMPE64::testRank", "include/mranisz/shared/select.hpp: SelectBasic32::testSelect, SelectBasic64::testSelect, SelectMPE64::testSelect"]}
{"id": "C103", "title": "the repository's test of mutable_bitmap", "statement": "The test's checks of rank and select accept an implementation exactly if all its answers are right, and a correct bitmap passes the test whatever is drawn.", "quantifier": "every bitmap of 256 to 2^30 bits, every implementation of rank and select (for the checks), every configuration, build, density and pair of seeds (for the test)", "why_tests_cant": "a test cannot tell whether it accepts wrong answers or rejects right ones for seeds it did not draw", "anchors": ["test/test_mutable_bitmap.hpp: test_mutable_bitmap", "include/util.hpp: create_random_bits"]}
{"id": "C104", "title": "the repository's tests of the block algorithms", "statement": "The naive rank and select of the tests are right, a test accepts an algorithm exactly if all its answers on the drawn words are right, and every implemented algorithm passes for every seed.", "quantifier": "every words, position, algorithm, seed, mode and build", "why_tests_cant": "the naive functions are what the tests trust; nothing tests them, and a test runs for one seed", "anchors": ["test/test_rank_select_algorithms.hpp: naive_rank_for_words, naive_select_for_words, test_rank_256, test_rank_512, test_select_256, test_select_512"]}
{"id": "C105", "title": "the repository's tests of nodes and segment trees", "statement": "The checks accept an implementation exactly if its answers to the sum and search queries asked are right; correct nodes and trees pass the tests whatever is drawn.", "quantifier": "every array the tests can draw that is not all zero, every generator of arguments in the range asked for, every node class, tree, build and size; every implementation of sum and search (for the checks)", "why_tests_cant": "a test cannot tell whether it accepts wrong answers or rejects right ones for arrays it did not draw", "anchors": ["test/test_node.hpp: test_node", "test/test_tree.hpp: test_tree", "test/test_nodes.cpp", "test/test_segment_tree.cpp: test::run"]}
{"id": "C106", "title": "benchmarks of single algorithms", "statement": "The benchmark of an algorithm on blocks ends without undefined behaviour and prints the sum the specification gives for the queries drawn; so the sums printed for different algorithms agree.", "quantifier": "every bit array, seed, size, density, every mode of every program and every content of uninitialised memory", "why_tests_cant": "a benchmark checks no result; whether two modes do the same work on other seeds and densities is not seen in a run", "anchors": ["src/perf_rank256.cpp: perf_rank256", "src/perf_rank512.cpp", "src/perf_rank64.cpp", "src/perf_select256.cpp: perf_select256", "src/perf_select512.cpp", "src/perf_select64.cpp", "src/perf_prefix_sum256.cpp", "src/perf_prefix_sum512.cpp", "src/perf_popcnt256.cpp", "src/perf_popcnt512.cpp", "src/perf_search256.cpp", "src/perf_search512.cpp"]}
{"id": "C107", "title": "benchmarks of bitmaps", "statement": "The benchmark of a bitmap prints, for every class, what the specification gives for the queries drawn, and its flips leave the bitmap as it was; the option -i chooses one of the sizes and the report is one well-formed line.", "quantifier": "every configuration, size, density, both seeds, every content of scratch memory, every value of the option", "why_tests_cant": "a benchmark checks no result; that two classes print the same, or that no query is out of range, cannot be seen from one seed", "anchors": ["src/perf_mutable_bitmap.cpp: test::run, perf_test", "src/perf_immutable_bitmap.cpp: poppy_wrapper, test::run, perf_test", "src/perf_compressed_bitmap.cpp: perf_test", "src/perf_prefix_sum.cpp: perf_test"]}
{"id": "C108", "title": "benchmarks of trees", "statement": "The benchmarks of prefix sums, updates and searches print, for every tree, what the specification of the operation gives for the queries drawn; the updates stay within what the trees can hold.", "quantifier": "every tree class and build, every array of values, all draws", "why_tests_cant": "a benchmark checks no result, and whether millions of random updates stay legal is not seen from the numbers printed", "anchors": ["src/perf_prefix_sum.cpp: test::run", "src/perf_hft.cpp: perf_test"]}
{"id": "C109", "title": "updates beyond the range of the counters", "statement": "After any updates at existing positions, also ones that take counters below zero or above their limit, no update and no sum accesses memory out of bounds or fails an assertion; for search this is not so.", "quantifier": "every segment tree, build, array and sequence of updates at existing positions", "why_tests_cant": "sequences of illegal updates are unbounded and tests make legal ones only", "anchors": ["include/segment_tree/avx2/segment_tree.hpp: update, sum, search", "include/segment_tree/avx512/segment_tree.hpp: update, sum, search", "include/segment_tree/avx2/node128.hpp: update", "include/segment_tree/avx512/node512.hpp: update"]}
{"id": "C110", "title": "only the outcome of updates matters", "statement": "If a sequence of updates at existing positions leaves every counter within its range, counted over the integers, then the tree answers every sum and search as if built from the final counters, also after later legal updates, whatever the order of the updates and whatever values the counters took in between.", "quantifier": "every segment tree, build, array, and every sequence of updates, legal at each step or not", "why_tests_cant": "the excursions out of range are unbounded in number and depth, and tests make legal updates only", "anchors": ["include/segment_tree/avx2/segment_tree.hpp: update, sum, search", "include/segment_tree/avx512/segment_tree.hpp: update, sum, search", "include/segment_tree/avx2/node128.hpp: update", "include/segment_tree/avx2/node64.hpp: update", "include/segment_tree/avx2/node32.hpp: update", "include/segment_tree/avx512/node512.hpp: update", "include/segment_tree/avx512/node256.hpp: update", "include/segment_tree/avx512/node128.hpp: update"]}
{"id": "C111", "title": "sums of counters out of range", "statement": "After any updates at existing positions, sum(i) is the sum of the first i+1 counters as integers, modulo the range of its result.", "quantifier": "every segment tree, build, array, position and sequence of updates at existing positions", "why_tests_cant": "no finite set of update sequences covers every pattern of wrapped numbers", "anchors": ["include/segment_tree/avx2/segment_tree.hpp: update, sum", "include/segment_tree/avx512/segment_tree.hpp: update, sum", "include/segment_tree/avx2/node128.hpp: update, sum", "include/segment_tree/avx512/node512.hpp: update, sum"]}
{"id": "C112", "title": "benchmark of compressed structures", "statement": "For every type, operation, size, density and seed, perf_compressed_bitmap builds its structure and prints forty times a hundred times the sum of the answers to its queries: the ones before each position drawn (rank), the position of each one drawn (select), the numbers drawn (build).", "quantifier": "every type that the program knows, every size up to 2^32, density, seeds, addresses of the arrays", "why_tests_cant": "the program prints only a sum that nothing is compared with; a wrong answer shows only against an independent count", "anchors": ["src/perf_compressed_bitmap.cpp: mranisz_rank_wrapper, mranisz_select_wrapper, test::run, main"]}
