{
 "claims": [
  {
   "property": "C01",
   "status": "proved",
   "theorems": [
    "TdZdd.C01_build_bdd"
   ],
   "note": "For specifications without pruning (merge_states = 0, the default); pruning is C06."
  },
  {
   "property": "C02",
   "status": "proved",
   "theorems": [
    "TdZdd.C02_build_zdd"
   ],
   "note": "For specifications without pruning; pruning is C06."
  },
  {
   "property": "C03",
   "status": "proved",
   "theorems": [
    "TdZdd.C03_build_safe",
    "TdZdd.C03_build_live"
   ],
   "note": ""
  },
  {
   "property": "C04",
   "status": "proved",
   "theorems": [
    "TdZdd.C04_sharing",
    "TdZdd.C04_hash_table",
    "TdZdd.C04_hash_independent"
   ],
   "note": ""
  },
  {
   "property": "C05",
   "status": "proved",
   "theorems": [
    "TdZdd.C05_same",
    "TdZdd.C05_shape",
    "TdZdd.C05_pruning_unsafe"
   ],
   "note": "For specifications that do not prune, as C01 and C02. With pruning the parallel builder is unsafe (C05_pruning_unsafe). Iterations of the first loop are atomic, the memory accesses of the second loop are interleaved arbitrarily."
  },
  {
   "property": "C06",
   "status": "proved",
   "theorems": [
    "TdZdd.C06_pruning_sound",
    "TdZdd.C06_pruning_nonempty"
   ],
   "note": "merge_states is assumed not to modify its arguments."
  },
  {
   "property": "C07",
   "status": "proved",
   "theorems": [
    "TdZdd.C07_bddReduce"
   ],
   "note": ""
  },
  {
   "property": "C08",
   "status": "proved",
   "theorems": [
    "TdZdd.C08_zddReduce"
   ],
   "note": ""
  },
  {
   "property": "C09",
   "status": "proved",
   "theorems": [
    "TdZdd.C09_qddReduce",
    "TdZdd.C09_qddReduce_deletes_zero_nodes"
   ],
   "note": "The comment \"no node deletion rule is applied\" is inaccurate: C09_qddReduce_deletes_zero_nodes."
  },
  {
   "property": "C10",
   "status": "proved",
   "theorems": [
    "TdZdd.C10_bddReduce_canonical"
   ],
   "note": ""
  },
  {
   "property": "C100",
   "status": "proved",
   "theorems": [
    "TdZdd.C100_bits",
    "TdZdd.C100_empty",
    "TdZdd.C100_zero",
    "TdZdd.C100_again"
   ],
   "note": "Loop iterations take effect at once, as in C12; the bits are kept beside the ids."
  },
  {
   "property": "C101",
   "status": "proved",
   "theorems": [
    "TdZdd.C101_bit_hash",
    "TdZdd.C101_small_hash",
    "TdZdd.C101_bit_same",
    "TdZdd.C101_bit_text",
    "TdZdd.C101_bit_text_inj",
    "TdZdd.C101_small",
    "TdZdd.C101_bit_value",
    "TdZdd.C101_small_value"
   ],
   "note": "Elements of MySmallSet are integers, printed as numbers."
  },
  {
   "property": "C102",
   "status": "proved",
   "theorems": [
    "TdZdd.C102_vertex",
    "TdZdd.C102_edge",
    "TdZdd.C102_label",
    "TdZdd.C102_dump",
    "TdZdd.C102_text_inj",
    "TdZdd.C102_deco",
    "TdZdd.C102_comma",
    "TdZdd.C102_empty_name"
   ],
   "note": "Functions called after a successful update(). C102_comma and C102_empty_name are findings."
  },
  {
   "property": "C103",
   "status": "proved",
   "theorems": [
    "TdZdd.C103_graph",
    "TdZdd.C103_all",
    "TdZdd.C103_all_inj",
    "TdZdd.C103_all_simple",
    "TdZdd.C103_gx_graph",
    "TdZdd.C103_solutions",
    "TdZdd.C103_solutions_found",
    "TdZdd.C103_solutions_inj"
   ],
   "note": "The standard output for -graph, -all and -solutions; messages on the standard error are not modelled."
  },
  {
   "property": "C104",
   "status": "proved",
   "theorems": [
    "TdZdd.C104_sequence",
    "TdZdd.C104_memory",
    "TdZdd.C104_self_assign",
    "TdZdd.C104_bounds",
    "TdZdd.C104_text"
   ],
   "note": "Rows are the vectors of C50 with all their effects on memory; numbers are natural numbers and allocation does not fail. C104_self_assign is a finding."
  },
  {
   "property": "C105",
   "status": "proved",
   "theorems": [
    "TdZdd.C105_text",
    "TdZdd.C105_chains",
    "TdZdd.C105_labels",
    "TdZdd.C105_union_confused",
    "TdZdd.C105_union_picture",
    "TdZdd.C105_variadic"
   ],
   "note": "Numbers are integers of any size; texts are lists of characters. C105_union_confused and C105_union_picture are findings."
  },
  {
   "property": "C106",
   "status": "proved",
   "theorems": [
    "TdZdd.C106_degree",
    "TdZdd.C106_numlin",
    "TdZdd.C106_constraint",
    "TdZdd.C106_pictures"
   ],
   "note": "C106_pictures needs boards with two or more columns and, for NumlinZdd, the bounds of C69."
  },
  {
   "property": "C107",
   "status": "proved",
   "theorems": [
    "TdZdd.C107_text",
    "TdZdd.C107_equal",
    "TdZdd.C107_picture"
   ],
   "note": "The clauses are those read and sorted as in C75."
  },
  {
   "property": "C108",
   "status": "proved",
   "theorems": [
    "TdZdd.C108_cells",
    "TdZdd.C108_formula",
    "TdZdd.C108_links",
    "TdZdd.C108_empty"
   ],
   "note": "The clauses are those that readDimacs stores (non-empty, sorted by variable, no variable twice); texts are lists of characters."
  },
  {
   "property": "C11",
   "status": "proved",
   "theorems": [
    "TdZdd.C11_zddReduce_canonical"
   ],
   "note": ""
  },
  {
   "property": "C12",
   "status": "proved",
   "theorems": [
    "TdZdd.C12_bddReduce",
    "TdZdd.C12_zddReduce",
    "TdZdd.C12_qddReduce"
   ],
   "note": "Iterations of the work-shared loops are atomic (single accesses: C96, C97); temporary row numbers must fit in 20 bits."
  },
  {
   "property": "C13",
   "status": "proved",
   "theorems": [
    "TdZdd.C13_reduce_idempotent"
   ],
   "note": ""
  },
  {
   "property": "C14",
   "status": "proved",
   "theorems": [
    "TdZdd.C14_bddReduce_minimal",
    "TdZdd.C14_zddReduce_minimal",
    "TdZdd.C14_build_zddReduce_minimal",
    "TdZdd.C14_needs_reachability"
   ],
   "note": ""
  },
  {
   "property": "C15",
   "status": "proved",
   "theorems": [
    "TdZdd.C15_eq",
    "TdZdd.C15_eq_incomplete"
   ],
   "note": "On structures with duplicate nodes a copy can compare unequal (C15_eq_incomplete)."
  },
  {
   "property": "C16",
   "status": "proved",
   "theorems": [
    "TdZdd.C16_bddAnd"
   ],
   "note": ""
  },
  {
   "property": "C17",
   "status": "proved",
   "theorems": [
    "TdZdd.C17_bddOr"
   ],
   "note": ""
  },
  {
   "property": "C18",
   "status": "proved",
   "theorems": [
    "TdZdd.C18_zddIntersection",
    "TdZdd.C18_loop_terminates",
    "TdZdd.C18_needs_minus_one"
   ],
   "note": "1-terminal codes must be -1 as documented; C18_needs_minus_one shows the loop misbehaves for other negative codes."
  },
  {
   "property": "C19",
   "status": "proved",
   "theorems": [
    "TdZdd.C19_zddUnion"
   ],
   "note": ""
  },
  {
   "property": "C20",
   "status": "proved",
   "theorems": [
    "TdZdd.C20_bddLookahead",
    "TdZdd.C20_no_redundant",
    "TdZdd.C20_loop_terminates"
   ],
   "note": ""
  },
  {
   "property": "C21",
   "status": "proved",
   "theorems": [
    "TdZdd.C21_zddLookahead",
    "TdZdd.C21_no_redundant",
    "TdZdd.C21_loop_terminates"
   ],
   "note": ""
  },
  {
   "property": "C22",
   "status": "proved",
   "theorems": [
    "TdZdd.C22_bddUnreduction",
    "TdZdd.C22_levels",
    "TdZdd.C22_as_zdd"
   ],
   "note": ""
  },
  {
   "property": "C23",
   "status": "proved",
   "theorems": [
    "TdZdd.C23_zddUnreduction",
    "TdZdd.C23_as_bdd",
    "TdZdd.C23_levels"
   ],
   "note": ""
  },
  {
   "property": "C24",
   "status": "proved",
   "theorems": [
    "TdZdd.C24_bdd2zdd"
   ],
   "note": ""
  },
  {
   "property": "C25",
   "status": "proved",
   "theorems": [
    "TdZdd.C25_zdd2bdd",
    "TdZdd.C25_roundtrip_bdd",
    "TdZdd.C25_roundtrip_zdd"
   ],
   "note": ""
  },
  {
   "property": "C26",
   "status": "proved",
   "theorems": [
    "TdZdd.C26_bddAnd",
    "TdZdd.C26_bddOr",
    "TdZdd.C26_zddUnion",
    "TdZdd.C26_zddIntersection",
    "TdZdd.C26_bddLookahead",
    "TdZdd.C26_zddLookahead",
    "TdZdd.C26_bddUnreduction",
    "TdZdd.C26_zddUnreduction",
    "TdZdd.C26_bddExpr",
    "TdZdd.C26_zddExpr"
   ],
   "note": ""
  },
  {
   "property": "C27",
   "status": "proved",
   "theorems": [
    "TdZdd.C27_subset",
    "TdZdd.C27_pruning",
    "TdZdd.C27_live",
    "TdZdd.C27_code_minus_two"
   ],
   "note": "Specifications with pruning: C27_pruning. Level codes other than -1 for the 1-terminal are excluded, with a counterexample."
  },
  {
   "property": "C28",
   "status": "proved",
   "theorems": [
    "TdZdd.C28_same",
    "TdZdd.C28_live",
    "TdZdd.C28_pruning_unsafe"
   ],
   "note": "For specifications that do not prune; with pruning the parallel subsetter is unsafe (C28_pruning_unsafe)."
  },
  {
   "property": "C29",
   "status": "proved",
   "theorems": [
    "TdZdd.C29_evaluate",
    "TdZdd.C29_evaluate_state"
   ],
   "note": "Iterations of the work-shared loop are atomic (single accesses: C98); destructors of values are not modelled."
  },
  {
   "property": "C30",
   "status": "proved",
   "theorems": [
    "TdZdd.C30_zddCardinality",
    "TdZdd.C30_words",
    "TdZdd.C30_generic"
   ],
   "note": "The floating-point size computation is replaced by the exact one; C30_words shows any sufficiently large size works."
  },
  {
   "property": "C31",
   "status": "partial",
   "theorems": [
    "TdZdd.C31_bddCardinality_partial",
    "TdZdd.C31_near_root_partial",
    "TdZdd.C31_words",
    "TdZdd.C31_sound",
    "TdZdd.C31_storage_overflow"
   ],
   "note": "Proved when the temporaries, sized by the root level, can hold the number of all assignments; for larger n the code writes outside its arrays (C31_storage_overflow); if it does not, the result is right (C31_sound)."
  },
  {
   "property": "C32",
   "status": "proved",
   "theorems": [
    "TdZdd.C32_encodable",
    "TdZdd.C32_size",
    "TdZdd.C32_store",
    "TdZdd.C32_storeWord",
    "TdZdd.C32_add",
    "TdZdd.C32_shiftLeft",
    "TdZdd.C32_canonical",
    "TdZdd.C32_eq",
    "TdZdd.C32_translate",
    "TdZdd.C32_divide",
    "TdZdd.C32_divide_ignores_divisor",
    "TdZdd.C32_print",
    "TdZdd.C32_null"
   ],
   "note": "Comparison is of encodings; for numbers without superfluous words it is equality. divide(n) ignores n. translate is modelled for an unbounded result type. Operands are different arrays."
  },
  {
   "property": "C33",
   "status": "proved",
   "theorems": [
    "TdZdd.C33_iteration",
    "TdZdd.C33_end_stays"
   ],
   "note": ""
  },
  {
   "property": "C34",
   "status": "proved",
   "theorems": [
    "TdZdd.C34_order"
   ],
   "note": ""
  },
  {
   "property": "C35",
   "status": "proved",
   "theorems": [
    "TdZdd.C35_findOneInstance",
    "TdZdd.C35_member"
   ],
   "note": "Destructors of states are not modelled; the state stack is the call stack (see C49)."
  },
  {
   "property": "C36",
   "status": "proved",
   "theorems": [
    "TdZdd.C36_universal",
    "TdZdd.C36_count"
   ],
   "note": ""
  },
  {
   "property": "C37",
   "status": "proved",
   "theorems": [
    "TdZdd.C37_size",
    "TdZdd.C37_null",
    "TdZdd.C37_range",
    "TdZdd.C37_lawful",
    "TdZdd.C37_bounded"
   ],
   "note": ""
  },
  {
   "property": "C38",
   "status": "proved",
   "theorems": [
    "TdZdd.C38_contains",
    "TdZdd.C38_undefined",
    "TdZdd.C38_encloses"
   ],
   "note": ""
  },
  {
   "property": "C39",
   "status": "proved",
   "theorems": [
    "TdZdd.C39_linear",
    "TdZdd.C39_key_above"
   ],
   "note": "T is a signed integer type with any range; the conditions exclude overflow of the sums."
  },
  {
   "property": "C40",
   "status": "proved",
   "theorems": [
    "TdZdd.C40_degree",
    "TdZdd.C40_lawful",
    "TdZdd.C40_bdd",
    "TdZdd.C40_range",
    "TdZdd.C40_usesB",
    "TdZdd.C40_loop_twice",
    "TdZdd.C40_loop_once",
    "TdZdd.C40_no_edges"
   ],
   "note": "Loops, graphs without edges and constrained vertices with more than 32767 edges are excluded; the first two with counterexamples."
  },
  {
   "property": "C41",
   "status": "proved",
   "theorems": [
    "TdZdd.C41_update",
    "TdZdd.C41_throws",
    "TdZdd.C41_colors"
   ],
   "note": ""
  },
  {
   "property": "C42",
   "status": "proved",
   "theorems": [
    "TdZdd.C42_window",
    "TdZdd.C42_shift"
   ],
   "note": ""
  },
  {
   "property": "C43",
   "status": "partial",
   "theorems": [
    "TdZdd.C43_cycle",
    "TdZdd.C43_lawful",
    "TdZdd.C43_hamilton_partial",
    "TdZdd.C43_hamilton_false",
    "TdZdd.C43_hamilton_false2"
   ],
   "note": "CycleZdd is proved in full. HamiltonCycleZdd violates the property: it accepts cycles that miss vertices; shown by two counterexamples. What it does satisfy is C43_hamilton_partial."
  },
  {
   "property": "C44",
   "status": "proved",
   "theorems": [
    "TdZdd.C44_path",
    "TdZdd.C44_lawful",
    "TdZdd.C44_hamilton_partial",
    "TdZdd.C44_hamilton_false"
   ],
   "note": "Also for HamiltonPathZdd as far as it is true, with a counterexample to the rest."
  },
  {
   "property": "C45",
   "status": "proved",
   "theorems": [
    "TdZdd.C45_roundtrip",
    "TdZdd.C45_range",
    "TdZdd.C45_attr",
    "TdZdd.C45_injective",
    "TdZdd.C45_eq",
    "TdZdd.C45_order",
    "TdZdd.C45_hasEmpty",
    "TdZdd.C45_node",
    "TdZdd.C45_ndebug_alias"
   ],
   "note": "Out-of-range arguments fail an assertion; without assertions they alias other ids (C45_ndebug_alias)."
  },
  {
   "property": "C46",
   "status": "proved",
   "theorems": [
    "TdZdd.C46_hash_table",
    "TdZdd.C46_assign",
    "TdZdd.C46_self_assign_defect",
    "TdZdd.C46_primeSize"
   ],
   "note": "Self-assignment of a table empties it (C46_self_assign_defect)."
  },
  {
   "property": "C47",
   "status": "proved",
   "theorems": [
    "TdZdd.C47_value",
    "TdZdd.C47_copy",
    "TdZdd.C47_memory",
    "TdZdd.C47_no_leak",
    "TdZdd.C47_self_assign",
    "TdZdd.C47_self_assign_shared",
    "TdZdd.C47_init_keeps_index"
   ],
   "note": "Self-assignment of the only handle is a use after free (C47_self_assign). Execution ends when \"Too many references\" is thrown."
  },
  {
   "property": "C48",
   "status": "proved",
   "theorems": [
    "TdZdd.C48_arrays",
    "TdZdd.C48_disjoint",
    "TdZdd.C48_no_leak",
    "TdZdd.C48_reuse_overflow",
    "TdZdd.C48_alloc_zero",
    "TdZdd.C48_size_overflow",
    "TdZdd.C48_moved_from",
    "TdZdd.C48_self_splice"
   ],
   "note": "reuse() after a large allocation overflows a block (C48_reuse_overflow) and is excluded; the library does not call reuse."
  },
  {
   "property": "C49",
   "status": "proved",
   "theorems": [
    "TdZdd.C49_stack",
    "TdZdd.C49_disjoint",
    "TdZdd.C49_no_leak",
    "TdZdd.C49_on_pool",
    "TdZdd.C49_on_pool_cleared"
   ],
   "note": "MyList for any block size, and MyListOnPool on the model of MemoryPool."
  },
  {
   "property": "C50",
   "status": "proved",
   "theorems": [
    "TdZdd.C50_sequence",
    "TdZdd.C50_memory",
    "TdZdd.C50_erase_middle",
    "TdZdd.C50_erase_pos",
    "TdZdd.C50_self_assign",
    "TdZdd.C50_push_own"
   ],
   "note": "Four operations that the code gets wrong are excluded, each with a proof of what happens then."
  },
  {
   "property": "C51",
   "status": "proved",
   "theorems": [
    "TdZdd.C51_set",
    "TdZdd.C51_sorted",
    "TdZdd.C51_throws",
    "TdZdd.C51_add_full",
    "TdZdd.C51_pool_overflow",
    "TdZdd.C51_duplicates"
   ],
   "note": "The capacity of MySmallSet<T,N> is N-1. add on a full set throws even for an element of the set (C51_add_full); MySmallSetOnPool does not check (C51_pool_overflow)."
  },
  {
   "property": "C52",
   "status": "proved",
   "theorems": [
    "TdZdd.C52_set",
    "TdZdd.C52_bits",
    "TdZdd.C52_pullout",
    "TdZdd.C52_pullout_wrong",
    "TdZdd.C52_pullout_63",
    "TdZdd.C52_pullout_overrun"
   ],
   "note": "All operations but pullout, for fixed size and on a pool. pullout does not do what its documentation says (C52_pullout_wrong), with undefined behaviour for most arguments; the library does not call it."
  },
  {
   "property": "C53",
   "status": "partial",
   "theorems": [
    "TdZdd.C53_count64",
    "TdZdd.C53_countFast",
    "TdZdd.C53_sound",
    "TdZdd.C53_count_partial",
    "TdZdd.C53_count_short_partial",
    "TdZdd.C53_count_dense_partial",
    "TdZdd.C53_count_overflow",
    "TdZdd.C53_total_overflow"
   ],
   "note": "count64 and countFast are proved for every lawful specification; count writes outside of its numbers for some specifications with long edges (C53_count_overflow), its claim is proved for those that leave enough room."
  },
  {
   "property": "C54",
   "status": "proved",
   "theorems": [
    "TdZdd.C54_insert_nodes",
    "TdZdd.C54_insert",
    "TdZdd.C54_remove_nodes",
    "TdZdd.C54_remove",
    "TdZdd.C54_remove_dead"
   ],
   "note": "The function is about tables; the meaning is given for the structure with the root moved in the same way."
  },
  {
   "property": "C55",
   "status": "proved",
   "theorems": [
    "TdZdd.C55_dump",
    "TdZdd.C55_family",
    "TdZdd.C55_terminal_root",
    "TdZdd.C55_root_lost"
   ],
   "note": "Terminal roots and edges into the level of the root are excluded, both with a proof that the code then reads out of bounds."
  },
  {
   "property": "C56",
   "status": "proved",
   "theorems": [
    "TdZdd.C56_structure_lawful",
    "TdZdd.C56_rebuild"
   ],
   "note": ""
  },
  {
   "property": "C57",
   "status": "proved",
   "theorems": [
    "TdZdd.C57_search",
    "TdZdd.C57_lawful",
    "TdZdd.C57_spanning_tree",
    "TdZdd.C57_wrap",
    "TdZdd.C57_limit",
    "TdZdd.C57_wrap_false"
   ],
   "note": "numUEC counts modulo 65536 (C57_wrap, C57_wrap_false); with 32767 vertices a colour can be lost (C57_limit)."
  },
  {
   "property": "C58",
   "status": "proved",
   "theorems": [
    "TdZdd.C58_family",
    "TdZdd.C58_first",
    "TdZdd.C58_terminal",
    "TdZdd.C58_truncated",
    "TdZdd.C58_large_id",
    "TdZdd.C58_dangling",
    "TdZdd.C58_int_max"
   ],
   "note": "Files of terminals (T or B alone) are read as the empty family (C58_terminal); truncated files, undefined children and extreme numbers are not detected (C58_truncated, C58_dangling, C58_large_id, C58_int_max)."
  },
  {
   "property": "C59",
   "status": "proved",
   "theorems": [
    "TdZdd.C59_edges",
    "TdZdd.C59_edges_error",
    "TdZdd.C59_adjacency",
    "TdZdd.C59_groups",
    "TdZdd.C59_colors",
    "TdZdd.C59_colors_wrap",
    "TdZdd.C59_last_line",
    "TdZdd.C59_no_number"
   ],
   "note": "readEdges mistreats a last line without new-line character (C59_last_line); the other readers stop silently at words that are no numbers (C59_no_number)."
  },
  {
   "property": "C60",
   "status": "proved",
   "theorems": [
    "TdZdd.C60_update",
    "TdZdd.C60_mates",
    "TdZdd.C60_mutual",
    "TdZdd.C60_pairs",
    "TdZdd.C60_pairs_path",
    "TdZdd.C60_clear_cycle",
    "TdZdd.C60_clear_byMap",
    "TdZdd.C60_clear_flag",
    "TdZdd.C60_default",
    "TdZdd.C60_default_throws",
    "TdZdd.C60_default_names"
   ],
   "note": "hasColorPairs() keeps its value in clearColors() (C60_clear_flag); setDefaultPathColor() goes by names (C60_default_names)."
  },
  {
   "property": "C61",
   "status": "proved",
   "theorems": [
    "TdZdd.C61_ring",
    "TdZdd.C61_cycle",
    "TdZdd.C61_path",
    "TdZdd.C61_pairs_disjoint",
    "TdZdd.C61_pairs_false",
    "TdZdd.C61_lawful",
    "TdZdd.C61_sorted"
   ],
   "note": "For more than one pair the specification does not have the paths that join the pairs (C61_pairs_disjoint, C61_pairs_false)."
  },
  {
   "property": "C62",
   "status": "proved",
   "theorems": [
    "TdZdd.C62_init",
    "TdZdd.C62_add",
    "TdZdd.C62_eq",
    "TdZdd.C62_divide",
    "TdZdd.C62_divide_zero",
    "TdZdd.C62_divide_false",
    "TdZdd.C62_translate",
    "TdZdd.C62_print"
   ],
   "note": "divide(n) is wrong for n > 2^31 (C62_divide_false); the number is overwritten when operator+= throws."
  },
  {
   "property": "C63",
   "status": "proved",
   "theorems": [
    "TdZdd.C63_placements",
    "TdZdd.C63_first",
    "TdZdd.C63_lawful"
   ],
   "note": "Precondition n <= 31: the shift in getRoot is undefined from 32 on."
  },
  {
   "property": "C64",
   "status": "proved",
   "theorems": [
    "TdZdd.C64_colored",
    "TdZdd.C64_lawful"
   ],
   "note": "Precondition 1 <= n <= 31: the shift in getRoot is undefined from 32 on."
  },
  {
   "property": "C65",
   "status": "proved",
   "theorems": [
    "TdZdd.C65_oneHot",
    "TdZdd.C65_nary",
    "TdZdd.C65_lawful",
    "TdZdd.C65_nary_false"
   ],
   "note": "NAryZdd lacks the numbers whose lowest digit is 0, contrary to its name (C65_nary_false); the application uses OneHotNAryZdd only."
  },
  {
   "property": "C66",
   "status": "proved",
   "theorems": [
    "TdZdd.C66_interleave",
    "TdZdd.C66_all",
    "TdZdd.C66_pos",
    "TdZdd.C66_colored",
    "TdZdd.C66_colored_oneHot",
    "TdZdd.C66_coloredAll",
    "TdZdd.C66_lawful"
   ],
   "note": "What ColoredZdd demands of a field depends on the rows that have nodes on the way (Visits); with exactly one colour per field it does not (C66_colored_oneHot)."
  },
  {
   "property": "C67",
   "status": "proved",
   "theorems": [
    "TdZdd.C67_plain",
    "TdZdd.C67_rook",
    "TdZdd.C67_colored1",
    "TdZdd.C67_colored",
    "TdZdd.C67_mirror"
   ],
   "note": "Sequential algorithms (option -p: C95); the report, the dump and the count in double are not part of it."
  },
  {
   "property": "C68",
   "status": "proved",
   "theorems": [
    "TdZdd.C68_degree",
    "TdZdd.C68_lawful",
    "TdZdd.C68_unique"
   ],
   "note": "Boards with at least two columns."
  },
  {
   "property": "C69",
   "status": "proved",
   "theorems": [
    "TdZdd.C69_numlin",
    "TdZdd.C69_lawful",
    "TdZdd.C69_solution",
    "TdZdd.C69_column",
    "TdZdd.C69_column_false",
    "TdZdd.C69_wrap"
   ],
   "note": "Boards with one column have no variables and no solution is found (C69_column, C69_column_false); cols + number wraps around in uint8_t (C69_wrap)."
  },
  {
   "property": "C70",
   "status": "proved",
   "theorems": [
    "TdZdd.C70_constraint",
    "TdZdd.C70_both",
    "TdZdd.C70_tidy",
    "TdZdd.C70_exists",
    "TdZdd.C70_lawful",
    "TdZdd.C70_blank_false"
   ],
   "note": "Without a limit of the blank boxes a solution without detours exists whenever a solution exists; with a limit all solutions may be lost (C70_blank_false)."
  },
  {
   "property": "C71",
   "status": "proved",
   "theorems": [
    "TdZdd.C71_run",
    "TdZdd.C71_solves",
    "TdZdd.C71_unique",
    "TdZdd.C71_column",
    "TdZdd.C71_row_false"
   ],
   "note": "Sequential (option -p: C95). Boards with at least two rows and two columns and min(rows, cols) + number <= 255; boards with one column find nothing (C71_column) and the transposition of a board with one row is undefined (C71_row_false). The pictures and the count of further solutions are not part of it."
  },
  {
   "property": "C72",
   "status": "proved",
   "theorems": [
    "TdZdd.C72_read",
    "TdZdd.C72_no_size",
    "TdZdd.C72_zero",
    "TdZdd.C72_separator",
    "TdZdd.C72_roundtrip",
    "TdZdd.C72_solve"
   ],
   "note": "Numbers up to INT_MAX; C72_solve as C71 (at least two rows and columns, min(rows, cols) + number <= 255, without -p)."
  },
  {
   "property": "C73",
   "status": "proved",
   "theorems": [
    "TdZdd.C73_picture",
    "TdZdd.C73_faithful",
    "TdZdd.C73_distinct",
    "TdZdd.C73_picture_false",
    "TdZdd.C73_faithful_false"
   ],
   "note": "Numbers up to 99 (C73_picture_false shows a misaligned picture for 100); the picture determines the solution if no number occurs more than twice (C73_faithful_false otherwise)."
  },
  {
   "property": "C74",
   "status": "proved",
   "theorems": [
    "TdZdd.C74_fill",
    "TdZdd.C74_positive",
    "TdZdd.C74_loop_false"
   ],
   "note": "On closed lines the recursion does not end (C74_loop_false); the call is commented out in ddnumlin."
  },
  {
   "property": "C75",
   "status": "proved",
   "theorems": [
    "TdZdd.C75_clauses",
    "TdZdd.C75_diagram",
    "TdZdd.C75_one"
   ],
   "note": "The tautology test of VarCmp is modelled by its meaning."
  },
  {
   "property": "C76",
   "status": "proved",
   "theorems": [
    "TdZdd.C76_app"
   ],
   "note": "The CUDD library is modelled by the textbook algorithms on ordered diagrams. The reader of the file is not part of it."
  },
  {
   "property": "C77",
   "status": "proved",
   "theorems": [
    "TdZdd.C77_read",
    "TdZdd.C77_few",
    "TdZdd.C77_many",
    "TdZdd.C77_range",
    "TdZdd.C77_header",
    "TdZdd.C77_zero",
    "TdZdd.C77_app",
    "TdZdd.C77_uninit_false",
    "TdZdd.C77_min_false"
   ],
   "note": "What the variable that is not initialised holds at the end of the text is a parameter; the result is right if it keeps its last value (C77_uninit_false says what happens otherwise). The literal -2147483648 is undefined (C77_min_false)."
  },
  {
   "property": "C78",
   "status": "proved",
   "theorems": [
    "TdZdd.C78_zdd",
    "TdZdd.C78_zdd_diagram",
    "TdZdd.C78_order_false",
    "TdZdd.C78_loop",
    "TdZdd.C78_negative_false",
    "TdZdd.C78_bdd"
   ],
   "note": "SAPPOROBDD is modelled by textbook algorithms on trees of levels."
  },
  {
   "property": "C79",
   "status": "proved",
   "theorems": [
    "TdZdd.C79_zbdd",
    "TdZdd.C79_zbdd_round",
    "TdZdd.C79_bdd",
    "TdZdd.C79_bdd_round",
    "TdZdd.C79_bdd_throws"
   ],
   "note": "ToBDD for offsets >= 0 (else it throws on nodes at low levels). SAPPOROBDD is modelled as in C78."
  },
  {
   "property": "C80",
   "status": "proved",
   "theorems": [
    "TdZdd.C80_spec",
    "TdZdd.C80_merge",
    "TdZdd.C80_wrap_false",
    "TdZdd.C80_empty_false"
   ],
   "note": "For at most 65535 clauses; C80_wrap_false and C80_empty_false show what happens otherwise."
  },
  {
   "property": "C81",
   "status": "proved",
   "theorems": [
    "TdZdd.C81_traverse",
    "TdZdd.C81_spec",
    "TdZdd.C81_build",
    "TdZdd.C81_overrun_false",
    "TdZdd.C81_overrun_up_false",
    "TdZdd.C81_null_false"
   ],
   "note": "The CUDD library is modelled by textbook algorithms; the measure of the size is a parameter. That the construction is always defined is false (C81_overrun_false, C81_overrun_up_false)."
  },
  {
   "property": "C82",
   "status": "proved",
   "theorems": [
    "TdZdd.C82_sound",
    "TdZdd.C82_ends",
    "TdZdd.C82_tautologies_false",
    "TdZdd.C82_overflow_false"
   ],
   "note": "The dumps and -p are not modelled."
  },
  {
   "property": "C83",
   "status": "proved",
   "theorems": [
    "TdZdd.C83_simple",
    "TdZdd.C83_search",
    "TdZdd.C83_hamilton_partial",
    "TdZdd.C83_graph",
    "TdZdd.C83_errors",
    "TdZdd.C83_slow_one",
    "TdZdd.C83_slow_false",
    "TdZdd.C83_hamilton_false"
   ],
   "note": "With -hamilton the result lies between two families; that all members visit all vertices is false (C83_hamilton_false). -slow with several pairs gives another family (C83_slow_false)."
  },
  {
   "property": "C84",
   "status": "proved",
   "theorems": [
    "TdZdd.C84_family",
    "TdZdd.C84_import",
    "TdZdd.C84_path",
    "TdZdd.C84_st",
    "TdZdd.C84_st_path",
    "TdZdd.C84_path_none",
    "TdZdd.C84_own_groups",
    "TdZdd.C84_empty",
    "TdZdd.C84_matching_false",
    "TdZdd.C84_import_false",
    "TdZdd.C84_st_false"
   ],
   "note": "Up to 32766 vertices; the imported diagram has at most as many levels as there are edges. The iterator is run to its end even if -solutions stops it."
  },
  {
   "property": "C85",
   "status": "proved",
   "theorems": [
    "TdZdd.C85_read",
    "TdZdd.C85_accept",
    "TdZdd.C85_unknown",
    "TdZdd.C85_too_many",
    "TdZdd.C85_missing",
    "TdZdd.C85_ub",
    "TdZdd.C85_atoi",
    "TdZdd.C85_atoi_none",
    "TdZdd.C85_strtol",
    "TdZdd.C85_ddpaths",
    "TdZdd.C85_graphillion",
    "TdZdd.C85_cnfbdd",
    "TdZdd.C85_ddnumlin",
    "TdZdd.C85_queens",
    "TdZdd.C85_queens_options",
    "TdZdd.C85_repeat_false",
    "TdZdd.C85_word_false"
   ],
   "note": "An option with a value that is given twice is not an error and its second value is taken for a file name (C85_repeat_false)."
  },
  {
   "property": "C86",
   "status": "proved",
   "theorems": [
    "TdZdd.C86_raw",
    "TdZdd.C86_size",
    "TdZdd.C86_hybrid_size",
    "TdZdd.C86_elements",
    "TdZdd.C86_array_functions",
    "TdZdd.C86_array",
    "TdZdd.C86_array_independent",
    "TdZdd.C86_scalar",
    "TdZdd.C86_hybrid",
    "TdZdd.C86_hybrid_meaning",
    "TdZdd.C86_stateless",
    "TdZdd.C86_padding_false",
    "TdZdd.C86_scalar_padding_false",
    "TdZdd.C86_hybrid_padding_false"
   ],
   "note": "printState is not modelled; element types of arrays have no padding."
  },
  {
   "property": "C87",
   "status": "proved",
   "theorems": [
    "TdZdd.C87_reduce",
    "TdZdd.C87_bdd_eq",
    "TdZdd.C87_zdd_eq",
    "TdZdd.C87_bdd2zdd",
    "TdZdd.C87_zdd2bdd",
    "TdZdd.C87_roundtrip_bdd",
    "TdZdd.C87_roundtrip_zdd",
    "TdZdd.C87_zddSubset_reduced",
    "TdZdd.C87_zddSubset_qdd",
    "TdZdd.C87_zddSubset_not_reduced"
   ],
   "note": "Sequential versions, all arities; zddSubset of different families need not be reduced (C87_zddSubset_not_reduced)."
  },
  {
   "property": "C88",
   "status": "proved",
   "theorems": [
    "TdZdd.C88_random_lawful",
    "TdZdd.C88_random_states",
    "TdZdd.C88_never_fails",
    "TdZdd.C88_passes",
    "TdZdd.C88_small",
    "TdZdd.C88_empty_undefined",
    "TdZdd.C88_project_test_undefined"
   ],
   "note": "Sequential (useMP = false); rand() is an arbitrary function. The project's own test has undefined behaviour when one of its 100-level binary diagrams is empty (C88_project_test_undefined)."
  },
  {
   "property": "C89",
   "status": "proved",
   "theorems": [
    "TdZdd.C89_combination_lawful",
    "TdZdd.C89_combination",
    "TdZdd.C89_combination_count",
    "TdZdd.C89_cardinality_u64",
    "TdZdd.C89_cardinality_int",
    "TdZdd.C89_example1",
    "TdZdd.C89_minNumItems",
    "TdZdd.C89_maxNumItems",
    "TdZdd.C89_issue007"
   ],
   "note": "Sequential construction; the evaluators for every schedule."
  },
  {
   "property": "C90",
   "status": "proved",
   "theorems": [
    "TdZdd.C90_edges",
    "TdZdd.C90_lawful",
    "TdZdd.C90_members",
    "TdZdd.C90_one_to_one",
    "TdZdd.C90_cardinality",
    "TdZdd.C90_single"
   ],
   "note": "At least one row and column, at least two vertices, 2*rows*cols < 2^31; sequential construction."
  },
  {
   "property": "C91",
   "status": "proved",
   "theorems": [
    "TdZdd.C91_defined",
    "TdZdd.C91_sound",
    "TdZdd.C91_paths",
    "TdZdd.C91_names",
    "TdZdd.C91_nodes",
    "TdZdd.C91_structure",
    "TdZdd.C91_table_nodes",
    "TdZdd.C91_table_paths"
   ],
   "note": "C91_paths and C91_nodes for specifications that merge no states; C91_sound and C91_names for all lawful ones. printLevel and printState are parameters."
  },
  {
   "property": "C92",
   "status": "proved",
   "theorems": [
    "TdZdd.C92_bits",
    "TdZdd.C92_again",
    "TdZdd.C92_empty",
    "TdZdd.C92_zero",
    "TdZdd.C92_descend",
    "TdZdd.C92_dot",
    "TdZdd.C92_show"
   ],
   "note": "Sequential reducers of all arities; ids of terminals in the input have no bit, as after construction and after a reduction."
  },
  {
   "property": "C93",
   "status": "proved",
   "theorems": [
    "TdZdd.C93_disabled",
    "TdZdd.C93_layout",
    "TdZdd.C93_nesting",
    "TdZdd.C93_leak",
    "TdZdd.C93_begin",
    "TdZdd.C93_end_line",
    "TdZdd.C93_end_block",
    "TdZdd.C93_dots",
    "TdZdd.C93_line",
    "TdZdd.C93_defined",
    "TdZdd.C93_no_steps",
    "TdZdd.C93_row",
    "TdZdd.C93_row_end",
    "TdZdd.C93_row_false"
   ],
   "note": "The clock and the texts of ResourceUsage are arbitrary. The row is drawn again unless the other text ends in the matching column (C93_row_false)."
  },
  {
   "property": "C94",
   "status": "proved",
   "theorems": [
    "TdZdd.C94_typename",
    "TdZdd.C94_blanks",
    "TdZdd.C94_classes",
    "TdZdd.C94_mangled",
    "TdZdd.C94_underscore_false"
   ],
   "note": "The result of __cxa_demangle is a parameter; ASCII names. A qualifier with an underscore is not removed completely (C94_underscore_false)."
  },
  {
   "property": "C95",
   "status": "proved",
   "theorems": [
    "TdZdd.C95_plain",
    "TdZdd.C95_rook",
    "TdZdd.C95_colored1",
    "TdZdd.C95_colored",
    "TdZdd.C95_numlin"
   ],
   "note": "Every schedule of the parallel algorithms that Par.Ok admits (operations of AppOps.lean); same limits on the input as C67 and C71."
  },
  {
   "property": "C96",
   "status": "proved",
   "theorems": [
    "TdZdd.C96_bddReduce",
    "TdZdd.C96_zddReduce",
    "TdZdd.C96_qddReduce",
    "TdZdd.C96_races",
    "TdZdd.C96_output_race"
   ],
   "note": "Threads interleave at single accesses of shared memory. In the third loop two threads can write the same node to the same place of the output (C96_output_race), with equal values (C96_races)."
  },
  {
   "property": "C97",
   "status": "proved",
   "theorems": [
    "TdZdd.C97_index",
    "TdZdd.C97_reduce",
    "TdZdd.C97_zddReduce",
    "TdZdd.C97_races"
   ],
   "note": "Threads interleave at single accesses; memory is sequentially consistent. The accesses do race by the C++ standard (C97_races)."
  },
  {
   "property": "C98",
   "status": "proved",
   "theorems": [
    "TdZdd.C98_evaluate",
    "TdZdd.C98_evaluate_state",
    "TdZdd.C98_no_race"
   ],
   "note": "Threads interleave at single accesses of the values and of the evaluators; a value is one location and is written once."
  },
  {
   "property": "C99",
   "status": "proved",
   "theorems": [
    "TdZdd.C99_collect",
    "TdZdd.C99_reduce"
   ],
   "note": "The library never calls the function. std::sort is any function that permutes and sorts."
  }
 ]
}
