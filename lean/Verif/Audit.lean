import Verif.Props.AppArgs
import Verif.Props.AppParallel
import Verif.Props.AppText
import Verif.Props.Attr
import Verif.Props.AttrMP
import Verif.Props.BigNumber
import Verif.Props.Builder
import Verif.Props.BuilderMP
import Verif.Props.Cardinality
import Verif.Props.CnfApp
import Verif.Props.CnfBdd
import Verif.Props.CnfBddApp
import Verif.Props.CnfLabel
import Verif.Props.CnfPicture
import Verif.Props.CnfRead
import Verif.Props.CnfZtdd
import Verif.Props.ConvCanon
import Verif.Props.Counting
import Verif.Props.DataTable
import Verif.Props.DdPaths
import Verif.Props.DegreeConstraint
import Verif.Props.Demangle
import Verif.Props.Dump
import Verif.Props.Evaluate
import Verif.Props.EvaluateFine
import Verif.Props.FixedBig
import Verif.Props.FrontierSearch
import Verif.Props.Gc
import Verif.Props.Graph
import Verif.Props.GraphText
import Verif.Props.Graphillion
import Verif.Props.GraphillionApp
import Verif.Props.GridPath
import Verif.Props.Handler
import Verif.Props.HashTable
import Verif.Props.IndexFine
import Verif.Props.Interleave
import Verif.Props.Iterator
import Verif.Props.LinearConstraints
import Verif.Props.MemoryPool
import Verif.Props.Messages
import Verif.Props.MyBitSet
import Verif.Props.MyList
import Verif.Props.MySmallSet
import Verif.Props.MyVector
import Verif.Props.NAry
import Verif.Props.NodeIdBits
import Verif.Props.Numlin
import Verif.Props.NumlinApp
import Verif.Props.NumlinFill
import Verif.Props.NumlinLabel
import Verif.Props.NumlinPicture
import Verif.Props.NumlinRead
import Verif.Props.NumlinTidy
import Verif.Props.Operators
import Verif.Props.PathByMap
import Verif.Props.PathCounter
import Verif.Props.PathZdd
import Verif.Props.Queens
import Verif.Props.QueensApp
import Verif.Props.QueensColored
import Verif.Props.RandomDd
import Verif.Props.Readers
import Verif.Props.Reducer
import Verif.Props.ReducerFine
import Verif.Props.ReducerMP
import Verif.Props.Sapporo
import Verif.Props.SapporoLib
import Verif.Props.Searcher
import Verif.Props.SetText
import Verif.Props.SizeConstraint
import Verif.Props.StateStore
import Verif.Props.StateText
import Verif.Props.Stretch
import Verif.Props.Subset
import Verif.Props.TestSpecs

/-! Axioms of every property theorem, printed during the build. -/

#print axioms TdZdd.C01_build_bdd
#print axioms TdZdd.C02_build_zdd
#print axioms TdZdd.C03_build_safe
#print axioms TdZdd.C03_build_live
#print axioms TdZdd.C04_sharing
#print axioms TdZdd.C04_hash_table
#print axioms TdZdd.C04_hash_independent
#print axioms TdZdd.C05_same
#print axioms TdZdd.C05_shape
#print axioms TdZdd.C05_pruning_unsafe
#print axioms TdZdd.C06_pruning_sound
#print axioms TdZdd.C06_pruning_nonempty
#print axioms TdZdd.C07_bddReduce
#print axioms TdZdd.C08_zddReduce
#print axioms TdZdd.C09_qddReduce
#print axioms TdZdd.C09_qddReduce_deletes_zero_nodes
#print axioms TdZdd.C10_bddReduce_canonical
#print axioms TdZdd.C100_bits
#print axioms TdZdd.C100_empty
#print axioms TdZdd.C100_zero
#print axioms TdZdd.C100_again
#print axioms TdZdd.C101_bit_hash
#print axioms TdZdd.C101_small_hash
#print axioms TdZdd.C101_bit_same
#print axioms TdZdd.C101_bit_text
#print axioms TdZdd.C101_bit_text_inj
#print axioms TdZdd.C101_small
#print axioms TdZdd.C101_bit_value
#print axioms TdZdd.C101_small_value
#print axioms TdZdd.C102_vertex
#print axioms TdZdd.C102_edge
#print axioms TdZdd.C102_label
#print axioms TdZdd.C102_dump
#print axioms TdZdd.C102_text_inj
#print axioms TdZdd.C102_deco
#print axioms TdZdd.C102_comma
#print axioms TdZdd.C102_empty_name
#print axioms TdZdd.C103_graph
#print axioms TdZdd.C103_all
#print axioms TdZdd.C103_all_inj
#print axioms TdZdd.C103_all_simple
#print axioms TdZdd.C103_gx_graph
#print axioms TdZdd.C103_solutions
#print axioms TdZdd.C103_solutions_found
#print axioms TdZdd.C103_solutions_inj
#print axioms TdZdd.C104_sequence
#print axioms TdZdd.C104_memory
#print axioms TdZdd.C104_self_assign
#print axioms TdZdd.C104_bounds
#print axioms TdZdd.C104_text
#print axioms TdZdd.C105_text
#print axioms TdZdd.C105_chains
#print axioms TdZdd.C105_labels
#print axioms TdZdd.C105_union_confused
#print axioms TdZdd.C105_union_picture
#print axioms TdZdd.C105_variadic
#print axioms TdZdd.C106_degree
#print axioms TdZdd.C106_numlin
#print axioms TdZdd.C106_constraint
#print axioms TdZdd.C106_pictures
#print axioms TdZdd.C107_text
#print axioms TdZdd.C107_equal
#print axioms TdZdd.C107_picture
#print axioms TdZdd.C108_cells
#print axioms TdZdd.C108_formula
#print axioms TdZdd.C108_links
#print axioms TdZdd.C108_empty
#print axioms TdZdd.C11_zddReduce_canonical
#print axioms TdZdd.C12_bddReduce
#print axioms TdZdd.C12_zddReduce
#print axioms TdZdd.C12_qddReduce
#print axioms TdZdd.C13_reduce_idempotent
#print axioms TdZdd.C14_bddReduce_minimal
#print axioms TdZdd.C14_zddReduce_minimal
#print axioms TdZdd.C14_build_zddReduce_minimal
#print axioms TdZdd.C14_needs_reachability
#print axioms TdZdd.C15_eq
#print axioms TdZdd.C15_eq_incomplete
#print axioms TdZdd.C16_bddAnd
#print axioms TdZdd.C17_bddOr
#print axioms TdZdd.C18_zddIntersection
#print axioms TdZdd.C18_loop_terminates
#print axioms TdZdd.C18_needs_minus_one
#print axioms TdZdd.C19_zddUnion
#print axioms TdZdd.C20_bddLookahead
#print axioms TdZdd.C20_no_redundant
#print axioms TdZdd.C20_loop_terminates
#print axioms TdZdd.C21_zddLookahead
#print axioms TdZdd.C21_no_redundant
#print axioms TdZdd.C21_loop_terminates
#print axioms TdZdd.C22_bddUnreduction
#print axioms TdZdd.C22_levels
#print axioms TdZdd.C22_as_zdd
#print axioms TdZdd.C23_zddUnreduction
#print axioms TdZdd.C23_as_bdd
#print axioms TdZdd.C23_levels
#print axioms TdZdd.C24_bdd2zdd
#print axioms TdZdd.C25_zdd2bdd
#print axioms TdZdd.C25_roundtrip_bdd
#print axioms TdZdd.C25_roundtrip_zdd
#print axioms TdZdd.C26_bddAnd
#print axioms TdZdd.C26_bddOr
#print axioms TdZdd.C26_zddUnion
#print axioms TdZdd.C26_zddIntersection
#print axioms TdZdd.C26_bddLookahead
#print axioms TdZdd.C26_zddLookahead
#print axioms TdZdd.C26_bddUnreduction
#print axioms TdZdd.C26_zddUnreduction
#print axioms TdZdd.C26_bddExpr
#print axioms TdZdd.C26_zddExpr
#print axioms TdZdd.C27_subset
#print axioms TdZdd.C27_pruning
#print axioms TdZdd.C27_live
#print axioms TdZdd.C27_code_minus_two
#print axioms TdZdd.C28_same
#print axioms TdZdd.C28_live
#print axioms TdZdd.C28_pruning_unsafe
#print axioms TdZdd.C29_evaluate
#print axioms TdZdd.C29_evaluate_state
#print axioms TdZdd.C30_zddCardinality
#print axioms TdZdd.C30_words
#print axioms TdZdd.C30_generic
#print axioms TdZdd.C31_bddCardinality_partial
#print axioms TdZdd.C31_near_root_partial
#print axioms TdZdd.C31_words
#print axioms TdZdd.C31_sound
#print axioms TdZdd.C31_storage_overflow
#print axioms TdZdd.C32_encodable
#print axioms TdZdd.C32_size
#print axioms TdZdd.C32_store
#print axioms TdZdd.C32_storeWord
#print axioms TdZdd.C32_add
#print axioms TdZdd.C32_shiftLeft
#print axioms TdZdd.C32_canonical
#print axioms TdZdd.C32_eq
#print axioms TdZdd.C32_translate
#print axioms TdZdd.C32_divide
#print axioms TdZdd.C32_divide_ignores_divisor
#print axioms TdZdd.C32_print
#print axioms TdZdd.C32_null
#print axioms TdZdd.C33_iteration
#print axioms TdZdd.C33_end_stays
#print axioms TdZdd.C34_order
#print axioms TdZdd.C35_findOneInstance
#print axioms TdZdd.C35_member
#print axioms TdZdd.C36_universal
#print axioms TdZdd.C36_count
#print axioms TdZdd.C37_size
#print axioms TdZdd.C37_null
#print axioms TdZdd.C37_range
#print axioms TdZdd.C37_lawful
#print axioms TdZdd.C37_bounded
#print axioms TdZdd.C38_contains
#print axioms TdZdd.C38_undefined
#print axioms TdZdd.C38_encloses
#print axioms TdZdd.C39_linear
#print axioms TdZdd.C39_key_above
#print axioms TdZdd.C40_degree
#print axioms TdZdd.C40_lawful
#print axioms TdZdd.C40_bdd
#print axioms TdZdd.C40_range
#print axioms TdZdd.C40_usesB
#print axioms TdZdd.C40_loop_twice
#print axioms TdZdd.C40_loop_once
#print axioms TdZdd.C40_no_edges
#print axioms TdZdd.C41_update
#print axioms TdZdd.C41_throws
#print axioms TdZdd.C41_colors
#print axioms TdZdd.C42_window
#print axioms TdZdd.C42_shift
#print axioms TdZdd.C43_cycle
#print axioms TdZdd.C43_lawful
#print axioms TdZdd.C43_hamilton_partial
#print axioms TdZdd.C43_hamilton_false
#print axioms TdZdd.C43_hamilton_false2
#print axioms TdZdd.C44_path
#print axioms TdZdd.C44_lawful
#print axioms TdZdd.C44_hamilton_partial
#print axioms TdZdd.C44_hamilton_false
#print axioms TdZdd.C45_roundtrip
#print axioms TdZdd.C45_range
#print axioms TdZdd.C45_attr
#print axioms TdZdd.C45_injective
#print axioms TdZdd.C45_eq
#print axioms TdZdd.C45_order
#print axioms TdZdd.C45_hasEmpty
#print axioms TdZdd.C45_node
#print axioms TdZdd.C45_ndebug_alias
#print axioms TdZdd.C46_hash_table
#print axioms TdZdd.C46_assign
#print axioms TdZdd.C46_self_assign_defect
#print axioms TdZdd.C46_primeSize
#print axioms TdZdd.C47_value
#print axioms TdZdd.C47_copy
#print axioms TdZdd.C47_memory
#print axioms TdZdd.C47_no_leak
#print axioms TdZdd.C47_self_assign
#print axioms TdZdd.C47_self_assign_shared
#print axioms TdZdd.C47_init_keeps_index
#print axioms TdZdd.C48_arrays
#print axioms TdZdd.C48_disjoint
#print axioms TdZdd.C48_no_leak
#print axioms TdZdd.C48_reuse_overflow
#print axioms TdZdd.C48_alloc_zero
#print axioms TdZdd.C48_size_overflow
#print axioms TdZdd.C48_moved_from
#print axioms TdZdd.C48_self_splice
#print axioms TdZdd.C49_stack
#print axioms TdZdd.C49_disjoint
#print axioms TdZdd.C49_no_leak
#print axioms TdZdd.C49_on_pool
#print axioms TdZdd.C49_on_pool_cleared
#print axioms TdZdd.C50_sequence
#print axioms TdZdd.C50_memory
#print axioms TdZdd.C50_erase_middle
#print axioms TdZdd.C50_erase_pos
#print axioms TdZdd.C50_self_assign
#print axioms TdZdd.C50_push_own
#print axioms TdZdd.C51_set
#print axioms TdZdd.C51_sorted
#print axioms TdZdd.C51_throws
#print axioms TdZdd.C51_add_full
#print axioms TdZdd.C51_pool_overflow
#print axioms TdZdd.C51_duplicates
#print axioms TdZdd.C52_set
#print axioms TdZdd.C52_bits
#print axioms TdZdd.C52_pullout
#print axioms TdZdd.C52_pullout_wrong
#print axioms TdZdd.C52_pullout_63
#print axioms TdZdd.C52_pullout_overrun
#print axioms TdZdd.C53_count64
#print axioms TdZdd.C53_countFast
#print axioms TdZdd.C53_sound
#print axioms TdZdd.C53_count_partial
#print axioms TdZdd.C53_count_short_partial
#print axioms TdZdd.C53_count_dense_partial
#print axioms TdZdd.C53_count_overflow
#print axioms TdZdd.C53_total_overflow
#print axioms TdZdd.C54_insert_nodes
#print axioms TdZdd.C54_insert
#print axioms TdZdd.C54_remove_nodes
#print axioms TdZdd.C54_remove
#print axioms TdZdd.C54_remove_dead
#print axioms TdZdd.C55_dump
#print axioms TdZdd.C55_family
#print axioms TdZdd.C55_terminal_root
#print axioms TdZdd.C55_root_lost
#print axioms TdZdd.C56_structure_lawful
#print axioms TdZdd.C56_rebuild
#print axioms TdZdd.C57_search
#print axioms TdZdd.C57_lawful
#print axioms TdZdd.C57_spanning_tree
#print axioms TdZdd.C57_wrap
#print axioms TdZdd.C57_limit
#print axioms TdZdd.C57_wrap_false
#print axioms TdZdd.C58_family
#print axioms TdZdd.C58_first
#print axioms TdZdd.C58_terminal
#print axioms TdZdd.C58_truncated
#print axioms TdZdd.C58_large_id
#print axioms TdZdd.C58_dangling
#print axioms TdZdd.C58_int_max
#print axioms TdZdd.C59_edges
#print axioms TdZdd.C59_edges_error
#print axioms TdZdd.C59_adjacency
#print axioms TdZdd.C59_groups
#print axioms TdZdd.C59_colors
#print axioms TdZdd.C59_colors_wrap
#print axioms TdZdd.C59_last_line
#print axioms TdZdd.C59_no_number
#print axioms TdZdd.C60_update
#print axioms TdZdd.C60_mates
#print axioms TdZdd.C60_mutual
#print axioms TdZdd.C60_pairs
#print axioms TdZdd.C60_pairs_path
#print axioms TdZdd.C60_clear_cycle
#print axioms TdZdd.C60_clear_byMap
#print axioms TdZdd.C60_clear_flag
#print axioms TdZdd.C60_default
#print axioms TdZdd.C60_default_throws
#print axioms TdZdd.C60_default_names
#print axioms TdZdd.C61_ring
#print axioms TdZdd.C61_cycle
#print axioms TdZdd.C61_path
#print axioms TdZdd.C61_pairs_disjoint
#print axioms TdZdd.C61_pairs_false
#print axioms TdZdd.C61_lawful
#print axioms TdZdd.C61_sorted
#print axioms TdZdd.C62_init
#print axioms TdZdd.C62_add
#print axioms TdZdd.C62_eq
#print axioms TdZdd.C62_divide
#print axioms TdZdd.C62_divide_zero
#print axioms TdZdd.C62_divide_false
#print axioms TdZdd.C62_translate
#print axioms TdZdd.C62_print
#print axioms TdZdd.C63_placements
#print axioms TdZdd.C63_first
#print axioms TdZdd.C63_lawful
#print axioms TdZdd.C64_colored
#print axioms TdZdd.C64_lawful
#print axioms TdZdd.C65_oneHot
#print axioms TdZdd.C65_nary
#print axioms TdZdd.C65_lawful
#print axioms TdZdd.C65_nary_false
#print axioms TdZdd.C66_interleave
#print axioms TdZdd.C66_all
#print axioms TdZdd.C66_pos
#print axioms TdZdd.C66_colored
#print axioms TdZdd.C66_colored_oneHot
#print axioms TdZdd.C66_coloredAll
#print axioms TdZdd.C66_lawful
#print axioms TdZdd.C67_plain
#print axioms TdZdd.C67_rook
#print axioms TdZdd.C67_colored1
#print axioms TdZdd.C67_colored
#print axioms TdZdd.C67_mirror
#print axioms TdZdd.C68_degree
#print axioms TdZdd.C68_lawful
#print axioms TdZdd.C68_unique
#print axioms TdZdd.C69_numlin
#print axioms TdZdd.C69_lawful
#print axioms TdZdd.C69_solution
#print axioms TdZdd.C69_column
#print axioms TdZdd.C69_column_false
#print axioms TdZdd.C69_wrap
#print axioms TdZdd.C70_constraint
#print axioms TdZdd.C70_both
#print axioms TdZdd.C70_tidy
#print axioms TdZdd.C70_exists
#print axioms TdZdd.C70_lawful
#print axioms TdZdd.C70_blank_false
#print axioms TdZdd.C71_run
#print axioms TdZdd.C71_solves
#print axioms TdZdd.C71_unique
#print axioms TdZdd.C71_column
#print axioms TdZdd.C71_row_false
#print axioms TdZdd.C72_read
#print axioms TdZdd.C72_no_size
#print axioms TdZdd.C72_zero
#print axioms TdZdd.C72_separator
#print axioms TdZdd.C72_roundtrip
#print axioms TdZdd.C72_solve
#print axioms TdZdd.C73_picture
#print axioms TdZdd.C73_faithful
#print axioms TdZdd.C73_distinct
#print axioms TdZdd.C73_picture_false
#print axioms TdZdd.C73_faithful_false
#print axioms TdZdd.C74_fill
#print axioms TdZdd.C74_positive
#print axioms TdZdd.C74_loop_false
#print axioms TdZdd.C75_clauses
#print axioms TdZdd.C75_diagram
#print axioms TdZdd.C75_one
#print axioms TdZdd.C76_app
#print axioms TdZdd.C77_read
#print axioms TdZdd.C77_few
#print axioms TdZdd.C77_many
#print axioms TdZdd.C77_range
#print axioms TdZdd.C77_header
#print axioms TdZdd.C77_zero
#print axioms TdZdd.C77_app
#print axioms TdZdd.C77_uninit_false
#print axioms TdZdd.C77_min_false
#print axioms TdZdd.C78_zdd
#print axioms TdZdd.C78_zdd_diagram
#print axioms TdZdd.C78_order_false
#print axioms TdZdd.C78_loop
#print axioms TdZdd.C78_negative_false
#print axioms TdZdd.C78_bdd
#print axioms TdZdd.C79_zbdd
#print axioms TdZdd.C79_zbdd_round
#print axioms TdZdd.C79_bdd
#print axioms TdZdd.C79_bdd_round
#print axioms TdZdd.C79_bdd_throws
#print axioms TdZdd.C80_spec
#print axioms TdZdd.C80_merge
#print axioms TdZdd.C80_wrap_false
#print axioms TdZdd.C80_empty_false
#print axioms TdZdd.C81_traverse
#print axioms TdZdd.C81_spec
#print axioms TdZdd.C81_build
#print axioms TdZdd.C81_overrun_false
#print axioms TdZdd.C81_overrun_up_false
#print axioms TdZdd.C81_null_false
#print axioms TdZdd.C82_sound
#print axioms TdZdd.C82_ends
#print axioms TdZdd.C82_tautologies_false
#print axioms TdZdd.C82_overflow_false
#print axioms TdZdd.C83_simple
#print axioms TdZdd.C83_search
#print axioms TdZdd.C83_hamilton_partial
#print axioms TdZdd.C83_graph
#print axioms TdZdd.C83_errors
#print axioms TdZdd.C83_slow_one
#print axioms TdZdd.C83_slow_false
#print axioms TdZdd.C83_hamilton_false
#print axioms TdZdd.C84_family
#print axioms TdZdd.C84_import
#print axioms TdZdd.C84_path
#print axioms TdZdd.C84_st
#print axioms TdZdd.C84_st_path
#print axioms TdZdd.C84_path_none
#print axioms TdZdd.C84_own_groups
#print axioms TdZdd.C84_empty
#print axioms TdZdd.C84_matching_false
#print axioms TdZdd.C84_import_false
#print axioms TdZdd.C84_st_false
#print axioms TdZdd.C85_read
#print axioms TdZdd.C85_accept
#print axioms TdZdd.C85_unknown
#print axioms TdZdd.C85_too_many
#print axioms TdZdd.C85_missing
#print axioms TdZdd.C85_ub
#print axioms TdZdd.C85_atoi
#print axioms TdZdd.C85_atoi_none
#print axioms TdZdd.C85_strtol
#print axioms TdZdd.C85_ddpaths
#print axioms TdZdd.C85_graphillion
#print axioms TdZdd.C85_cnfbdd
#print axioms TdZdd.C85_ddnumlin
#print axioms TdZdd.C85_queens
#print axioms TdZdd.C85_queens_options
#print axioms TdZdd.C85_repeat_false
#print axioms TdZdd.C85_word_false
#print axioms TdZdd.C86_raw
#print axioms TdZdd.C86_size
#print axioms TdZdd.C86_hybrid_size
#print axioms TdZdd.C86_elements
#print axioms TdZdd.C86_array_functions
#print axioms TdZdd.C86_array
#print axioms TdZdd.C86_array_independent
#print axioms TdZdd.C86_scalar
#print axioms TdZdd.C86_hybrid
#print axioms TdZdd.C86_hybrid_meaning
#print axioms TdZdd.C86_stateless
#print axioms TdZdd.C86_padding_false
#print axioms TdZdd.C86_scalar_padding_false
#print axioms TdZdd.C86_hybrid_padding_false
#print axioms TdZdd.C87_reduce
#print axioms TdZdd.C87_bdd_eq
#print axioms TdZdd.C87_zdd_eq
#print axioms TdZdd.C87_bdd2zdd
#print axioms TdZdd.C87_zdd2bdd
#print axioms TdZdd.C87_roundtrip_bdd
#print axioms TdZdd.C87_roundtrip_zdd
#print axioms TdZdd.C87_zddSubset_reduced
#print axioms TdZdd.C87_zddSubset_qdd
#print axioms TdZdd.C87_zddSubset_not_reduced
#print axioms TdZdd.C88_random_lawful
#print axioms TdZdd.C88_random_states
#print axioms TdZdd.C88_never_fails
#print axioms TdZdd.C88_passes
#print axioms TdZdd.C88_small
#print axioms TdZdd.C88_empty_undefined
#print axioms TdZdd.C88_project_test_undefined
#print axioms TdZdd.C89_combination_lawful
#print axioms TdZdd.C89_combination
#print axioms TdZdd.C89_combination_count
#print axioms TdZdd.C89_cardinality_u64
#print axioms TdZdd.C89_cardinality_int
#print axioms TdZdd.C89_example1
#print axioms TdZdd.C89_minNumItems
#print axioms TdZdd.C89_maxNumItems
#print axioms TdZdd.C89_issue007
#print axioms TdZdd.C90_edges
#print axioms TdZdd.C90_lawful
#print axioms TdZdd.C90_members
#print axioms TdZdd.C90_one_to_one
#print axioms TdZdd.C90_cardinality
#print axioms TdZdd.C90_single
#print axioms TdZdd.C91_defined
#print axioms TdZdd.C91_sound
#print axioms TdZdd.C91_paths
#print axioms TdZdd.C91_names
#print axioms TdZdd.C91_nodes
#print axioms TdZdd.C91_structure
#print axioms TdZdd.C91_table_nodes
#print axioms TdZdd.C91_table_paths
#print axioms TdZdd.C92_bits
#print axioms TdZdd.C92_again
#print axioms TdZdd.C92_empty
#print axioms TdZdd.C92_zero
#print axioms TdZdd.C92_descend
#print axioms TdZdd.C92_dot
#print axioms TdZdd.C92_show
#print axioms TdZdd.C93_disabled
#print axioms TdZdd.C93_layout
#print axioms TdZdd.C93_nesting
#print axioms TdZdd.C93_leak
#print axioms TdZdd.C93_begin
#print axioms TdZdd.C93_end_line
#print axioms TdZdd.C93_end_block
#print axioms TdZdd.C93_dots
#print axioms TdZdd.C93_line
#print axioms TdZdd.C93_defined
#print axioms TdZdd.C93_no_steps
#print axioms TdZdd.C93_row
#print axioms TdZdd.C93_row_end
#print axioms TdZdd.C93_row_false
#print axioms TdZdd.C94_typename
#print axioms TdZdd.C94_blanks
#print axioms TdZdd.C94_classes
#print axioms TdZdd.C94_mangled
#print axioms TdZdd.C94_underscore_false
#print axioms TdZdd.C95_plain
#print axioms TdZdd.C95_rook
#print axioms TdZdd.C95_colored1
#print axioms TdZdd.C95_colored
#print axioms TdZdd.C95_numlin
#print axioms TdZdd.C96_bddReduce
#print axioms TdZdd.C96_zddReduce
#print axioms TdZdd.C96_qddReduce
#print axioms TdZdd.C96_races
#print axioms TdZdd.C96_output_race
#print axioms TdZdd.C97_index
#print axioms TdZdd.C97_reduce
#print axioms TdZdd.C97_zddReduce
#print axioms TdZdd.C97_races
#print axioms TdZdd.C98_evaluate
#print axioms TdZdd.C98_evaluate_state
#print axioms TdZdd.C98_no_race
#print axioms TdZdd.C99_collect
#print axioms TdZdd.C99_reduce
