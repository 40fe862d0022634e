{
 "claims": [
  {
   "property": "C01",
   "status": "proved",
   "theorems": [
    "Noarr.LState.C01_with_get",
    "Noarr.LState.C01_remove_get",
    "Noarr.LState.C01_filter_get",
    "Noarr.LState.C01_nodup",
    "Noarr.LState.C01_implements_map"
   ],
   "note": "The item-list model follows base/state.hpp; C01_implements_map links it to the map used by the structure model."
  },
  {
   "property": "C02",
   "status": "proved",
   "theorems": [
    "Noarr.LState.C02_merge_get",
    "Noarr.LState.C02_merge_monoid"
   ],
   "note": ""
  },
  {
   "property": "C03",
   "status": "proved",
   "theorems": [
    "Noarr.LState.C03_add",
    "Noarr.LState.C03_sub",
    "Noarr.LState.C03_add_sub",
    "Noarr.LState.C03_neg",
    "Noarr.LState.C03_constants_are_kept",
    "Noarr.LState.C03_constants_are_not_added"
   ],
   "note": "For run-time values, as stated. For constants the operations compile and silently keep the constant of the left operand (C03_constants_are_kept, C03_constants_are_not_added)."
  },
  {
   "property": "C04",
   "status": "proved",
   "theorems": [
    "Noarr.LState.C04_eq_iff",
    "Noarr.LState.C04_le_iff",
    "Noarr.LState.C04_eq_equivalence",
    "Noarr.LState.C04_le_order"
   ],
   "note": ""
  },
  {
   "property": "C05",
   "status": "proved",
   "theorems": [
    "Noarr.C05_offset_in_bounds",
    "Noarr.C05_offset_in_range",
    "Noarr.C05_reversed_dynamic_blocks_violate",
    "Noarr.C05_merge_blocks_needs_divisibility",
    "Noarr.C05_slice_needs_window"
   ],
   "note": "Exact arithmetic, for structures whose names and views meet Struct.tame, Struct.sane and Struct.Pre (spec in BoundsSpec.lean). C05_reversed_dynamic_blocks_violate shows the exception is real."
  },
  {
   "property": "C06",
   "status": "proved",
   "theorems": [
    "Noarr.C06_distinct_indices_disjoint",
    "Noarr.C06_offset_injective",
    "Noarr.C06_bcast_aliases",
    "Noarr.C06_zero_stride_aliases",
    "Noarr.C06_merged_tuple_aliases"
   ],
   "note": "Exact arithmetic; hypotheses as for C05 plus Struct.exact, Struct.rigid, ConstIdx (AliasSpec.lean, SizeDet.lean). C06_merged_tuple_aliases shows the exception is real."
  },
  {
   "property": "C07",
   "status": "proved",
   "theorems": [
    "Noarr.C07_size",
    "Noarr.C07_offset",
    "Noarr.C07_each_place_once"
   ],
   "note": "Exact arithmetic; lengths and indices may be constants or run-time values in any mix."
  },
  {
   "property": "C08",
   "status": "partial",
   "theorems": [
    "Noarr.C08_fields_in_order",
    "Noarr.C08_size_is_sum_partial",
    "Noarr.C08_padding_violates"
   ],
   "note": "Order and disjointness are proved. The documented size (sum of the sizes) is false in general (C08_padding_violates); proved when all the fields have the same alignment."
  },
  {
   "property": "C09",
   "status": "proved",
   "theorems": [
    "Noarr.C09_align_is_that_of_all_scalars",
    "Noarr.C09_elements_aligned",
    "Noarr.C09_size_aligned",
    "Noarr.C09_mixed_tuple_has_no_align"
   ],
   "note": "align() compiles only when all the scalars have the same alignment; then every element is aligned. C09_mixed_tuple_has_no_align: otherwise elements may be misaligned."
  },
  {
   "property": "C10",
   "status": "proved",
   "theorems": [
    "Noarr.C10_views_keep_address_space",
    "Noarr.C10_index_views_keep_size"
   ],
   "note": ""
  },
  {
   "property": "C11",
   "status": "proved",
   "theorems": [
    "Noarr.C11_fix_is_index",
    "Noarr.C11_fix_comm",
    "Noarr.C11_inner_fix_wins",
    "Noarr.C11_fix_state"
   ],
   "note": ""
  },
  {
   "property": "C12",
   "status": "proved",
   "theorems": [
    "Noarr.C12_set_length_of_state",
    "Noarr.C12_set_length_is_length",
    "Noarr.C12_vector"
   ],
   "note": ""
  },
  {
   "property": "C13",
   "status": "proved",
   "theorems": [
    "Noarr.C13_shift",
    "Noarr.C13_shift_zero",
    "Noarr.C13_shift_shift"
   ],
   "note": ""
  },
  {
   "property": "C14",
   "status": "proved",
   "theorems": [
    "Noarr.C14_slice",
    "Noarr.C14_span_is_slice",
    "Noarr.C14_slice_slice"
   ],
   "note": ""
  },
  {
   "property": "C15",
   "status": "proved",
   "theorems": [
    "Noarr.C15_step_partition"
   ],
   "note": ""
  },
  {
   "property": "C16",
   "status": "proved",
   "theorems": [
    "Noarr.C16_reverse",
    "Noarr.C16_reversed_tuple_reports_wrong_length"
   ],
   "note": ""
  },
  {
   "property": "C17",
   "status": "proved",
   "theorems": [
    "Noarr.C17_rename",
    "Noarr.C17_dimensions",
    "Noarr.C17_rename_back",
    "Noarr.C17_old_name_still_answers"
   ],
   "note": ""
  },
  {
   "property": "C18",
   "status": "proved",
   "theorems": [
    "Noarr.C18_reorder_hoist"
   ],
   "note": ""
  },
  {
   "property": "C19",
   "status": "partial",
   "theorems": [
    "Noarr.C19_join_diagonal",
    "Noarr.C19_join_length_partial",
    "Noarr.C19_new_name_has_no_length"
   ],
   "note": "the diagonal is proved for all names; the claim on the length only when the joined dimension keeps one of the two names. C19_new_name_has_no_length shows that the code gives a new name no length."
  },
  {
   "property": "C20",
   "status": "proved",
   "theorems": [
    "Noarr.C20_bcast_of_several",
    "Noarr.C20_bcast"
   ],
   "note": ""
  },
  {
   "property": "C21",
   "status": "proved",
   "theorems": [
    "Noarr.C21_into_blocks",
    "Noarr.C21_into_n_blocks",
    "Noarr.C21_into_blocks_sets_length",
    "Noarr.C21_coverage"
   ],
   "note": ""
  },
  {
   "property": "C22",
   "status": "proved",
   "theorems": [
    "Noarr.C22_into_blocks_dynamic",
    "Noarr.C22_into_n_blocks_dynamic",
    "Noarr.C22_coverage"
   ],
   "note": ""
  },
  {
   "property": "C23",
   "status": "proved",
   "theorems": [
    "Noarr.C23_into_blocks_static",
    "Noarr.C23_coverage"
   ],
   "note": ""
  },
  {
   "property": "C24",
   "status": "proved",
   "theorems": [
    "Noarr.C24_merge_blocks",
    "Noarr.C24_one_to_one",
    "Noarr.C24_merge_undoes_into_blocks"
   ],
   "note": ""
  },
  {
   "property": "C25",
   "status": "proved",
   "theorems": [
    "Noarr.C25_merge_zcurve",
    "Noarr.C25_single_dimension_is_undefined",
    "Noarr.C25_needs_alignment"
   ],
   "note": "Exact arithmetic; the undefined cases (one dimension, oversized shift) are stated as separate theorems."
  },
  {
   "property": "C26",
   "status": "proved",
   "theorems": [
    "Noarr.C26_visits_each_combination_once",
    "Noarr.C26_visits_exactly_the_valid_states",
    "Noarr.C26_visited_elements_in_bounds"
   ],
   "note": "For structures whose names and views meet Struct.tame and Struct.firm (spec in Depend.lean, Grow.lean) and whose loops compile (forEach = some). C26_visited_elements_in_bounds covers several structures and any order."
  },
  {
   "property": "C27",
   "status": "proved",
   "theorems": [
    "Noarr.C27_visits_in_lexicographic_order"
   ],
   "note": "Any traverser with an unambiguous signature, any arithmetic."
  },
  {
   "property": "C28",
   "status": "proved",
   "theorems": [
    "Noarr.C28_order_visits_what_its_views_keep",
    "Noarr.C28_order_permutes_the_traversal"
   ],
   "note": "Exact arithmetic. OrderAdmits (OrderSpec.lean) lists what is required of each view; merge_zcurve, join and bcast are not covered in orders."
  },
  {
   "property": "C29",
   "status": "proved",
   "theorems": [
    "Noarr.C29_sections_decompose",
    "Noarr.C29_dims_decompose",
    "Noarr.C29_dims_in_the_given_order",
    "Noarr.C29_sections_in_order",
    "Noarr.C29_named_dimensions_exist"
   ],
   "note": "for_sections: all structures whose signature is well formed and has no repeated dimension. for_dims: additionally the nest of loops compiles statically (Compiles). Lengths of the needed dimensions are known in every state (the traversal itself needs them)."
  },
  {
   "property": "C30",
   "status": "proved",
   "theorems": [
    "Noarr.C30_composition_applies_in_turn",
    "Noarr.C30_pack_composition_applies_in_turn",
    "Noarr.C30_each_applies_to_each",
    "Noarr.C30_each_composes",
    "Noarr.C30_each_in_a_composition",
    "Noarr.C30_composition_is_associative",
    "Noarr.C30_neutral_proto_is_neutral",
    "Noarr.C30_layout_preserved_by_parts",
    "Noarr.C30_layout_preserving_adds_views",
    "Noarr.C30_user_functions_in_turn",
    "Noarr.C30_orders_compose",
    "Noarr.C30_orders_compose_for_each",
    "Noarr.C30_fix_state_fixes_each_index",
    "Noarr.C30_pack_keeps_its_order"
   ],
   "note": "All proto-structures: views, packs, to_each, orders and user-made ones (make_proto). The link to for_each is for orders made of views."
  },
  {
   "property": "C31",
   "status": "partial",
   "theorems": [
    "Noarr.C31_each_dimension_once",
    "Noarr.C31_length_of_the_first",
    "Noarr.C31_visits_the_union_box_partial",
    "Noarr.C31_each_structure_sees_its_own_partial",
    "Noarr.C31_tuple_with_shared_dimension_violates"
   ],
   "note": "Proved for structures whose dimensions are all non-tuple (static lengths may differ): every dimension once, lengths of the first structure having it, exact visits, each structure addressed by its own part. Partial: structures with tuple dimensions; C31_tuple_with_shared_dimension_violates shows the claim is false there."
  },
  {
   "property": "C32",
   "status": "proved",
   "theorems": [
    "Noarr.C32_items_of_the_range",
    "Noarr.C32_as_traverser_visits_the_items",
    "Noarr.C32_order_of_a_range",
    "Noarr.C32_begin_to_end",
    "Noarr.C32_iterator_arithmetic",
    "Noarr.C32_range_along_any_dimension"
   ],
   "note": "Ranges, partial ranges and iterators over w-bit size_t, over the top dimension and (C32_range_along_any_dimension) along any other one."
  },
  {
   "property": "C33",
   "status": "proved",
   "theorems": [
    "Noarr.C33_splitting_partitions",
    "Noarr.C33_parallel_for_each",
    "Noarr.C33_items_in_parallel",
    "Noarr.C33_sections_in_parallel",
    "Noarr.C33_tbb_for_sections",
    "Noarr.C33_tbb_sections_visit_each_element_once"
   ],
   "note": "For every split tree, every leaf run by any thread, and every interleaving; the TBB scheduler itself is represented by the split tree."
  },
  {
   "property": "C34",
   "status": "partial",
   "theorems": [
    "Noarr.C34_reduction_is_sequential_partial",
    "Noarr.C34_accumulated_values",
    "Noarr.C34_leaves_write_disjoint_bytes_partial",
    "Noarr.C34_top_dimension_splits",
    "Noarr.C34_shared_output_races"
   ],
   "note": "Model: both branches of tbb_reduce, for every split tree, assignment of leaves to threads, contents of malloc'ed memory, join order, and (shared output) interleaving of single reads and writes. Proved under the hypothesis that different top indices are different indices of the visited states whenever the output is shared (C34_top_dimension_splits gives a sufficient condition). Without it the claim is false: C34_shared_output_races (order(merge_blocks<'x','y','x'>()) with an output over 'x')."
  },
  {
   "property": "C35",
   "status": "partial",
   "theorems": [
    "Noarr.C35_for_each_like_a_traverser_partial",
    "Noarr.C35_for_each_partial",
    "Noarr.C35_nested_like_a_traverser_partial",
    "Noarr.C35_calls_in_loop_order",
    "Noarr.C35_for_dims_partial",
    "Noarr.C35_dynamic_blocks_out_of_range",
    "Noarr.C35_broadcast_dimension_skipped",
    "Noarr.C35_sections_repeated",
    "Noarr.C35_tuple_does_not_compile"
   ],
   "note": "For orders of views other than bcast, join and into_blocks_dynamic, a planner with for_each calls the function with the same states in the same order as a traverser, also when sections are registered in between; the calls of all registered functions are characterised for all orders. Witnesses: into_blocks_dynamic calls the function for absent elements, a bcast dimension is skipped depending on the order, for_sections over an inner dimension is called repeatedly, a planner over a tuple dimension does not compile."
  },
  {
   "property": "C36",
   "status": "proved",
   "theorems": [
    "Noarr.C36_write_changes_only_that_element",
    "Noarr.C36_new_bag",
    "Noarr.C36_views_of_a_bag",
    "Noarr.C36_visited_elements_are_separate"
   ],
   "note": "Elements are their bytes; alignment of the pointer is not modelled (see C09). The condition that size can be queried in the state is technical."
  },
  {
   "property": "C37",
   "status": "partial",
   "theorems": [
    "Noarr.C37_serialize_defined",
    "Noarr.C37_round_trip_partial",
    "Noarr.C37_failed_input",
    "Noarr.C37_integers_fail",
    "Noarr.C37_integers_with_a_sign",
    "Noarr.C37_integers_round_trip",
    "Noarr.C37_visible_characters_round_trip_partial",
    "Noarr.C37_white_space_violates"
   ],
   "note": "Proved for scalars whose stream operators round-trip (integers: proved; streams and operators are parameters). Disproved for characters that are white space (C37_white_space_violates); floating point not modelled."
  },
  {
   "property": "C38",
   "status": "partial",
   "theorems": [
    "Noarr.C38_stride_along_partial",
    "Noarr.C38_step_in_another_dimension",
    "Noarr.C38_blocks_of_a_reversed_dimension",
    "Noarr.C38_fixed_dimension"
   ],
   "note": "Proved for the dimensions that the structure has (joined ones if elements off the diagonal have offsets), other than merged ones and blocks of the border, without a step in another dimension. Witnesses: stride_along multiplies by the step of other dimensions, wraps along blocks of a reversed dimension, and is available for a fixed dimension."
  },
  {
   "property": "C39",
   "status": "partial",
   "theorems": [
    "Noarr.C39_uniform_along_partial",
    "Noarr.C39_merged_blocks",
    "Noarr.C39_merged_zcurve"
   ],
   "note": "Proved for the dimensions that the structure has (joined ones if elements off the diagonal have offsets), other than merged ones, DimIsBorder, and blocks of the border. Witnesses: is_uniform_along holds for merge_blocks and merge_zcurve with unequal differences."
  },
  {
   "property": "C40",
   "status": "partial",
   "theorems": [
    "Noarr.C40_offset_along_difference_partial",
    "Noarr.C40_offset_along_partial",
    "Noarr.C40_sliced_dimension",
    "Noarr.C40_tuple_index",
    "Noarr.C40_blocks_of_a_reversed_dimension",
    "Noarr.C40_renamed_away"
   ],
   "note": "For dimensions that reach a vector through affine index translations (not the index of a tuple, not joined or merged, not the border): differences of offset_along equal differences of offsets; and offset_along(i) = offset(i) - offset(0) when the dimension is not sliced/shifted/stepped/reversed (except below blocks). Witnesses: a sliced dimension contributes its start at index 0; tuple index; wrap in blocks of a reversed dimension; answers for renamed-away names."
  },
  {
   "property": "C41",
   "status": "partial",
   "theorems": [
    "Noarr.C41_lower_bound_partial",
    "Noarr.C41_lower_bound_in_range_partial",
    "Noarr.C41_lowest_offset_partial",
    "Noarr.C41_reversed_twice",
    "Noarr.C41_shift_of_reversed",
    "Noarr.C41_blocks_of_a_slice",
    "Noarr.C41_block_index_does_not_compile",
    "Noarr.C41_merged_reversed",
    "Noarr.C41_merged_range",
    "Noarr.C41_range_through_a_tuple",
    "Noarr.C41_no_fields_in_range"
   ],
   "note": "Proved for dimensions that come from a vector, tuple or bcast by shifting, slicing, renaming, fixing others, reversing and dividing into blocks (of a dimension that starts at index 0; of into_blocks_static the blocks of the body), with and without range, and in terms of offsets; and, without a range, for DimIsBorder and DimIsPresent and for dimensions merged from two that are neither shifted, sliced nor reversed. False elsewhere, with witnesses: reversed twice with a range, shift of a reversed dimension, blocks of a slice, merged dimensions with a range or when one is reversed; announced queries that do not compile. Not proved: within the border part of into_blocks_static, merged dimensions of which one is shifted or sliced, without a range."
  },
  {
   "property": "C42",
   "status": "partial",
   "theorems": [
    "Noarr.C42_contiguous_partial",
    "Noarr.C42_sliced_inner_dimension",
    "Noarr.C42_given_inner_dimension",
    "Noarr.C42_fixed_inner_dimension",
    "Noarr.C42_incomplete_inner_blocks",
    "Noarr.C42_gap_in_a_tuple"
   ],
   "note": "Proved for the structures where the given indices are those of the outer dimensions and the rest is complete (Struct.chain), also with broadcast dimensions; nothing is required where is_contiguous itself says no. Without chain the claim is false, with witnesses for a sliced, given or fixed inner dimension, incomplete inner blocks and gaps in tuples. join is left out."
  },
  {
   "property": "C43",
   "status": "partial",
   "theorems": [
    "Noarr.C43_template_integers_are_decimals",
    "Noarr.C43_decimals_are_unique",
    "Noarr.C43_unsigned_integers_are_decimals",
    "Noarr.C43_signed_integers_are_decimals_partial",
    "Noarr.C43_negative_integers_lose_a_digit",
    "Noarr.C43_negative_names_collide",
    "Noarr.C43_names_determine_types",
    "Noarr.C43_texts_determine_values",
    "Noarr.C43_same_name_iff_same_type",
    "Noarr.C43_same_text_iff_equal",
    "Noarr.C43_integer_types",
    "Noarr.C43_integer_types_collide"
   ],
   "note": "Proved for template parameters, unsigned and non-negative values, and for the texts of all structures of the model (element types with different names); for negative signed values the code drops the last digit (C43_negative_integers_lose_a_digit, C43_negative_names_collide), and bool and unsigned char share a name (C43_integer_types_collide)."
  },
  {
   "property": "C44",
   "status": "proved",
   "theorems": [
    "Noarr.C44_scalars_are_plain",
    "Noarr.C44_offsets_available",
    "Noarr.C44_stripes_do_not_share_cells",
    "Noarr.C44_stripes_have_own_banks",
    "Noarr.C44_conflicts_are_bounded",
    "Noarr.C44_order_kept_in_stripe",
    "Noarr.C44_inside",
    "Noarr.C44_scalars_inside",
    "Noarr.C44_constant_stripe_distance",
    "Noarr.C44_threads_use_their_stripe",
    "Noarr.C44_threads_of_a_stripe",
    "Noarr.C44_lengths_unchanged",
    "Noarr.C44_conflict_free_if_there_is_room"
   ],
   "note": ""
  },
  {
   "property": "C45",
   "status": "proved",
   "theorems": [
    "Noarr.C45_offset_exact",
    "Noarr.C45_size_exact",
    "Noarr.C45_length_exact",
    "Noarr.C45_has_length_exact",
    "Noarr.C45_offset_in_bounds",
    "Noarr.C45_overflow_is_distinct",
    "Noarr.C45_underflow_is_distinct",
    "Noarr.C45_division_by_zero_is_distinct"
   ],
   "note": "For all structures of the model (including merge_zcurve) and all states, with constants below W: Arith.checked W faults at the first operation whose exact result is out of range; when it does not, machine and exact evaluation agree. 32-bit shifts of merge_zcurve are modelled as undefined behaviour in all three."
  },
  {
   "property": "C46",
   "status": "partial",
   "theorems": [
    "Noarr.C46_length_implies_has_length",
    "Noarr.C46_has_length_iff_length_partial",
    "Noarr.C46_reverse_partial",
    "Noarr.C46_reversed_tuple_violates"
   ],
   "note": "False as stated: C46_reversed_tuple_violates is a counterexample (reverse over a tuple dimension). Proved for all structures without reverse, and for reverse over a non-tuple dimension."
  },
  {
   "property": "C47",
   "status": "proved",
   "theorems": [
    "Noarr.C47_lengths_depend_on_controls",
    "Noarr.C47_leaving_out_indices",
    "Noarr.C47_uniform_lengths",
    "Noarr.C47_uniform_size",
    "Noarr.C47_tuple_controls"
   ],
   "note": "For structures whose views act on ordinary dimensions (Struct.tame); in any arithmetic, including wrap-around."
  },
  {
   "property": "C48",
   "status": "proved",
   "theorems": [
    "Noarr.C48_index_space_size_counts_visits",
    "Noarr.C48_index_space_size_of_cubes",
    "Noarr.C48_not_for_vectors_in_tuples"
   ],
   "note": "Exact arithmetic. Structures with vectors inside tuples do not compile (C48_not_for_vectors_in_tuples)."
  },
  {
   "property": "C49",
   "status": "proved",
   "theorems": [
    "Noarr.C49_symmetric_span_trims_both_ends",
    "Noarr.C49_neighbors_inside",
    "Noarr.C49_margin_above_half_wraps"
   ],
   "note": "Exact arithmetic; structures without tuple dimensions. A margin above half of the length wraps around (C49_margin_above_half_wraps)."
  },
  {
   "property": "C50",
   "status": "proved",
   "theorems": [
    "Noarr.C50_strip_mine_permutes",
    "Noarr.C50_strip_mine_dynamic_permutes"
   ],
   "note": "Exact arithmetic; hypotheses as for C28."
  },
  {
   "property": "C51",
   "status": "partial",
   "theorems": [
    "Noarr.C51_items_of_the_range_partial",
    "Noarr.C51_omp_execute_partial",
    "Noarr.C51_as_planner_partial",
    "Noarr.C51_order_of_a_range",
    "Noarr.C51_begin_to_end",
    "Noarr.C51_iterator_arithmetic",
    "Noarr.C51_called_before_the_loop"
   ],
   "note": "For planners in which no function is called before the first loop; C51_called_before_the_loop is a witness that the items repeat such a call. planner_std_execute and planner_tbb_execute are not modelled, they do not compile (see DESIGN.md)."
  },
  {
   "property": "C52",
   "status": "proved",
   "theorems": [
    "Noarr.C52_threads_visit_each_element_once",
    "Noarr.C52_bool_tells_whether_there_are_threads",
    "Noarr.C52_long_dimensions_are_cut_off"
   ],
   "note": "Proved for dimensions that are not tuple dimensions nor inside a tuple, with lengths below 2^32; longer ones are truncated (C52_long_dimensions_are_cut_off)."
  },
  {
   "property": "C53",
   "status": "proved",
   "theorems": [
    "Noarr.C53_step_shares_the_traversal",
    "Noarr.C53_step_of_the_top_dimension"
   ],
   "note": "Exact arithmetic; the dimension is not a tuple dimension and all elements have it."
  },
  {
   "property": "C54",
   "status": "proved",
   "theorems": [
    "Noarr.C54_get_what_was_stored",
    "Noarr.C54_constants_are_not_stored",
    "Noarr.C54_cat"
   ],
   "note": "Class choice, construction, get and contain_cat are modelled. strict_contain and flexible_contain are names of the same class with constraints on the field types. Perfect forwarding is not modelled (see C63 for what it means for bags)."
  },
  {
   "property": "C55",
   "status": "proved",
   "theorems": [
    "Noarr.C55_type_of_the_element",
    "Noarr.C55_offset",
    "Noarr.C55_one_type",
    "Noarr.C55_cube",
    "Noarr.C55_has_dims",
    "Noarr.C55_point"
   ],
   "note": "Structures without names used twice; reverse is not applied to tuples. Types are represented by their sizes."
  },
  {
   "property": "C56",
   "status": "proved",
   "theorems": [
    "Noarr.C56_length_exact",
    "Noarr.C56_size_exact",
    "Noarr.C56_offset_exact_of_size",
    "Noarr.C56_offset_exact",
    "Noarr.C56_lengths_stay_small",
    "Noarr.C56_huge_stride_wraps"
   ],
   "note": "merge_zcurve is excluded by the statement; for shift and merge_blocks the bound on the inner lengths is a hypothesis (Roomy), for the other views it is derived (C56_lengths_stay_small)"
  },
  {
   "property": "C57",
   "status": "proved",
   "theorems": [
    "Noarr.C57_offset_of_scalar",
    "Noarr.C57_element_through_sub",
    "Noarr.C57_offsets_add",
    "Noarr.C57_sub_in_bounds",
    "Noarr.C57_subs_coincide_or_disjoint",
    "Noarr.C57_subs_aligned",
    "Noarr.C57_state_at"
   ],
   "note": "Proved for every Sub type (a set of structures). Bounds, disjointness and alignment in ideal arithmetic under the hypotheses of C05/C06/C09; the rest for all arithmetics. Unions have no offsets."
  },
  {
   "property": "C58",
   "status": "partial",
   "theorems": [
    "Noarr.C58_size_announced",
    "Noarr.C58_offset_of_announced",
    "Noarr.C58_offset_announced",
    "Noarr.C58_state_at_announced",
    "Noarr.C58_has_size_partial",
    "Noarr.C58_has_offset_of_partial",
    "Noarr.C58_has_offset_partial",
    "Noarr.C58_has_size_violated",
    "Noarr.C58_has_offset_violated",
    "Noarr.C58_has_offset_violated_items"
   ],
   "note": "Announced-if-available is proved in full; available-if-announced is false (three witnesses) and proved under evenFields / when the size is available; for state_at it is an equivalence."
  },
  {
   "property": "C59",
   "status": "partial",
   "theorems": [
    "Noarr.C59_static_length_partial",
    "Noarr.C59_tuple_length_partial",
    "Noarr.C59_span_type_is_end",
    "Noarr.C59_step_type_is_stride",
    "Noarr.C59_second_set_length_changes_type_only",
    "Noarr.C59_reversed_tuple_lengths",
    "Noarr.C59_zcurve_length_not_constant"
   ],
   "note": "Both halves hold for all structures that meet Honest: no constant span/step of an ordinary dimension, no set_length without effect, no reverse of a tuple dimension, joins whose new name has a length of its own. The first three and the reversed tuple are false in the code (C59_span_type_is_end, C59_step_type_is_stride, C59_second_set_length_changes_type_only, C59_reversed_tuple_lengths); lengths of Z-curves are static in the type but not constants (C59_zcurve_length_not_constant)."
  },
  {
   "property": "C60",
   "status": "proved",
   "theorems": [
    "Noarr.C60_dimensions_and_lengths_alike",
    "Noarr.C60_traversed_alike",
    "Noarr.C60_tuples_do_not_compile",
    "Noarr.C60_dense",
    "Noarr.C60_reconstructs",
    "Noarr.C60_lengths_like"
   ],
   "note": "C60_traversed_alike is for structures without tuple dimensions (vectors_like of a structure with a tuple of several fields does not compile) that are tame (views that keep lengths apart from indices) and firm."
  },
  {
   "property": "C61",
   "status": "proved",
   "theorems": [
    "Noarr.C61_fix_zeros_is_first",
    "Noarr.C61_all_zeros_is_fix_zeros",
    "Noarr.C61_first_of_box"
   ],
   "note": "C61_fix_zeros_is_first covers tuples; C61_first_of_box adds that the element is visited."
  },
  {
   "property": "C62",
   "status": "proved",
   "theorems": [
    "Noarr.C62_one_owner",
    "Noarr.C62_make",
    "Noarr.C62_no_leak",
    "Noarr.C62_destroy",
    "Noarr.C62_move_assign",
    "Noarr.C62_freed_only_by_the_owner"
   ],
   "note": "Programs are lists of operations on named bags; pointers of the caller are blocks of their own; allocation succeeds."
  },
  {
   "property": "C63",
   "status": "partial",
   "theorems": [
    "Noarr.C63_same_memory",
    "Noarr.C63_pointer",
    "Noarr.C63_move",
    "Noarr.C63_get_ref",
    "Noarr.C63_reference_survives_moves",
    "Noarr.C63_reference_dangles",
    "Noarr.C63_view_partial",
    "Noarr.C63_rvalue_view",
    "Noarr.C63_owners_are_not_copied",
    "Noarr.C63_rvalue_view_of_an_owner_violates",
    "Noarr.C63_vector_bags_are_read_only",
    "Noarr.C63_rvalue_view_of_a_vector_copies_violates"
   ],
   "note": "Proved for moving, get_ref, references, and views of reference bags. Partial: the documented std::move(bag) ^ p of an owning bag does not compile (unique_ptr) or copies the data (vector), shown by C63_rvalue_view_of_an_owner_violates and C63_rvalue_view_of_a_vector_copies_violates."
  },
  {
   "property": "C64",
   "status": "partial",
   "theorems": [
    "Noarr.C64_zcurve_partial",
    "Noarr.C64_condition",
    "Noarr.C64_unbounded_length_violates",
    "Noarr.C64_large_alignment_violates",
    "Noarr.C64_powers_of_two_violates",
    "Noarr.C64_maxlen_alignment",
    "Noarr.C64_alignment_above_maxlen"
   ],
   "note": "Proved where half of MaxLen times the lengths of all dimensions but one (in units of Alignment) is below 2^64 (for instance if MaxLen^n is at most 2^64, C64_condition), and Alignment^n is below 2^32. Beyond, it is false, with witnesses for the parameters that the documentation gives: MaxLen = 2^63 without a bound, Alignment = MaxLen for powers of two."
  },
  {
   "property": "C65",
   "status": "partial",
   "theorems": [
    "Noarr.C65_offset_partial",
    "Noarr.C65_size_partial",
    "Noarr.C65_length_partial",
    "Noarr.C65_vector_of_any_length",
    "Noarr.C65_into_blocks_dynamic",
    "Noarr.C65_zcurve_violates",
    "Noarr.C65_presence_violates"
   ],
   "note": "Offsets, sizes and lengths computed from constants are constants, for all structures without merge_zcurve (for which it is false: C65_zcurve_violates); into_blocks_dynamic is covered except for the length of its presence dimension, which is always a run-time value (C65_presence_violates)."
  },
  {
   "property": "C66",
   "status": "proved",
   "theorems": [
    "Noarr.LState.C66_idx",
    "Noarr.LState.C66_get_indices",
    "Noarr.LState.C66_get_indices_of_idx",
    "Noarr.LState.C66_filter",
    "Noarr.LState.C66_update_index",
    "Noarr.LState.C66_neighbor",
    "Noarr.LState.C66_neighbor_is_add_and_sub",
    "Noarr.LState.C66_neighbor_of_map"
   ],
   "note": "All the shortcuts for states in extra/shortcuts.hpp:183-250, on item lists in size_t arithmetic; the equation with + and - is the example of docs/State.md, for any dimensions and differences."
  },
  {
   "property": "C67",
   "status": "proved",
   "theorems": [
    "Noarr.C67_concat",
    "Noarr.C67_filter_sequence",
    "Noarr.DimTree.C67_round_trip",
    "Noarr.DimTree.C67_to_sequence_iff",
    "Noarr.DimTree.C67_filter_tree_of_sequence",
    "Noarr.DimTree.C67_reorder_sequence",
    "Noarr.DimTree.C67_filter_ways",
    "Noarr.DimTree.C67_filter_compiles",
    "Noarr.DimTree.C67_hoist_ways",
    "Noarr.DimTree.C67_reorder_ways",
    "Noarr.DimTree.C67_reorder_compiles",
    "Noarr.DimTree.C67_reorder_absent_violates",
    "Noarr.DimTree.C67_reorder_partly_absent_violates",
    "Noarr.DimTree.C67_reorder_unequal_violates",
    "Noarr.C67_signature"
   ],
   "note": "For all trees. Reordering requires distinct dimensions that are on every way with the same number of branches; the three witnesses show that each part is needed."
  },
  {
   "property": "C68",
   "status": "proved",
   "theorems": [
    "Noarr.C68_view_signature",
    "Noarr.C68_layout_signature",
    "Noarr.C68_reorder_signature",
    "Noarr.C68_join_keeps_inner"
   ],
   "note": "As stated, for the whole grammar of views. The static lengths of span and step are those of the code (the end and the stride), see C59 for what is wrong with them. The last theorem shows on an example that join keeps the inner of the joined dimensions in the signature."
  },
  {
   "property": "C69",
   "status": "partial",
   "theorems": [
    "Noarr.C69_offered_only_if",
    "Noarr.C69_offered_if_partial",
    "Noarr.C69_available_partial",
    "Noarr.C69_reverse_available",
    "Noarr.C69_blocks_offered",
    "Noarr.C69_static_blocks_offered",
    "Noarr.C69_dynamic_blocks_offered",
    "Noarr.C69_merged_offered",
    "Noarr.C69_renamed_offered",
    "Noarr.C69_never_offered",
    "Noarr.C69_blocks_without_length",
    "Noarr.C69_fixed_block"
   ],
   "note": "Available-where-offered is proved for vectors with all the views but those that make or merge blocks, reverse only on top; with tuples it needs constant ranges (C41_range_through_a_tuple). False for blocks, with witnesses: along the inner block dimension a bound is announced although its length is unknown (and then does not compile), and although the dimension is fixed."
  },
  {
   "property": "C70",
   "status": "proved",
   "theorems": [
    "Noarr.C70_multiply",
    "Noarr.C70_copy",
    "Noarr.C70_scale",
    "Noarr.C70_transpose",
    "Noarr.C70_to_noarr",
    "Noarr.C70_to_classic",
    "Noarr.C70_classic_multiply",
    "Noarr.C70_classic_equal",
    "Noarr.C70_demo",
    "Noarr.C70_rows",
    "Noarr.C70_columns",
    "Noarr.C70_tiles",
    "Noarr.C70_multiply_asserts_the_shapes",
    "Noarr.C70_transpose_asserts_a_square"
   ],
   "note": "Sizes and offsets in exact arithmetic (C21 relates it to the machine). The values are those of any type with an addition, a multiplication and a zero; signed overflow of int is outside of the model. A failed assert counts as undefined behaviour."
  },
  {
   "property": "C71",
   "status": "proved",
   "theorems": [
    "Noarr.C71_only_own_dimensions",
    "Noarr.C71_other_dimensions_are_ignored",
    "Noarr.C71_bag_in_a_larger_state",
    "Noarr.C71_other_field_counts"
   ],
   "note": "The dimensions of a tuple include those of all the fields: C71_other_field_counts shows that a length in a dimension of another field does count."
  },
  {
   "property": "C72",
   "status": "proved",
   "theorems": [
    "Noarr.C72_bags_behave_like_arrays",
    "Noarr.C72_layouts_do_not_matter",
    "Noarr.C72_new_bags",
    "Noarr.C72_traversed_structures_are_layouts",
    "Noarr.C72_size_t",
    "Noarr.C72_matrix_layouts"
   ],
   "note": "A program is a tree of reads, writes and length queries whose continuation may be any function of the value obtained. Bags do not overlap in memory: each has its own (C62 and C63 are about bags in one memory)."
  },
  {
   "property": "C73",
   "status": "proved",
   "theorems": [
    "Noarr.C73_accumulate",
    "Noarr.C73_order_and_layouts_do_not_matter",
    "Noarr.C73_assign",
    "Noarr.C73_copy",
    "Noarr.C73_matrix_product",
    "Noarr.C73_matrix_product_by_traverser"
   ],
   "note": "That for_each compiles is a hypothesis, except in C73_matrix_product_by_traverser, where it follows from the lengths (C31). The element type of the product has an addition in which the order of summands does not matter, which excludes floating point."
  },
  {
   "property": "C74",
   "status": "proved",
   "theorems": [
    "Noarr.C74_threads",
    "Noarr.C74_threads_end",
    "Noarr.C74_same_as_in_order",
    "Noarr.C74_iterations",
    "Noarr.C74_tbb_for_each",
    "Noarr.C74_omp_for_each",
    "Noarr.C74_accumulate",
    "Noarr.C74_tbb_accumulate",
    "Noarr.C74_matrix_product",
    "Noarr.C74_matrix_product_by_traverser"
   ],
   "note": "Executions are interleavings of single reads and writes; that no two of them are a data race, which C++ requires for this view of executions, is part of what is proved. Threads start together and do not wait for each other."
  },
  {
   "property": "C75",
   "status": "proved",
   "theorems": [
    "Noarr.C75_reduction_into_a_bag",
    "Noarr.C75_histogram",
    "Noarr.C75_histogram_of_vectors",
    "Noarr.C75_same_dimension_races"
   ],
   "note": "The functions of the user have the shape of docs/Traverser.md (bagReducer): f_neut assigns the neutral value, f_acc updates one element, f_join combines two elements. C75_same_dimension_races is a witness for the last requirement."
  },
  {
   "property": "C76",
   "status": "proved",
   "theorems": [
    "Noarr.C76_kernels",
    "Noarr.C76_kernels_with_sections",
    "Noarr.C76_matrix_product",
    "Noarr.C76_matrix_product_of_bags",
    "Noarr.C76_matrix_product_any_lengths"
   ],
   "note": "Kernels are reduceKernel: a loop over for_each that only reads other bags, then one write. Shared memory and synchronisation inside a block are not modelled."
  },
  {
   "property": "C77",
   "status": "proved",
   "theorems": [
    "Noarr.C77_block_sum",
    "Noarr.C77_block_sum_of_vector",
    "Noarr.C77_block_sum_is_the_sum"
   ],
   "note": "In exact arithmetic for offsets; the elements may be of any type with an addition (for floating-point numbers the first two theorems say in which order they are added)."
  },
  {
   "property": "C78",
   "status": "proved",
   "theorems": [
    "Noarr.C78_step_loop",
    "Noarr.C78_step_accumulate",
    "Noarr.C78_step_compiles",
    "Noarr.C78_vectors"
   ],
   "note": "Threads are those of C74: every operation on a bag is one step, in any interleaving, and a conflicting pair of accesses of different threads is undefined. The dimension is an ordinary one and in all the fields of tuples, as in C53. Where several iterations update the same element, the order within an element does not matter for the operation. Sizes and offsets in exact arithmetic."
  },
  {
   "property": "C79",
   "status": "proved",
   "theorems": [
    "Noarr.C79_sums",
    "Noarr.C79_sums_along_a_dimension",
    "Noarr.C79_sums_of_a_matrix"
   ],
   "note": "An instance of C75. The addition is exact and associative, so the theorem is not about float, where the order of the additions changes the result. If the output is shared, the order of the traverser must leave the top dimension as it is, shift it or step through it, as in C34. The documentation does not say that the old contents of the output are kept; neither way of the reduction clears them. Sizes and offsets in exact arithmetic."
  },
  {
   "property": "C80",
   "status": "proved",
   "theorems": [
    "Noarr.C80_renamed_layout",
    "Noarr.C80_renamed_box",
    "Noarr.C80_renamed_bag",
    "Noarr.C80_copy",
    "Noarr.C80_transposed",
    "Noarr.C80_matrix_product"
   ],
   "note": "C80_renamed_bag and C80_transposed hold in every arithmetic, the others in exact arithmetic. Names that are renamed must be dimensions of the structure, and the static assertions of rename must hold (hypothesis renameOk). The traverser of the product is any one that visits each combination of i, j and k once; an example gives one by C31. For a moved or copied bag the model takes the bytes along; a view that refers to the bag is not told apart."
  },
  {
   "property": "C81",
   "status": "proved",
   "theorems": [
    "Noarr.C81_programs",
    "Noarr.C81_copy_through",
    "Noarr.C81_indices",
    "Noarr.C81_element",
    "Noarr.C81_lengths",
    "Noarr.C81_copy_part",
    "Noarr.C81_assign_row"
   ],
   "note": "C81_programs holds in every arithmetic; a program may ask only for lengths that the view and the bag have in common. The rest is in exact arithmetic. C81_lengths and C81_copy_part are for structures without tuples, whose lengths depend on no index. The two bags are different; copying between overlapping parts of the same bag depends on the order and is not covered. A step has a start below its stride, as in docs/structs/step.md."
  },
  {
   "property": "C82",
   "status": "proved",
   "theorems": [
    "Noarr.C82_lengths_in_state",
    "Noarr.C82_traverser",
    "Noarr.C82_programs",
    "Noarr.C82_loops",
    "Noarr.C82_copy",
    "Noarr.C82_matrix"
   ],
   "note": "C82_copy and C82_matrix are in exact arithmetic. C82_loops is for bodies that hand on to the bags the state they get, possibly with other indices, and do not look at the lengths in it themselves. If a dimension is given twice, the first (innermost) set_length counts, as in C12."
  },
  {
   "property": "C83",
   "status": "proved",
   "theorems": [
    "Noarr.C83_incomplete_blocks",
    "Noarr.C83_incomplete_tiles",
    "Noarr.C83_simple",
    "Noarr.C83_simple_place",
    "Noarr.C83_blocks_size",
    "Noarr.C83_blocks_place",
    "Noarr.C83_tiles_size",
    "Noarr.C83_tiles_place",
    "Noarr.C83_order_of_merging",
    "Noarr.C83_whole_blocks",
    "Noarr.C83_programs",
    "Noarr.C83_least_number_of_blocks"
   ],
   "note": "In exact arithmetic, and with fixed names of the four dimensions."
  },
  {
   "property": "C84",
   "status": "proved",
   "theorems": [
    "Noarr.C84_states",
    "Noarr.C84_elements",
    "Noarr.C84_loops",
    "Noarr.C84_repeat"
   ],
   "note": "C84_states and C84_loops assume that the traverser of s alone compiles. C84_repeat is in exact arithmetic."
  },
  {
   "property": "C85",
   "status": "proved",
   "theorems": [
    "Noarr.C85_for_each",
    "Noarr.C85_for_each_hoisted",
    "Noarr.C85_for_dims",
    "Noarr.C85_for_each_some",
    "Noarr.C85_same_iterations"
   ],
   "note": "Arrays are nested vectors with dynamic lengths. That hoist does not change offsets is in C18. The states of for_dims are those of the traversers it passes to the callback. The example is the 3x4 matrix of the documentation, in both orders and in all the ways it lists."
  },
  {
   "property": "C86",
   "status": "proved",
   "theorems": [
    "Noarr.C86_structure",
    "Noarr.C86_for_each",
    "Noarr.C86_blocks_keep_the_order",
    "Noarr.C86_same_iterations"
   ],
   "note": "Arrays are nested vectors with dynamic lengths, block sizes are dynamic. If a block size does not divide the length, the loops are over the whole blocks only, as in the code. The examples are the default traversal and both tilings of the 8x12 matrix of the documentation, with the explicit loops."
  },
  {
   "property": "C87",
   "status": "proved",
   "theorems": [
    "Noarr.C87_order",
    "Noarr.C87_each_once",
    "Noarr.C87_tiled_product"
   ],
   "note": "The traversed structures are nested vectors with dynamic lengths; the bags that the body uses can have any layouts with the same dimensions and lengths (BagsHold, as in C72 and C73). The example is the matrix product of the documentation (300, 400, 500) in blocks of 10 by 20 by 50."
  }
 ]
}
