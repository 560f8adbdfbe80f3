{
 "claims": [
  {
   "property": "C01",
   "status": "proved",
   "theorems": [
    "C01_invariant",
    "C01_step"
   ],
   "note": ""
  },
  {
   "property": "C02",
   "status": "proved",
   "theorems": [
    "C02_panics_iff_invalid_argument",
    "C02_any_query_type"
   ],
   "note": ""
  },
  {
   "property": "C03",
   "status": "proved",
   "theorems": [
    "C03_point_lookup"
   ],
   "note": ""
  },
  {
   "property": "C04",
   "status": "proved",
   "theorems": [
    "C04_failed_lookup_returns_maximal_gap"
   ],
   "note": ""
  },
  {
   "property": "C05",
   "status": "proved",
   "theorems": [
    "C05_overlapping_exact"
   ],
   "note": ""
  },
  {
   "property": "C06",
   "status": "proved",
   "theorems": [
    "C06_insert_strict"
   ],
   "note": ""
  },
  {
   "property": "C07",
   "status": "proved",
   "theorems": [
    "C07_remove_overlapping"
   ],
   "note": ""
  },
  {
   "property": "C08",
   "status": "proved",
   "theorems": [
    "C08_cut_exact",
    "C08_cut_pointwise"
   ],
   "note": ""
  },
  {
   "property": "C09",
   "status": "proved",
   "theorems": [
    "C09_insert_overwrite"
   ],
   "note": ""
  },
  {
   "property": "C10",
   "status": "proved",
   "theorems": [
    "C10_insert_merge_touching"
   ],
   "note": ""
  },
  {
   "property": "C11",
   "status": "proved",
   "theorems": [
    "C11_insert_merge_touching_if_values_equal"
   ],
   "note": ""
  },
  {
   "property": "C12",
   "status": "proved",
   "theorems": [
    "C12_insert_merge_overlapping"
   ],
   "note": ""
  },
  {
   "property": "C13",
   "status": "proved",
   "theorems": [
    "C13_insert_merge_touching_or_overlapping"
   ],
   "note": ""
  },
  {
   "property": "C14",
   "status": "proved",
   "theorems": [
    "C14_gaps_untrimmed"
   ],
   "note": ""
  },
  {
   "property": "C15",
   "status": "proved",
   "theorems": [
    "C15_gaps_trimmed"
   ],
   "note": ""
  },
  {
   "property": "C16",
   "status": "proved",
   "theorems": [
    "C16_contains_interval"
   ],
   "note": ""
  },
  {
   "property": "C17",
   "status": "proved",
   "theorems": [
    "C17_from_iter_strict_disjoint",
    "C17_from_iter_strict_first_offender",
    "C17_from_slice_strict_first_offender",
    "C17_from_iter_strict_iff",
    "C17_from_iter_strict_order_independent"
   ],
   "note": ""
  },
  {
   "property": "C18",
   "status": "proved",
   "theorems": [
    "C18_len_first_last"
   ],
   "note": ""
  },
  {
   "property": "C19",
   "status": "proved",
   "theorems": [
    "C19_mutable_access"
   ],
   "note": ""
  },
  {
   "property": "C20",
   "status": "proved",
   "theorems": [
    "C20_refines_set_of_entries",
    "C20_reference_machine_deterministic",
    "C20_reference_history_unique"
   ],
   "note": ""
  },
  {
   "property": "C21",
   "status": "proved",
   "theorems": [
    "C21_refines_partial_function"
   ],
   "note": ""
  },
  {
   "property": "C22",
   "status": "proved",
   "theorems": [
    "C22_set_refines_set_of_intervals",
    "C22_reference_machine_deterministic",
    "C22_reference_history_unique",
    "C22_set_queries",
    "C22_set_updates",
    "C22_set_merged_keys",
    "C22_set_len_first_last",
    "C22_set_invariant",
    "C22_set_refines_point_set",
    "C22_set_from_iter",
    "C22_set_from_iter_first_offender"
   ],
   "note": ""
  },
  {
   "property": "C23",
   "status": "proved",
   "theorems": [
    "C23_constructors_exact"
   ],
   "note": ""
  },
  {
   "property": "C24",
   "status": "proved",
   "theorems": [
    "C24_overlaps_iff_common_point",
    "C24_intersection_exact",
    "C24_predicates_exact"
   ],
   "note": ""
  },
  {
   "property": "C25",
   "status": "proved",
   "theorems": [
    "C25_range_conversions",
    "C25_iterated_range",
    "C25_iterating_an_interval"
   ],
   "note": ""
  },
  {
   "property": "C26",
   "status": "proved",
   "theorems": [
    "C26_translate_exact",
    "C26_width_exact"
   ],
   "note": ""
  },
  {
   "property": "C27",
   "status": "partial",
   "theorems": [
    "C27_full_refuted",
    "C27_translate_can_build_invalid_interval",
    "C27_translate_wrapping_valid_iff_partial"
   ],
   "note": "False as stated (see the counterexample theorem); the _partial theorem states exactly when it holds."
  },
  {
   "property": "C28",
   "status": "proved",
   "theorems": [
    "C28_primitive_integers_lawful",
    "C28_up_down_exact"
   ],
   "note": ""
  },
  {
   "property": "C29",
   "status": "proved",
   "theorems": [
    "C29_withInfinity_lawful"
   ],
   "note": ""
  },
  {
   "property": "C30",
   "status": "proved",
   "theorems": [
    "C30_identifiers_at_point"
   ],
   "note": ""
  },
  {
   "property": "C31",
   "status": "proved",
   "theorems": [
    "C31_gaps_no_identifier"
   ],
   "note": ""
  },
  {
   "property": "C32",
   "status": "proved",
   "theorems": [
    "C32_gaps_with_identifier"
   ],
   "note": ""
  },
  {
   "property": "C33",
   "status": "proved",
   "theorems": [
    "C33_canonical",
    "C33_insert_order"
   ],
   "note": ""
  },
  {
   "property": "C34",
   "status": "proved",
   "theorems": [
    "C34_history_panics_iff",
    "C34_call_panics_iff"
   ],
   "note": ""
  },
  {
   "property": "C35",
   "status": "partial",
   "theorems": [
    "C35_full_refuted",
    "C35_append_partial",
    "C35_appended_other_is_broken"
   ],
   "note": "The claim about the receiver and about identifiers is proved (C35_append_partial); that `other` is usable afterwards is false of the code, proved for all histories by C35_appended_other_is_broken. With `other` set to a new Gqdit (Props/RepairsIO.lean, not code of the crate) the claim holds in full (Repair_gqdit_programs)."
  },
  {
   "property": "C36",
   "status": "proved",
   "theorems": [
    "C36_zero_overlap_sequence",
    "C36_pairwise_zero_overlap"
   ],
   "note": ""
  },
  {
   "property": "C37",
   "status": "proved",
   "theorems": [
    "C37_panics_iff",
    "C37_query_panics_iff"
   ],
   "note": ""
  },
  {
   "property": "C38",
   "status": "proved",
   "theorems": [
    "C38_is_zero_overlap"
   ],
   "note": ""
  },
  {
   "property": "C39",
   "status": "partial",
   "theorems": [
    "C39_full_refuted",
    "C39_refused",
    "C39_insert_strict_back_partial",
    "C39_not_at_the_back"
   ],
   "note": "False as stated: after a cut the map can hold several separate stores for the same point interval and the new value can land before another one (C39_not_at_the_back); _partial proves the rest (exact refusal, exactly one entry added in interval order; at the back when no cut happened or the interval has several points). The stored key is the one already present for an identical interval. With the local repairs of Props/Repairs.lean (not code of the crate) the documented behaviour holds for all histories (Repair_zosdit_documented)."
  },
  {
   "property": "C40",
   "status": "partial",
   "theorems": [
    "C40_full_refuted",
    "C40_found",
    "C40_none_iff",
    "C40_get_last_value_partial",
    "C40_misses_end_points"
   ],
   "note": "False as stated (C40_misses_end_points: nothing is found at the last point of an entry that is followed by a gap and another entry). Proved: whatever is returned is right (C40_found), exactly when None is returned (C40_none_iff), and the property under the condition excluding the bug. With the local repairs of Props/Repairs.lean (not code of the crate) the documented behaviour holds for all histories (Repair_zosdit_documented)."
  },
  {
   "property": "C41",
   "status": "proved",
   "theorems": [
    "C41_remove_last_value"
   ],
   "note": ""
  },
  {
   "property": "C42",
   "status": "partial",
   "theorems": [
    "C42_full_refuted",
    "C42_len_exact",
    "C42_len_partial",
    "C42_empty_sound",
    "C42_len_wrong_after_remove"
   ],
   "note": "False as stated (C42_len_wrong_after_remove): remove_last_value_at_point does not decrement the counter. Proved: len = entries + successful removals, for all histories; the property for histories without removals; is_empty is sound. With the local repairs of Props/Repairs.lean (not code of the crate) the documented behaviour holds for all histories (Repair_zosdit_documented)."
  },
  {
   "property": "C43",
   "status": "partial",
   "theorems": [
    "C43_full_refuted",
    "C43_cut_partial",
    "C43_cut_noop",
    "C43_cut_misses"
   ],
   "note": "False as stated (C43_cut_misses). C43_cut_partial proves it under the exact condition, C43_cut_noop proves that otherwise nothing happens; together they cover all states and arguments. With the local repairs of Props/Repairs.lean (not code of the crate) the documented behaviour holds for all histories (Repair_zosdit_documented)."
  },
  {
   "property": "C44",
   "status": "proved",
   "theorems": [
    "C44_overlapping"
   ],
   "note": ""
  },
  {
   "property": "C45",
   "status": "proved",
   "theorems": [
    "C45_from_iter_strict_back",
    "C45_first_offender",
    "C45_from_slice_first_offender",
    "C45_from_iter_strict_back_iff"
   ],
   "note": ""
  },
  {
   "property": "C46",
   "status": "proved",
   "theorems": [
    "C46_map_round_trip",
    "C46_set_round_trip"
   ],
   "note": ""
  },
  {
   "property": "C47",
   "status": "partial",
   "theorems": [
    "C47_full_refuted",
    "C47_map_accepts",
    "C47_map_first_offender",
    "C47_map_partial",
    "C47_panics",
    "C47_set_partial",
    "C47_set_first_offender",
    "C47_zosdit_accepts",
    "C47_zosdit_first_offender",
    "C47_zosdit_partial"
   ],
   "note": "False as stated: an invalid interval in the input panics (C47_panics; exactly when: the _first_offender theorems). The _partial theorems cover all inputs without invalid intervals, for NoditMap, NoditSet and ZosditMap. With a validity check on what was read (Props/RepairsIO.lean, not code of the crate) it holds for every input (Repair_deserialize_map, _set, _zosdit)."
  },
  {
   "property": "C48",
   "status": "partial",
   "theorems": [
    "C48_full_refuted",
    "C48_round_trip_entries",
    "C48_round_trip_entries_interval",
    "C48_announced_length_exact",
    "C48_round_trip_exact",
    "C48_round_trip_partial",
    "C48_not_equal"
   ],
   "note": "False as stated (C48_not_equal): stale length after a removal, merged value stores after a cut. Proved for all histories: the entries come back in order (C48_round_trip_entries); the announced length is right exactly when no value has been removed (C48_announced_length_exact), and the map read back is equal exactly when moreover no two value stores are for the same interval (C48_round_trip_exact); in particular for histories without cut and removal. With the repairs of Props/Repairs.lean the announced length is right for all histories (Repair_zosdit_hint)."
  },
  {
   "property": "C49",
   "status": "partial",
   "theorems": [
    "C49_full_refuted",
    "C49_round_trip",
    "C49_deserialize_partial",
    "C49_not_covering",
    "C49_empty_is_inert"
   ],
   "note": "Round trip proved. That a deserialised Gqdit covers every point is false (C49_not_covering, C49_empty_is_inert); C49_deserialize_partial proves it for covering input. With what was read inserted into a new Gqdit (Props/RepairsIO.lean, not code of the crate) it holds in full (Repair_gqdit_programs, Repair_gqdit_round_trip)."
  },
  {
   "property": "C50",
   "status": "proved",
   "theorems": [
    "C50_any_tree",
    "C50_any_tree_range",
    "C50_same_content",
    "C50_reachable",
    "C50_zosdit",
    "C50_zosdit_insert"
   ],
   "note": ""
  },
  {
   "property": "C51",
   "status": "proved",
   "theorems": [
    "C51_first_last"
   ],
   "note": ""
  },
  {
   "property": "C52",
   "status": "proved",
   "theorems": [
    "C52_set_intervals_are_maximal_runs",
    "C52_set_canonical"
   ],
   "note": ""
  },
  {
   "property": "C53",
   "status": "proved",
   "theorems": [
    "C53_map_entries_are_maximal_runs",
    "C53_map_canonical"
   ],
   "note": ""
  },
  {
   "property": "C54",
   "status": "proved",
   "theorems": [
    "C54_cut_idempotent"
   ],
   "note": ""
  },
  {
   "property": "C55",
   "status": "proved",
   "theorems": [
    "C55_cuts_commute",
    "C55_cut_union"
   ],
   "note": ""
  },
  {
   "property": "C56",
   "status": "proved",
   "theorems": [
    "C56_disjoint_overwrites_commute",
    "C56_overwrite_absorbs"
   ],
   "note": ""
  },
  {
   "property": "C57",
   "status": "proved",
   "theorems": [
    "C57_remove_undoes_insert",
    "C57_reinsert_undoes_remove"
   ],
   "note": ""
  },
  {
   "property": "C58",
   "status": "proved",
   "theorems": [
    "C58_rebuild"
   ],
   "note": ""
  },
  {
   "property": "C59",
   "status": "proved",
   "theorems": [
    "C59_fill_gaps"
   ],
   "note": ""
  },
  {
   "property": "C60",
   "status": "proved",
   "theorems": [
    "C60_complement",
    "C60_complement_of_complement"
   ],
   "note": ""
  },
  {
   "property": "C61",
   "status": "proved",
   "theorems": [
    "C61_query_points_only"
   ],
   "note": ""
  },
  {
   "property": "C62",
   "status": "proved",
   "theorems": [
    "C62_refines"
   ],
   "note": ""
  },
  {
   "property": "C63",
   "status": "proved",
   "theorems": [
    "C63_get_last_value_exact",
    "C63_found_inside"
   ],
   "note": ""
  },
  {
   "property": "C64",
   "status": "proved",
   "theorems": [
    "C64_len_exact"
   ],
   "note": ""
  },
  {
   "property": "C65",
   "status": "proved",
   "theorems": [
    "C65_cut_exact",
    "C65_nothing_lost"
   ],
   "note": ""
  },
  {
   "property": "C66",
   "status": "proved",
   "theorems": [
    "C66_insert_at_back"
   ],
   "note": ""
  },
  {
   "property": "C67",
   "status": "proved",
   "theorems": [
    "C67_remove_undoes_insert",
    "C67_remove_undoes_insert_point"
   ],
   "note": ""
  },
  {
   "property": "C68",
   "status": "proved",
   "theorems": [
    "C68_order_independent",
    "C68_order_independent_interval"
   ],
   "note": ""
  },
  {
   "property": "C69",
   "status": "proved",
   "theorems": [
    "C69_any_interval_type"
   ],
   "note": ""
  },
  {
   "property": "C70",
   "status": "proved",
   "theorems": [
    "C70_from_adds_a_point",
    "C70_not_lawful",
    "C70_cut_keeps_first_point",
    "C70_contains_interval_false",
    "C70_fixed_lawful"
   ],
   "note": ""
  },
  {
   "property": "C71",
   "status": "proved",
   "theorems": [
    "C71_contents",
    "C71_determined"
   ],
   "note": ""
  },
  {
   "property": "C72",
   "status": "proved",
   "theorems": [
    "C72_gaps_with_identifier_exact",
    "C72_panics_iff",
    "C72_gaps_no_identifier",
    "C72_gaps_with_identifier"
   ],
   "note": ""
  },
  {
   "property": "C73",
   "status": "proved",
   "theorems": [
    "C73_append_laws",
    "C73_append_distributes",
    "C73_cut_undoes_insert",
    "C73_insert_cut_laws"
   ],
   "note": ""
  },
  {
   "property": "C74",
   "status": "proved",
   "theorems": [
    "C74_map_outcome",
    "C74_set_outcome",
    "C74_gqdit_outcome",
    "C74_set_outcome_iff",
    "C74_gqdit_outcome_iff",
    "C74_any_order",
    "C74_order_irrelevant",
    "C74_zosdit_outcome",
    "C74_zosdit_outcome_iff",
    "C74_zosdit_any_tree"
   ],
   "note": ""
  },
  {
   "property": "C75",
   "status": "proved",
   "theorems": [
    "C75_intersection_semilattice",
    "C75_intersection_greatest",
    "C75_contains_interval_order",
    "C75_overlaps_agrees",
    "C75_contains_iff_intersection"
   ],
   "note": ""
  },
  {
   "property": "C76",
   "status": "proved",
   "theorems": [
    "C76_translate_twice",
    "C76_translate_rigid",
    "C76_width_counts_points",
    "C76_translate_twice_wrapping",
    "C76_translate_undo_wrapping",
    "C76_width_wrapping"
   ],
   "note": ""
  },
  {
   "property": "C77",
   "status": "proved",
   "theorems": [
    "C77_range_bounds_mean_the_points",
    "C77_select_from_btreemap"
   ],
   "note": ""
  },
  {
   "property": "C78",
   "status": "proved",
   "theorems": [
    "C78_undisturbed",
    "C78_crash_leaves",
    "C78_history",
    "C78_as_if_built",
    "C78_nothing_invented",
    "C78_point_outside_the_cut_can_be_lost",
    "C78_set_undisturbed",
    "C78_set_history"
   ],
   "note": ""
  },
  {
   "property": "C79",
   "status": "proved",
   "theorems": [
    "C79_undisturbed",
    "C79_crash_leaves",
    "C79_history",
    "C79_append",
    "C79_hole_swallows_inserts"
   ],
   "note": ""
  },
  {
   "property": "C80",
   "status": "proved",
   "theorems": [
    "C80_undisturbed",
    "C80_refines",
    "C80_well_formed",
    "C80_only_cut",
    "C80_cut_interrupted",
    "C80_counted_twice"
   ],
   "note": ""
  },
  {
   "property": "C81",
   "status": "proved",
   "theorems": [
    "C81_call_growth",
    "C81_history_growth",
    "C81_finite_points",
    "C81_gap_count",
    "C81_gqdit_size",
    "C81_zosdit_size",
    "C81_set_growth",
    "C81_set_history"
   ],
   "note": ""
  },
  {
   "property": "C82",
   "status": "proved",
   "theorems": [
    "C82_cut_interval",
    "C82_config",
    "C82_sorted_config",
    "C82_sorted_config_mislabels"
   ],
   "note": ""
  },
  {
   "property": "C83",
   "status": "proved",
   "theorems": [
    "C83_each_element_once",
    "C83_map_iter",
    "C83_map_overlapping",
    "C83_set_iter",
    "C83_set_overlapping",
    "C83_zosdit_iter",
    "C83_zosdit_into_iter",
    "C83_zosdit_overlapping",
    "C83_map_iter_mut",
    "C83_map_overlapping_mut"
   ],
   "note": ""
  },
  {
   "property": "C84",
   "status": "proved",
   "theorems": [
    "C84_gaps_untrimmed_calls",
    "C84_results_one_by_one",
    "C84_gaps_trimmed_calls",
    "C84_one_item_suffices",
    "C84_gqdit_calls"
   ],
   "note": ""
  },
  {
   "property": "C85",
   "status": "proved",
   "theorems": [
    "C85_identifier_is_a_set",
    "C85_gaps_no_identifier",
    "C85_gaps_with_identifier"
   ],
   "note": ""
  },
  {
   "property": "C86",
   "status": "proved",
   "theorems": [
    "C86_queries",
    "C86_insert",
    "C86_cut",
    "C86_from_iter"
   ],
   "note": ""
  },
  {
   "property": "C87",
   "status": "proved",
   "theorems": [
    "C87_nodit_map",
    "C87_nodit_set",
    "C87_zosdit_map",
    "C87_gqdit",
    "C87_gaps_need_invalid_to_stay_invalid",
    "C87_nodit_set_history"
   ],
   "note": ""
  },
  {
   "property": "C88",
   "status": "proved",
   "theorems": [
    "C88_nodit_map",
    "C88_zosdit_map",
    "C88_gqdit"
   ],
   "note": ""
  },
  {
   "property": "C89",
   "status": "proved",
   "theorems": [
    "C89_nodit_map_eq",
    "C89_nodit_map_congruence",
    "C89_nodit_set_congruence",
    "C89_zosdit_map_congruence",
    "C89_gqdit_congruence",
    "C89_nodit_map_eq_iff_lookups",
    "C89_zosdit_map_eq_iff",
    "C89_zosdit_map_eq_iff_iter",
    "C89_nodit_set_eq",
    "C89_gqdit_eq",
    "C89_zosdit_map_eq",
    "C89_nodit_set_eq_iff_lookups",
    "C89_gqdit_eq_iff_lookups",
    "C89_zosdit_map_equal_entries_unequal",
    "C89_nodit_set_history",
    "C89_equal_ends_needed"
   ],
   "note": ""
  },
  {
   "property": "C90",
   "status": "proved",
   "theorems": [
    "C90_map_errors_exact",
    "C90_seq_errors_exact",
    "C90_map_exact",
    "C90_seq_exact",
    "C90_round_trip",
    "C90_serialized_form",
    "C90_not_validated"
   ],
   "note": ""
  },
  {
   "property": "C91",
   "status": "proved",
   "theorems": [
    "C91_nodit_set",
    "C91_nodit_set_shapes",
    "C91_nodit_map",
    "C91_nodit_map_shapes",
    "C91_gqdit",
    "C91_zosdit_map",
    "C91_zosdit_map_no_cut",
    "C91_zosdit_shape_visible"
   ],
   "note": ""
  },
  {
   "property": "C92",
   "status": "proved",
   "theorems": [
    "C92_unaffected_entry_stays",
    "C92_uncovered_point_stays",
    "C92_covered_point_stays"
   ],
   "note": ""
  },
  {
   "property": "C93",
   "status": "proved",
   "theorems": [
    "C93_clients_do_not_observe_each_other",
    "C93_all_schedules_agree",
    "C93_touching_regions",
    "C93_set_clients_do_not_observe_each_other",
    "C93_set_all_schedules_agree",
    "C93_set_touching_regions"
   ],
   "note": ""
  },
  {
   "property": "C94",
   "status": "partial",
   "theorems": [
    "C94_full_refuted",
    "C94_documented_calls_partial",
    "C94_unaffected_entries_stay",
    "C94_inserting_clients_partial",
    "C94_far_entry_hides_lookup",
    "C94_far_entry_stops_cut"
   ],
   "note": "False as stated with removals and cuts: a far-away entry of another client makes a point lookup miss (C94_far_entry_hides_lookup) or a cut do nothing (C94_far_entry_stops_cut), consequences of findings 2 and 3. Proved: clients that only insert do not observe each other (C94_inserting_clients_partial), and unaffected entries stay, for all calls. C94_documented_calls_partial: whatever the others do, a client whose own calls go as documented (in the schedule and alone) observes nothing of them, so findings 2-4 are the only way. With the repairs of Props/Repairs.lean the claim holds in full (Repair_zosdit_clients)."
  },
  {
   "property": "C95",
   "status": "proved",
   "theorems": [
    "C95_any_points",
    "C95_covered_point",
    "C95_uncovered_point",
    "C95_lookup",
    "C95_zosdit_map",
    "C95_neighbours_matter",
    "C95_nodit_set"
   ],
   "note": ""
  },
  {
   "property": "C96",
   "status": "proved",
   "theorems": [
    "C96_wrapping",
    "C96_checked",
    "C96_pushing_and_popping"
   ],
   "note": ""
  },
  {
   "property": "C97",
   "status": "proved",
   "theorems": [
    "C97_clients_do_not_observe_each_other",
    "C97_all_schedules_agree",
    "C97_gaps"
   ],
   "note": ""
  },
  {
   "property": "C98",
   "status": "proved",
   "theorems": [
    "C98_nodit_clone_count",
    "C98_zosdit_clone_count",
    "C98_nodit_history",
    "C98_nodit_faithful_clone",
    "C98_zosdit_history",
    "C98_zosdit_faithful_clone",
    "C98_nodit_cut",
    "C98_nodit_cut_whole_entries",
    "C98_nodit_insert_overwrite",
    "C98_zosdit_cut"
   ],
   "note": ""
  },
  {
   "property": "C99",
   "status": "proved",
   "theorems": [
    "C99_nodit_map_programs",
    "C99_nodit_set_programs",
    "C99_zosdit_map_programs",
    "C99_gqdit_programs",
    "C99_copies_identical",
    "C99_clone_runs",
    "C99_zosdit_clone_runs",
    "C99_gqdit_clone_runs"
   ],
   "note": ""
  },
  {
   "property": "C100",
   "status": "proved",
   "theorems": [
    "C100_union",
    "C100_difference",
    "C100_intersection",
    "C100_intersection_from_pieces",
    "C100_union_canonical",
    "C100_union_commutes",
    "C100_overlay",
    "C100_overlay_map",
    "C100_erase",
    "C100_restrict"
   ],
   "note": ""
  },
  {
   "property": "C101",
   "status": "proved",
   "theorems": [
    "C101_bookings_never_collide",
    "C101_free_intervals_can_be_booked",
    "C101_cancelled_can_be_rebooked",
    "C101_one_owner_per_point",
    "C101_owner_is_offered"
   ],
   "note": ""
  },
  {
   "property": "C102",
   "status": "proved",
   "theorems": [
    "C102_eq_iff_same_points",
    "C102_eq_congruence",
    "C102_hash",
    "C102_inclusive_exclusive"
   ],
   "note": ""
  },
  {
   "property": "C103",
   "status": "proved",
   "theorems": [
    "C103_drain",
    "C103_drain_takes_all",
    "C103_cut_twice"
   ],
   "note": ""
  },
  {
   "property": "C104",
   "status": "proved",
   "theorems": [
    "C104_translation",
    "C104_nodit_map",
    "C104_nodit_set",
    "C104_gqdit",
    "C104_gqdit_panics",
    "C104_zosdit_map",
    "C104_integers",
    "C104_withInfinity",
    "C104_intervals"
   ],
   "note": ""
  },
  {
   "property": "C105",
   "status": "proved",
   "theorems": [
    "C105_nodit_map",
    "C105_nodit_set",
    "C105_gqdit",
    "C105_integers",
    "C105_intervals",
    "C105_zosdit_map_not_symmetric"
   ],
   "note": ""
  },
  {
   "property": "C106",
   "status": "proved",
   "theorems": [
    "C106_values",
    "C106_points",
    "C106_bound",
    "C106_whole_entries",
    "C106_set_points",
    "C106_zosdit_values",
    "C106_zosdit_bound",
    "C106_zosdit_whole_values"
   ],
   "note": ""
  },
  {
   "property": "C107",
   "status": "proved",
   "theorems": [
    "C107_up_to_ord",
    "C107_eq",
    "C107_lawful",
    "C107_reported_were_given",
    "C107_contents",
    "C107_insert_replaces_equal_identifiers_elsewhere",
    "C107_equal_gqdits_may_report_differently"
   ],
   "note": ""
  },
  {
   "property": "C108",
   "status": "proved",
   "theorems": [
    "C108_nothing_there",
    "C108_overlaps_foretells_inserts",
    "C108_everything_there",
    "C108_single_point",
    "C108_found_by_all",
    "C108_trimmed_gaps",
    "C108_whole_domain",
    "C108_wider_query",
    "C108_set_nothing_there",
    "C108_set_everything_there"
   ],
   "note": ""
  },
  {
   "property": "C109",
   "status": "proved",
   "theorems": [
    "C109_covered_and_free",
    "C109_whole_domain",
    "C109_merging_inserts_fill_gaps",
    "C109_history",
    "C109_history_bound",
    "C109_zosdit_history",
    "C109_gqdit",
    "C109_integers"
   ],
   "note": ""
  },
  {
   "property": "C110",
   "status": "proved",
   "theorems": [
    "C110_zero_overlap_of_listed",
    "C110_zero_overlap_foretells_insert",
    "C110_point_lookup",
    "C110_cut_what_is_listed",
    "C110_wider_query",
    "C110_whole_domain"
   ],
   "note": ""
  },
  {
   "property": "C111",
   "status": "proved",
   "theorems": [
    "C111_all_free",
    "C111_nothing_free",
    "C111_available_for",
    "C111_nothing_to_do",
    "C111_single_point",
    "C111_no_and_with",
    "C111_narrower_query"
   ],
   "note": ""
  },
  {
   "property": "C112",
   "status": "proved",
   "theorems": [
    "C112_map_questions",
    "C112_remove_in_two_steps",
    "C112_cut_pieces",
    "C112_mut_in_two_steps",
    "C112_set",
    "C112_zosdit",
    "C112_gqdit"
   ],
   "note": ""
  },
  {
   "property": "C113",
   "status": "proved",
   "theorems": [
    "C113_map_again",
    "C113_map_history",
    "C113_set_again",
    "C113_gqdit_again",
    "C113_zosdit_insert_again",
    "C113_zosdit_cut_again"
   ],
   "note": ""
  },
  {
   "property": "C114",
   "status": "proved",
   "theorems": [
    "C114_strict_inserts",
    "C114_fill",
    "C114_zosdit_inserts"
   ],
   "note": ""
  },
  {
   "property": "C115",
   "status": "proved",
   "theorems": [
    "C115_map_questions",
    "C115_map_history",
    "C115_map_strict_insert",
    "C115_set_history",
    "C115_gqdit_history",
    "C115_gqdit_gaps",
    "C115_zosdit",
    "C115_hindered_inserts_differ"
   ],
   "note": ""
  },
  {
   "property": "C116",
   "status": "proved",
   "theorems": [
    "C116_map",
    "C116_set",
    "C116_gqdit",
    "C116_append",
    "C116_zosdit",
    "C116_map_one_at_a_time",
    "C116_set_one_at_a_time",
    "C116_gqdit_one_at_a_time",
    "C116_append_one_at_a_time",
    "C116_zosdit_one_at_a_time"
   ],
   "note": ""
  },
  {
   "property": "C117",
   "status": "proved",
   "theorems": [
    "C117_rollback",
    "C117_exact",
    "C117_merging_is_irreversible",
    "C117_set_rollback",
    "C117_set_exact",
    "C117_set_merging_is_irreversible"
   ],
   "note": ""
  },
  {
   "property": "C118",
   "status": "proved",
   "theorems": [
    "C118_division",
    "C118_division_seen",
    "C118_set_division",
    "C118_set_division_seen"
   ],
   "note": ""
  },
  {
   "property": "C119",
   "status": "proved",
   "theorems": [
    "C119_alloc",
    "C119_history",
    "C119_reuse"
   ],
   "note": ""
  },
  {
   "property": "C120",
   "status": "proved",
   "theorems": [
    "C120_update",
    "C120_history",
    "C120_sums"
   ],
   "note": ""
  },
  {
   "property": "C121",
   "status": "proved",
   "theorems": [
    "C121_fewest",
    "C121_compact",
    "C121_rebuild",
    "C121_set_fewest",
    "C121_set_compact"
   ],
   "note": ""
  },
  {
   "property": "C122",
   "status": "proved",
   "theorems": [
    "C122_next_free",
    "C122_prev_free",
    "C122_next_entry",
    "C122_prev_entry",
    "C122_gap_between"
   ],
   "note": ""
  },
  {
   "property": "C123",
   "status": "proved",
   "theorems": [
    "C123_exchange",
    "C123_exchange_twice",
    "C123_exchange_whole",
    "C123_move"
   ],
   "note": ""
  },
  {
   "property": "C124",
   "status": "proved",
   "theorems": [
    "C124_gqdit_replicas_converge",
    "C124_set_replicas_contents",
    "C124_set_replicas_converge"
   ],
   "note": ""
  },
  {
   "property": "C125",
   "status": "proved",
   "theorems": [
    "C125_map",
    "C125_set",
    "C125_gqdit",
    "C125_zosdit",
    "C125_zosdit_cut_reorders",
    "C125_torn_snapshot"
   ],
   "note": ""
  },
  {
   "property": "C126",
   "status": "proved",
   "theorems": [
    "C126_walk"
   ],
   "note": ""
  },
  {
   "property": "C127",
   "status": "proved",
   "theorems": [
    "C127_join"
   ],
   "note": ""
  },
  {
   "property": "C128",
   "status": "proved",
   "theorems": [
    "C128_shift",
    "C128_shift_back"
   ],
   "note": ""
  },
  {
   "property": "C129",
   "status": "proved",
   "theorems": [
    "C129_append",
    "C129_timeline",
    "C129_lookup",
    "C129_no_holes",
    "C129_cut",
    "C129_pop"
   ],
   "note": ""
  },
  {
   "property": "C130",
   "status": "proved",
   "theorems": [
    "C130_diff",
    "C130_apply",
    "C130_patch",
    "C130_merge"
   ],
   "note": ""
  },
  {
   "property": "C131",
   "status": "proved",
   "theorems": [
    "C131_insert_space",
    "C131_remove_space",
    "C131_round_trip"
   ],
   "note": ""
  },
  {
   "property": "C132",
   "status": "proved",
   "theorems": [
    "C132_most_specific",
    "C132_order"
   ],
   "note": ""
  },
  {
   "property": "C133",
   "status": "proved",
   "theorems": [
    "C133_rooms",
    "C133_fewest",
    "C133_numbers"
   ],
   "note": ""
  },
  {
   "property": "C134",
   "status": "proved",
   "theorems": [
    "C134_map",
    "C134_set",
    "C134_set_coalescing",
    "C134_gqdit",
    "C134_zosdit"
   ],
   "note": ""
  },
  {
   "property": "C135",
   "status": "proved",
   "theorems": [
    "C135_sound",
    "C135_delivered",
    "C135_report",
    "C135_complete",
    "C135_answered",
    "C135_monotone",
    "C135_acknowledge",
    "C135_any_order"
   ],
   "note": ""
  },
  {
   "property": "C136",
   "status": "proved",
   "theorems": [
    "C136_history",
    "C136_exclusion",
    "C136_kept",
    "C136_released"
   ],
   "note": ""
  },
  {
   "property": "C137",
   "status": "proved",
   "theorems": [
    "C137_groups",
    "C137_lookup",
    "C137_value",
    "C137_len",
    "C137_any_order",
    "C137_set"
   ],
   "note": ""
  },
  {
   "property": "C138",
   "status": "proved",
   "theorems": [
    "C138_same",
    "C138_visible",
    "C138_pieces",
    "C138_count"
   ],
   "note": ""
  },
  {
   "property": "C139",
   "status": "proved",
   "theorems": [
    "C139_pages",
    "C139_complete",
    "C139_still"
   ],
   "note": ""
  },
  {
   "property": "C140",
   "status": "proved",
   "theorems": [
    "C140_never_twice",
    "C140_refused",
    "C140_kept"
   ],
   "note": ""
  },
  {
   "property": "C141",
   "status": "proved",
   "theorems": [
    "C141_toggle",
    "C141_odd",
    "C141_parity",
    "C141_twice",
    "C141_symmetric_difference"
   ],
   "note": ""
  },
  {
   "property": "C142",
   "status": "proved",
   "theorems": [
    "C142_most",
    "C142_points"
   ],
   "note": ""
  },
  {
   "property": "C143",
   "status": "proved",
   "theorems": [
    "C143_served",
    "C143_once"
   ],
   "note": ""
  },
  {
   "property": "C144",
   "status": "proved",
   "theorems": [
    "C144_transactions",
    "C144_rollback"
   ],
   "note": ""
  },
  {
   "property": "C145",
   "status": "proved",
   "theorems": [
    "C145_busiest"
   ],
   "note": ""
  },
  {
   "property": "C146",
   "status": "proved",
   "theorems": [
    "C146_shards"
   ],
   "note": ""
  },
  {
   "property": "C147",
   "status": "proved",
   "theorems": [
    "C147_pieces"
   ],
   "note": ""
  },
  {
   "property": "C148",
   "status": "proved",
   "theorems": [
    "C148_kth"
   ],
   "note": ""
  },
  {
   "property": "C149",
   "status": "proved",
   "theorems": [
    "C149_most"
   ],
   "note": ""
  },
  {
   "property": "C150",
   "status": "proved",
   "theorems": [
    "C150_rooms"
   ],
   "note": ""
  },
  {
   "property": "C151",
   "status": "proved",
   "theorems": [
    "C151_kth_free"
   ],
   "note": ""
  }
 ]
}