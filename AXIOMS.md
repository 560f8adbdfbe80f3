# Axioms of the claimed theorems

As collected by Lean from the compiled proofs (generated by `mkaxioms.py`). `propext`, `Classical.choice` and `Quot.sound`
are Lean's standard axioms; nothing else occurs.

| claim | theorem | axioms |
|---|---|---|
| C01 | `Nodit.C01_invariant` | Classical.choice, Quot.sound, propext |
| C01 | `Nodit.C01_step` | Classical.choice, Quot.sound, propext |
| C02 | `Nodit.C02_panics_iff_invalid_argument` | Classical.choice, Quot.sound, propext |
| C02 | `Nodit.C02_any_query_type` | Classical.choice, Quot.sound, propext |
| C03 | `Nodit.C03_point_lookup` | Classical.choice, Quot.sound, propext |
| C04 | `Nodit.C04_failed_lookup_returns_maximal_gap` | Classical.choice, Quot.sound, propext |
| C05 | `Nodit.C05_overlapping_exact` | Classical.choice, Quot.sound, propext |
| C06 | `Nodit.C06_insert_strict` | Classical.choice, Quot.sound, propext |
| C07 | `Nodit.C07_remove_overlapping` | Classical.choice, Quot.sound, propext |
| C08 | `Nodit.C08_cut_exact` | Classical.choice, Quot.sound, propext |
| C08 | `Nodit.C08_cut_pointwise` | Classical.choice, Quot.sound, propext |
| C09 | `Nodit.C09_insert_overwrite` | Classical.choice, Quot.sound, propext |
| C10 | `Nodit.C10_insert_merge_touching` | Classical.choice, Quot.sound, propext |
| C11 | `Nodit.C11_insert_merge_touching_if_values_equal` | Classical.choice, Quot.sound, propext |
| C12 | `Nodit.C12_insert_merge_overlapping` | Classical.choice, Quot.sound, propext |
| C13 | `Nodit.C13_insert_merge_touching_or_overlapping` | Classical.choice, Quot.sound, propext |
| C14 | `Nodit.C14_gaps_untrimmed` | Classical.choice, Quot.sound, propext |
| C15 | `Nodit.C15_gaps_trimmed` | Classical.choice, Quot.sound, propext |
| C16 | `Nodit.C16_contains_interval` | Classical.choice, Quot.sound, propext |
| C17 | `Nodit.C17_from_iter_strict_disjoint` | Classical.choice, Quot.sound, propext |
| C17 | `Nodit.C17_from_iter_strict_first_offender` | Classical.choice, Quot.sound, propext |
| C17 | `Nodit.C17_from_slice_strict_first_offender` | Classical.choice, Quot.sound, propext |
| C17 | `Nodit.C17_from_iter_strict_iff` | Classical.choice, Quot.sound, propext |
| C17 | `Nodit.C17_from_iter_strict_order_independent` | Classical.choice, Quot.sound, propext |
| C18 | `Nodit.C18_len_first_last` | Classical.choice, Quot.sound, propext |
| C19 | `Nodit.C19_mutable_access` | Classical.choice, Quot.sound, propext |
| C20 | `Nodit.C20_refines_set_of_entries` | Classical.choice, Quot.sound, propext |
| C20 | `Nodit.C20_reference_machine_deterministic` | Classical.choice, Quot.sound, propext |
| C20 | `Nodit.C20_reference_history_unique` | Classical.choice, Quot.sound, propext |
| C21 | `Nodit.C21_refines_partial_function` | Classical.choice, Quot.sound, propext |
| C22 | `Nodit.C22_set_refines_set_of_intervals` | Classical.choice, Quot.sound, propext |
| C22 | `Nodit.C22_reference_machine_deterministic` | Classical.choice, Quot.sound, propext |
| C22 | `Nodit.C22_reference_history_unique` | Classical.choice, Quot.sound, propext |
| C22 | `Nodit.C22_set_queries` | Classical.choice, Quot.sound, propext |
| C22 | `Nodit.C22_set_updates` | Classical.choice, Quot.sound, propext |
| C22 | `Nodit.C22_set_merged_keys` | Classical.choice, Quot.sound, propext |
| C22 | `Nodit.C22_set_len_first_last` | Classical.choice, Quot.sound, propext |
| C22 | `Nodit.C22_set_invariant` | Classical.choice, Quot.sound, propext |
| C22 | `Nodit.C22_set_refines_point_set` | Classical.choice, Quot.sound, propext |
| C22 | `Nodit.C22_set_from_iter` | Classical.choice, Quot.sound, propext |
| C22 | `Nodit.C22_set_from_iter_first_offender` | Classical.choice, Quot.sound, propext |
| C23 | `Nodit.C23_constructors_exact` | Quot.sound, propext |
| C24 | `Nodit.C24_overlaps_iff_common_point` | Classical.choice, Quot.sound, propext |
| C24 | `Nodit.C24_intersection_exact` | Classical.choice, Quot.sound, propext |
| C24 | `Nodit.C24_predicates_exact` | propext |
| C25 | `Nodit.C25_range_conversions` | Quot.sound, propext |
| C25 | `Nodit.C25_iterated_range` | Quot.sound, propext |
| C25 | `Nodit.C25_iterating_an_interval` | Quot.sound, propext |
| C26 | `Nodit.C26_translate_exact` | Classical.choice, Quot.sound, propext |
| C26 | `Nodit.C26_width_exact` | Classical.choice, Quot.sound, propext |
| C27 | `Nodit.C27_full_refuted` | Classical.choice, Quot.sound, propext |
| C27 | `Nodit.C27_translate_can_build_invalid_interval` | Classical.choice, Quot.sound, propext |
| C27 | `Nodit.C27_translate_wrapping_valid_iff_partial` | Classical.choice, Quot.sound, propext |
| C28 | `Nodit.C28_primitive_integers_lawful` | Classical.choice, Quot.sound, propext |
| C28 | `Nodit.C28_up_down_exact` | Classical.choice, Quot.sound, propext |
| C29 | `Nodit.C29_withInfinity_lawful` | propext |
| C30 | `Nodit.C30_identifiers_at_point` | Classical.choice, Quot.sound, propext |
| C31 | `Nodit.C31_gaps_no_identifier` | Classical.choice, Quot.sound, propext |
| C32 | `Nodit.C32_gaps_with_identifier` | Classical.choice, Quot.sound, propext |
| C33 | `Nodit.C33_canonical` | Classical.choice, Quot.sound, propext |
| C33 | `Nodit.C33_insert_order` | Classical.choice, Quot.sound, propext |
| C34 | `Nodit.C34_history_panics_iff` | Classical.choice, Quot.sound, propext |
| C34 | `Nodit.C34_call_panics_iff` | Classical.choice, Quot.sound, propext |
| C35 | `Nodit.C35_full_refuted` | Classical.choice, Quot.sound, propext |
| C35 | `Nodit.C35_append_partial` | Classical.choice, Quot.sound, propext |
| C35 | `Nodit.C35_appended_other_is_broken` | Classical.choice, Quot.sound, propext |
| C36 | `Nodit.C36_zero_overlap_sequence` | Classical.choice, Quot.sound, propext |
| C36 | `Nodit.C36_pairwise_zero_overlap` | Classical.choice, Quot.sound, propext |
| C37 | `Nodit.C37_panics_iff` | Classical.choice, Quot.sound, propext |
| C37 | `Nodit.C37_query_panics_iff` | Classical.choice, Quot.sound, propext |
| C38 | `Nodit.C38_is_zero_overlap` | Classical.choice, Quot.sound, propext |
| C39 | `Nodit.C39_full_refuted` | Classical.choice, Quot.sound, propext |
| C39 | `Nodit.C39_refused` | Classical.choice, Quot.sound, propext |
| C39 | `Nodit.C39_insert_strict_back_partial` | Classical.choice, Quot.sound, propext |
| C39 | `Nodit.C39_not_at_the_back` | Classical.choice, Quot.sound, propext |
| C40 | `Nodit.C40_full_refuted` | Classical.choice, Quot.sound, propext |
| C40 | `Nodit.C40_found` | Classical.choice, Quot.sound, propext |
| C40 | `Nodit.C40_none_iff` | Classical.choice, Quot.sound, propext |
| C40 | `Nodit.C40_get_last_value_partial` | Classical.choice, Quot.sound, propext |
| C40 | `Nodit.C40_misses_end_points` | Classical.choice, Quot.sound, propext |
| C41 | `Nodit.C41_remove_last_value` | Classical.choice, Quot.sound, propext |
| C42 | `Nodit.C42_full_refuted` | Classical.choice, Quot.sound, propext |
| C42 | `Nodit.C42_len_exact` | Classical.choice, Quot.sound, propext |
| C42 | `Nodit.C42_len_partial` | Classical.choice, Quot.sound, propext |
| C42 | `Nodit.C42_empty_sound` | Classical.choice, Quot.sound, propext |
| C42 | `Nodit.C42_len_wrong_after_remove` | Classical.choice, Quot.sound, propext |
| C43 | `Nodit.C43_full_refuted` | Classical.choice, Quot.sound, propext |
| C43 | `Nodit.C43_cut_partial` | Classical.choice, Quot.sound, propext |
| C43 | `Nodit.C43_cut_noop` | Classical.choice, Quot.sound, propext |
| C43 | `Nodit.C43_cut_misses` | Classical.choice, Quot.sound, propext |
| C44 | `Nodit.C44_overlapping` | Classical.choice, Quot.sound, propext |
| C45 | `Nodit.C45_from_iter_strict_back` | Classical.choice, Quot.sound, propext |
| C45 | `Nodit.C45_first_offender` | Classical.choice, Quot.sound, propext |
| C45 | `Nodit.C45_from_slice_first_offender` | Classical.choice, Quot.sound, propext |
| C45 | `Nodit.C45_from_iter_strict_back_iff` | Classical.choice, Quot.sound, propext |
| C46 | `Nodit.C46_map_round_trip` | Classical.choice, Quot.sound, propext |
| C46 | `Nodit.C46_set_round_trip` | Classical.choice, Quot.sound, propext |
| C47 | `Nodit.C47_full_refuted` | Classical.choice, Quot.sound, propext |
| C47 | `Nodit.C47_map_accepts` | Classical.choice, Quot.sound, propext |
| C47 | `Nodit.C47_map_first_offender` | Classical.choice, Quot.sound, propext |
| C47 | `Nodit.C47_map_partial` | Classical.choice, Quot.sound, propext |
| C47 | `Nodit.C47_panics` | Classical.choice, Quot.sound, propext |
| C47 | `Nodit.C47_set_partial` | Classical.choice, Quot.sound, propext |
| C47 | `Nodit.C47_set_first_offender` | Classical.choice, Quot.sound, propext |
| C47 | `Nodit.C47_zosdit_accepts` | Classical.choice, Quot.sound, propext |
| C47 | `Nodit.C47_zosdit_first_offender` | Classical.choice, Quot.sound, propext |
| C47 | `Nodit.C47_zosdit_partial` | Classical.choice, Quot.sound, propext |
| C48 | `Nodit.C48_full_refuted` | Classical.choice, Quot.sound, propext |
| C48 | `Nodit.C48_round_trip_entries` | Classical.choice, Quot.sound, propext |
| C48 | `Nodit.C48_round_trip_entries_interval` | Classical.choice, Quot.sound, propext |
| C48 | `Nodit.C48_announced_length_exact` | Classical.choice, Quot.sound, propext |
| C48 | `Nodit.C48_round_trip_exact` | Classical.choice, Quot.sound, propext |
| C48 | `Nodit.C48_round_trip_partial` | Classical.choice, Quot.sound, propext |
| C48 | `Nodit.C48_not_equal` | Classical.choice, Quot.sound, propext |
| C49 | `Nodit.C49_full_refuted` | Classical.choice, Quot.sound, propext |
| C49 | `Nodit.C49_round_trip` | Classical.choice, Quot.sound, propext |
| C49 | `Nodit.C49_deserialize_partial` | Classical.choice, Quot.sound, propext |
| C49 | `Nodit.C49_not_covering` | Classical.choice, Quot.sound, propext |
| C49 | `Nodit.C49_empty_is_inert` | Classical.choice, Quot.sound, propext |
| C50 | `Nodit.C50_any_tree` | Classical.choice, Quot.sound, propext |
| C50 | `Nodit.C50_any_tree_range` | Classical.choice, Quot.sound, propext |
| C50 | `Nodit.C50_same_content` | Classical.choice, Quot.sound, propext |
| C50 | `Nodit.C50_reachable` | Classical.choice, Quot.sound, propext |
| C50 | `Nodit.C50_zosdit` | Classical.choice, Quot.sound, propext |
| C50 | `Nodit.C50_zosdit_insert` | Classical.choice, Quot.sound, propext |
| C51 | `Nodit.C51_first_last` | Classical.choice, Quot.sound, propext |
| C52 | `Nodit.C52_set_intervals_are_maximal_runs` | Classical.choice, Quot.sound, propext |
| C52 | `Nodit.C52_set_canonical` | Classical.choice, Quot.sound, propext |
| C53 | `Nodit.C53_map_entries_are_maximal_runs` | Classical.choice, Quot.sound, propext |
| C53 | `Nodit.C53_map_canonical` | Classical.choice, Quot.sound, propext |
| C54 | `Nodit.C54_cut_idempotent` | Classical.choice, Quot.sound, propext |
| C55 | `Nodit.C55_cuts_commute` | Classical.choice, Quot.sound, propext |
| C55 | `Nodit.C55_cut_union` | Classical.choice, Quot.sound, propext |
| C56 | `Nodit.C56_disjoint_overwrites_commute` | Classical.choice, Quot.sound, propext |
| C56 | `Nodit.C56_overwrite_absorbs` | Classical.choice, Quot.sound, propext |
| C57 | `Nodit.C57_remove_undoes_insert` | Classical.choice, Quot.sound, propext |
| C57 | `Nodit.C57_reinsert_undoes_remove` | Classical.choice, Quot.sound, propext |
| C58 | `Nodit.C58_rebuild` | Classical.choice, Quot.sound, propext |
| C59 | `Nodit.C59_fill_gaps` | Classical.choice, Quot.sound, propext |
| C60 | `Nodit.C60_complement` | Classical.choice, Quot.sound, propext |
| C60 | `Nodit.C60_complement_of_complement` | Classical.choice, Quot.sound, propext |
| C61 | `Nodit.C61_query_points_only` | Classical.choice, Quot.sound, propext |
| C62 | `Nodit.C62_refines` | Classical.choice, Quot.sound, propext |
| C63 | `Nodit.C63_get_last_value_exact` | Classical.choice, Quot.sound, propext |
| C63 | `Nodit.C63_found_inside` | propext |
| C64 | `Nodit.C64_len_exact` | Classical.choice, Quot.sound, propext |
| C65 | `Nodit.C65_cut_exact` | Classical.choice, Quot.sound, propext |
| C65 | `Nodit.C65_nothing_lost` | Classical.choice, Quot.sound, propext |
| C66 | `Nodit.C66_insert_at_back` | Classical.choice, Quot.sound, propext |
| C67 | `Nodit.C67_remove_undoes_insert` | Classical.choice, Quot.sound, propext |
| C67 | `Nodit.C67_remove_undoes_insert_point` | Classical.choice, Quot.sound, propext |
| C68 | `Nodit.C68_order_independent` | Classical.choice, Quot.sound, propext |
| C68 | `Nodit.C68_order_independent_interval` | Classical.choice, Quot.sound, propext |
| C69 | `Nodit.C69_any_interval_type` | Classical.choice, Quot.sound, propext |
| C70 | `Nodit.C70_from_adds_a_point` | Classical.choice, Quot.sound, propext |
| C70 | `Nodit.C70_not_lawful` | Classical.choice, Quot.sound, propext |
| C70 | `Nodit.C70_cut_keeps_first_point` | Classical.choice, Quot.sound, propext |
| C70 | `Nodit.C70_contains_interval_false` | Classical.choice, Quot.sound, propext |
| C70 | `Nodit.C70_fixed_lawful` | Classical.choice, Quot.sound, propext |
| C71 | `Nodit.C71_contents` | Classical.choice, Quot.sound, propext |
| C71 | `Nodit.C71_determined` | Classical.choice, Quot.sound, propext |
| C72 | `Nodit.C72_gaps_with_identifier_exact` | Classical.choice, Quot.sound, propext |
| C72 | `Nodit.C72_panics_iff` | Classical.choice, Quot.sound, propext |
| C72 | `Nodit.C72_gaps_no_identifier` | Classical.choice, Quot.sound, propext |
| C72 | `Nodit.C72_gaps_with_identifier` | Classical.choice, Quot.sound, propext |
| C73 | `Nodit.C73_append_laws` | Classical.choice, Quot.sound, propext |
| C73 | `Nodit.C73_append_distributes` | Classical.choice, Quot.sound, propext |
| C73 | `Nodit.C73_cut_undoes_insert` | Classical.choice, Quot.sound, propext |
| C73 | `Nodit.C73_insert_cut_laws` | Classical.choice, Quot.sound, propext |
| C74 | `Nodit.C74_map_outcome` | Classical.choice, Quot.sound, propext |
| C74 | `Nodit.C74_set_outcome` | Classical.choice, Quot.sound, propext |
| C74 | `Nodit.C74_gqdit_outcome` | Classical.choice, Quot.sound, propext |
| C74 | `Nodit.C74_set_outcome_iff` | Classical.choice, Quot.sound, propext |
| C74 | `Nodit.C74_gqdit_outcome_iff` | Classical.choice, Quot.sound, propext |
| C74 | `Nodit.C74_any_order` | Classical.choice, Quot.sound, propext |
| C74 | `Nodit.C74_order_irrelevant` | Classical.choice, Quot.sound, propext |
| C74 | `Nodit.C74_zosdit_outcome` | Classical.choice, Quot.sound, propext |
| C74 | `Nodit.C74_zosdit_outcome_iff` | Classical.choice, Quot.sound, propext |
| C74 | `Nodit.C74_zosdit_any_tree` | Classical.choice, Quot.sound, propext |
| C75 | `Nodit.C75_intersection_semilattice` | Quot.sound, propext |
| C75 | `Nodit.C75_intersection_greatest` | Quot.sound, propext |
| C75 | `Nodit.C75_contains_interval_order` | propext |
| C75 | `Nodit.C75_overlaps_agrees` | Classical.choice, Quot.sound, propext |
| C75 | `Nodit.C75_contains_iff_intersection` | propext |
| C76 | `Nodit.C76_translate_twice` | Classical.choice, Quot.sound, propext |
| C76 | `Nodit.C76_translate_rigid` | Classical.choice, Quot.sound, propext |
| C76 | `Nodit.C76_width_counts_points` | Classical.choice, Quot.sound, propext |
| C76 | `Nodit.C76_translate_twice_wrapping` | Quot.sound, propext |
| C76 | `Nodit.C76_translate_undo_wrapping` | Quot.sound, propext |
| C76 | `Nodit.C76_width_wrapping` | Classical.choice, Quot.sound, propext |
| C77 | `Nodit.C77_range_bounds_mean_the_points` | propext |
| C77 | `Nodit.C77_select_from_btreemap` | Classical.choice, Quot.sound, propext |
| C78 | `Nodit.C78_undisturbed` | Classical.choice, Quot.sound, propext |
| C78 | `Nodit.C78_crash_leaves` | Classical.choice, Quot.sound, propext |
| C78 | `Nodit.C78_history` | Classical.choice, Quot.sound, propext |
| C78 | `Nodit.C78_as_if_built` | Classical.choice, Quot.sound, propext |
| C78 | `Nodit.C78_nothing_invented` | Classical.choice, Quot.sound, propext |
| C78 | `Nodit.C78_point_outside_the_cut_can_be_lost` | Classical.choice, Quot.sound, propext |
| C78 | `Nodit.C78_set_undisturbed` | Classical.choice, Quot.sound, propext |
| C78 | `Nodit.C78_set_history` | Classical.choice, Quot.sound, propext |
| C79 | `Nodit.C79_undisturbed` | Classical.choice, Quot.sound, propext |
| C79 | `Nodit.C79_crash_leaves` | Classical.choice, Quot.sound, propext |
| C79 | `Nodit.C79_history` | Classical.choice, Quot.sound, propext |
| C79 | `Nodit.C79_append` | Classical.choice, Quot.sound, propext |
| C79 | `Nodit.C79_hole_swallows_inserts` | Classical.choice, Quot.sound, propext |
| C80 | `Nodit.C80_undisturbed` | Classical.choice, Quot.sound, propext |
| C80 | `Nodit.C80_refines` | Classical.choice, Quot.sound, propext |
| C80 | `Nodit.C80_well_formed` | Classical.choice, Quot.sound, propext |
| C80 | `Nodit.C80_only_cut` | propext |
| C80 | `Nodit.C80_cut_interrupted` | Classical.choice, Quot.sound, propext |
| C80 | `Nodit.C80_counted_twice` | Classical.choice, Quot.sound, propext |
| C81 | `Nodit.C81_call_growth` | Classical.choice, Quot.sound, propext |
| C81 | `Nodit.C81_history_growth` | Classical.choice, Quot.sound, propext |
| C81 | `Nodit.C81_finite_points` | Classical.choice, Quot.sound, propext |
| C81 | `Nodit.C81_gap_count` | Classical.choice, Quot.sound, propext |
| C81 | `Nodit.C81_gqdit_size` | Classical.choice, Quot.sound, propext |
| C81 | `Nodit.C81_zosdit_size` | Classical.choice, Quot.sound, propext |
| C81 | `Nodit.C81_set_growth` | Classical.choice, Quot.sound, propext |
| C81 | `Nodit.C81_set_history` | Classical.choice, Quot.sound, propext |
| C82 | `Nodit.C82_cut_interval` | Classical.choice, Quot.sound, propext |
| C82 | `Nodit.C82_config` | Classical.choice, Quot.sound, propext |
| C82 | `Nodit.C82_sorted_config` | Classical.choice, Quot.sound, propext |
| C82 | `Nodit.C82_sorted_config_mislabels` | Classical.choice, Quot.sound, propext |
| C83 | `Nodit.C83_each_element_once` | Quot.sound, propext |
| C83 | `Nodit.C83_map_iter` | Classical.choice, Quot.sound, propext |
| C83 | `Nodit.C83_map_overlapping` | Classical.choice, Quot.sound, propext |
| C83 | `Nodit.C83_set_iter` | Classical.choice, Quot.sound, propext |
| C83 | `Nodit.C83_set_overlapping` | Classical.choice, Quot.sound, propext |
| C83 | `Nodit.C83_zosdit_iter` | Classical.choice, Quot.sound, propext |
| C83 | `Nodit.C83_zosdit_into_iter` | Classical.choice, Quot.sound, propext |
| C83 | `Nodit.C83_zosdit_overlapping` | Classical.choice, Quot.sound, propext |
| C83 | `Nodit.C83_map_iter_mut` | Quot.sound, propext |
| C83 | `Nodit.C83_map_overlapping_mut` | Classical.choice, Quot.sound, propext |
| C84 | `Nodit.C84_gaps_untrimmed_calls` | Classical.choice, Quot.sound, propext |
| C84 | `Nodit.C84_results_one_by_one` | Classical.choice, Quot.sound, propext |
| C84 | `Nodit.C84_gaps_trimmed_calls` | Classical.choice, Quot.sound, propext |
| C84 | `Nodit.C84_one_item_suffices` | Classical.choice, Quot.sound, propext |
| C84 | `Nodit.C84_gqdit_calls` | Classical.choice, Quot.sound, propext |
| C85 | `Nodit.C85_identifier_is_a_set` | Classical.choice, Quot.sound, propext |
| C85 | `Nodit.C85_gaps_no_identifier` | Classical.choice, Quot.sound, propext |
| C85 | `Nodit.C85_gaps_with_identifier` | Classical.choice, Quot.sound, propext |
| C86 | `Nodit.C86_queries` | Classical.choice, Quot.sound, propext |
| C86 | `Nodit.C86_insert` | Classical.choice, Quot.sound, propext |
| C86 | `Nodit.C86_cut` | Classical.choice, Quot.sound, propext |
| C86 | `Nodit.C86_from_iter` | Classical.choice, Quot.sound, propext |
| C87 | `Nodit.C87_nodit_map` | Classical.choice, Quot.sound, propext |
| C87 | `Nodit.C87_nodit_set` | Classical.choice, Quot.sound, propext |
| C87 | `Nodit.C87_zosdit_map` | Quot.sound, propext |
| C87 | `Nodit.C87_gqdit` | Classical.choice, Quot.sound, propext |
| C87 | `Nodit.C87_gaps_need_invalid_to_stay_invalid` | Classical.choice, Quot.sound, propext |
| C87 | `Nodit.C87_nodit_set_history` | Classical.choice, Quot.sound, propext |
| C88 | `Nodit.C88_nodit_map` | Classical.choice, Quot.sound, propext |
| C88 | `Nodit.C88_zosdit_map` | Quot.sound, propext |
| C88 | `Nodit.C88_gqdit` | Classical.choice, Quot.sound, propext |
| C89 | `Nodit.C89_nodit_map_eq` | Classical.choice, Quot.sound, propext |
| C89 | `Nodit.C89_nodit_map_congruence` | Classical.choice, Quot.sound, propext |
| C89 | `Nodit.C89_nodit_set_congruence` | Classical.choice, Quot.sound, propext |
| C89 | `Nodit.C89_zosdit_map_congruence` | Classical.choice, Quot.sound, propext |
| C89 | `Nodit.C89_gqdit_congruence` | Classical.choice, Quot.sound, propext |
| C89 | `Nodit.C89_nodit_map_eq_iff_lookups` | Classical.choice, Quot.sound, propext |
| C89 | `Nodit.C89_zosdit_map_eq_iff` | Classical.choice, Quot.sound, propext |
| C89 | `Nodit.C89_zosdit_map_eq_iff_iter` | Classical.choice, Quot.sound, propext |
| C89 | `Nodit.C89_nodit_set_eq` | Classical.choice, Quot.sound, propext |
| C89 | `Nodit.C89_gqdit_eq` | Classical.choice, Quot.sound, propext |
| C89 | `Nodit.C89_zosdit_map_eq` | Classical.choice, Quot.sound, propext |
| C89 | `Nodit.C89_nodit_set_eq_iff_lookups` | Classical.choice, Quot.sound, propext |
| C89 | `Nodit.C89_gqdit_eq_iff_lookups` | Classical.choice, Quot.sound, propext |
| C89 | `Nodit.C89_zosdit_map_equal_entries_unequal` | Classical.choice, Quot.sound, propext |
| C89 | `Nodit.C89_nodit_set_history` | Classical.choice, Quot.sound, propext |
| C89 | `Nodit.C89_equal_ends_needed` | Classical.choice, Quot.sound, propext |
| C90 | `Nodit.C90_map_errors_exact` | Classical.choice, Quot.sound, propext |
| C90 | `Nodit.C90_seq_errors_exact` | Quot.sound, propext |
| C90 | `Nodit.C90_map_exact` | Quot.sound, propext |
| C90 | `Nodit.C90_seq_exact` | Quot.sound, propext |
| C90 | `Nodit.C90_round_trip` | Classical.choice, Quot.sound, propext |
| C90 | `Nodit.C90_serialized_form` | none |
| C90 | `Nodit.C90_not_validated` | propext |
| C91 | `Nodit.C91_nodit_set` | Classical.choice, Quot.sound, propext |
| C91 | `Nodit.C91_nodit_set_shapes` | Classical.choice, Quot.sound, propext |
| C91 | `Nodit.C91_nodit_map` | Classical.choice, Quot.sound, propext |
| C91 | `Nodit.C91_nodit_map_shapes` | Classical.choice, Quot.sound, propext |
| C91 | `Nodit.C91_gqdit` | Classical.choice, Quot.sound, propext |
| C91 | `Nodit.C91_zosdit_map` | Classical.choice, Quot.sound, propext |
| C91 | `Nodit.C91_zosdit_map_no_cut` | Classical.choice, Quot.sound, propext |
| C91 | `Nodit.Demo.C91_zosdit_shape_visible` | Classical.choice, Quot.sound, propext |
| C92 | `Nodit.C92_unaffected_entry_stays` | Classical.choice, Quot.sound, propext |
| C92 | `Nodit.C92_uncovered_point_stays` | Classical.choice, Quot.sound, propext |
| C92 | `Nodit.C92_covered_point_stays` | Classical.choice, Quot.sound, propext |
| C93 | `Nodit.C93_clients_do_not_observe_each_other` | Classical.choice, Quot.sound, propext |
| C93 | `Nodit.C93_all_schedules_agree` | Classical.choice, Quot.sound, propext |
| C93 | `Nodit.C93_touching_regions` | Classical.choice, Quot.sound, propext |
| C93 | `Nodit.C93_set_clients_do_not_observe_each_other` | Classical.choice, Quot.sound, propext |
| C93 | `Nodit.C93_set_all_schedules_agree` | Classical.choice, Quot.sound, propext |
| C93 | `Nodit.C93_set_touching_regions` | Classical.choice, Quot.sound, propext |
| C94 | `Nodit.C94_full_refuted` | Classical.choice, Quot.sound, propext |
| C94 | `Nodit.C94_documented_calls_partial` | Classical.choice, Quot.sound, propext |
| C94 | `Nodit.C94_unaffected_entries_stay` | Classical.choice, Quot.sound, propext |
| C94 | `Nodit.C94_inserting_clients_partial` | Classical.choice, Quot.sound, propext |
| C94 | `Nodit.C94_far_entry_hides_lookup` | Classical.choice, Quot.sound, propext |
| C94 | `Nodit.C94_far_entry_stops_cut` | Classical.choice, Quot.sound, propext |
| C95 | `Nodit.C95_any_points` | Classical.choice, Quot.sound, propext |
| C95 | `Nodit.C95_covered_point` | Classical.choice, Quot.sound, propext |
| C95 | `Nodit.C95_uncovered_point` | Classical.choice, Quot.sound, propext |
| C95 | `Nodit.C95_lookup` | Classical.choice, Quot.sound, propext |
| C95 | `Nodit.C95_zosdit_map` | Classical.choice, Quot.sound, propext |
| C95 | `Nodit.Coarse.C95_neighbours_matter` | propext |
| C95 | `Nodit.C95_nodit_set` | Classical.choice, Quot.sound, propext |
| C96 | `Nodit.ZosditMap.C96_wrapping` | Classical.choice, Quot.sound, propext |
| C96 | `Nodit.ZosditMap.C96_checked` | Classical.choice, Quot.sound, propext |
| C96 | `Nodit.ZosditMap.C96_pushing_and_popping` | Classical.choice, Quot.sound, propext |
| C97 | `Nodit.C97_clients_do_not_observe_each_other` | Classical.choice, Quot.sound, propext |
| C97 | `Nodit.C97_all_schedules_agree` | Classical.choice, Quot.sound, propext |
| C97 | `Nodit.C97_gaps` | Classical.choice, Quot.sound, propext |
| C98 | `Nodit.C98_nodit_clone_count` | Classical.choice, Quot.sound, propext |
| C98 | `Nodit.C98_zosdit_clone_count` | Classical.choice, Quot.sound, propext |
| C98 | `Nodit.C98_nodit_history` | Classical.choice, Quot.sound, propext |
| C98 | `Nodit.C98_nodit_faithful_clone` | Classical.choice, Quot.sound, propext |
| C98 | `Nodit.C98_zosdit_history` | Quot.sound, propext |
| C98 | `Nodit.C98_zosdit_faithful_clone` | Quot.sound, propext |
| C98 | `Nodit.C98_nodit_cut` | Classical.choice, Quot.sound, propext |
| C98 | `Nodit.C98_nodit_cut_whole_entries` | Classical.choice, Quot.sound, propext |
| C98 | `Nodit.C98_nodit_insert_overwrite` | Classical.choice, Quot.sound, propext |
| C98 | `Nodit.C98_zosdit_cut` | Classical.choice, Quot.sound, propext |
| C99 | `Nodit.C99_nodit_map_programs` | Classical.choice, Quot.sound, propext |
| C99 | `Nodit.C99_nodit_set_programs` | Classical.choice, Quot.sound, propext |
| C99 | `Nodit.C99_zosdit_map_programs` | Classical.choice, Quot.sound, propext |
| C99 | `Nodit.C99_gqdit_programs` | Classical.choice, Quot.sound, propext |
| C99 | `Nodit.C99_copies_identical` | Classical.choice, Quot.sound, propext |
| C99 | `Nodit.C99_clone_runs` | propext |
| C99 | `Nodit.C99_zosdit_clone_runs` | propext |
| C99 | `Nodit.C99_gqdit_clone_runs` | Classical.choice, Quot.sound, propext |
| C100 | `Nodit.C100_union` | Classical.choice, Quot.sound, propext |
| C100 | `Nodit.C100_difference` | Classical.choice, Quot.sound, propext |
| C100 | `Nodit.C100_intersection` | Classical.choice, Quot.sound, propext |
| C100 | `Nodit.C100_intersection_from_pieces` | Classical.choice, Quot.sound, propext |
| C100 | `Nodit.C100_union_canonical` | Classical.choice, Quot.sound, propext |
| C100 | `Nodit.C100_union_commutes` | Classical.choice, Quot.sound, propext |
| C100 | `Nodit.C100_overlay` | Classical.choice, Quot.sound, propext |
| C100 | `Nodit.C100_overlay_map` | Classical.choice, Quot.sound, propext |
| C100 | `Nodit.C100_erase` | Classical.choice, Quot.sound, propext |
| C100 | `Nodit.C100_restrict` | Classical.choice, Quot.sound, propext |
| C101 | `Nodit.C101_bookings_never_collide` | Classical.choice, Quot.sound, propext |
| C101 | `Nodit.C101_free_intervals_can_be_booked` | Classical.choice, Quot.sound, propext |
| C101 | `Nodit.C101_cancelled_can_be_rebooked` | Classical.choice, Quot.sound, propext |
| C101 | `Nodit.C101_one_owner_per_point` | Classical.choice, Quot.sound, propext |
| C101 | `Nodit.C101_owner_is_offered` | Classical.choice, Quot.sound, propext |
| C102 | `Nodit.C102_eq_iff_same_points` | Quot.sound, propext |
| C102 | `Nodit.C102_eq_congruence` | propext |
| C102 | `Nodit.C102_hash` | propext |
| C102 | `Nodit.C102_inclusive_exclusive` | propext |
| C103 | `Nodit.C103_drain` | Classical.choice, Quot.sound, propext |
| C103 | `Nodit.C103_drain_takes_all` | Classical.choice, Quot.sound, propext |
| C103 | `Nodit.C103_cut_twice` | Classical.choice, Quot.sound, propext |
| C104 | `Nodit.C104_translation` | Classical.choice, Quot.sound, propext |
| C104 | `Nodit.C104_nodit_map` | Classical.choice, Quot.sound, propext |
| C104 | `Nodit.C104_nodit_set` | Classical.choice, Quot.sound, propext |
| C104 | `Nodit.C104_gqdit` | Classical.choice, Quot.sound, propext |
| C104 | `Nodit.C104_gqdit_panics` | Classical.choice, Quot.sound, propext |
| C104 | `Nodit.C104_zosdit_map` | Classical.choice, Quot.sound, propext |
| C104 | `Nodit.C104_integers` | Classical.choice, Quot.sound, propext |
| C104 | `Nodit.C104_withInfinity` | propext |
| C104 | `Nodit.C104_intervals` | propext |
| C105 | `Nodit.C105_nodit_map` | Classical.choice, Quot.sound, propext |
| C105 | `Nodit.C105_nodit_set` | Classical.choice, Quot.sound, propext |
| C105 | `Nodit.C105_gqdit` | Classical.choice, Quot.sound, propext |
| C105 | `Nodit.C105_integers` | Classical.choice, Quot.sound, propext |
| C105 | `Nodit.C105_intervals` | propext |
| C105 | `Nodit.C105_zosdit_map_not_symmetric` | Classical.choice, Quot.sound, propext |
| C106 | `Nodit.C106_values` | Classical.choice, Quot.sound, propext |
| C106 | `Nodit.C106_points` | Classical.choice, Quot.sound, propext |
| C106 | `Nodit.C106_bound` | Classical.choice, Quot.sound, propext |
| C106 | `Nodit.C106_whole_entries` | Classical.choice, Quot.sound, propext |
| C106 | `Nodit.C106_set_points` | Classical.choice, Quot.sound, propext |
| C106 | `Nodit.C106_zosdit_values` | Classical.choice, Quot.sound, propext |
| C106 | `Nodit.C106_zosdit_bound` | Classical.choice, Quot.sound, propext |
| C106 | `Nodit.C106_zosdit_whole_values` | Classical.choice, Quot.sound, propext |
| C107 | `Nodit.C107_up_to_ord` | Classical.choice, Quot.sound, propext |
| C107 | `Nodit.C107_eq` | Classical.choice, Quot.sound, propext |
| C107 | `Nodit.C107_lawful` | Classical.choice, Quot.sound, propext |
| C107 | `Nodit.C107_reported_were_given` | Classical.choice, Quot.sound, propext |
| C107 | `Nodit.C107_contents` | Classical.choice, Quot.sound, propext |
| C107 | `Nodit.C107_insert_replaces_equal_identifiers_elsewhere` | Classical.choice, Quot.sound, propext |
| C107 | `Nodit.C107_equal_gqdits_may_report_differently` | Classical.choice, Quot.sound, propext |
| C108 | `Nodit.C108_nothing_there` | Classical.choice, Quot.sound, propext |
| C108 | `Nodit.C108_overlaps_foretells_inserts` | Classical.choice, Quot.sound, propext |
| C108 | `Nodit.C108_everything_there` | Classical.choice, Quot.sound, propext |
| C108 | `Nodit.C108_single_point` | Classical.choice, Quot.sound, propext |
| C108 | `Nodit.C108_found_by_all` | Classical.choice, Quot.sound, propext |
| C108 | `Nodit.C108_trimmed_gaps` | Classical.choice, Quot.sound, propext |
| C108 | `Nodit.C108_whole_domain` | Classical.choice, Quot.sound, propext |
| C108 | `Nodit.C108_wider_query` | Classical.choice, Quot.sound, propext |
| C108 | `Nodit.C108_set_nothing_there` | Classical.choice, Quot.sound, propext |
| C108 | `Nodit.C108_set_everything_there` | Classical.choice, Quot.sound, propext |
| C109 | `Nodit.C109_covered_and_free` | Classical.choice, Quot.sound, propext |
| C109 | `Nodit.C109_whole_domain` | Classical.choice, Quot.sound, propext |
| C109 | `Nodit.C109_merging_inserts_fill_gaps` | Classical.choice, Quot.sound, propext |
| C109 | `Nodit.C109_history` | Classical.choice, Quot.sound, propext |
| C109 | `Nodit.C109_history_bound` | Classical.choice, Quot.sound, propext |
| C109 | `Nodit.C109_zosdit_history` | Classical.choice, Quot.sound, propext |
| C109 | `Nodit.C109_gqdit` | Classical.choice, Quot.sound, propext |
| C109 | `Nodit.C109_integers` | Classical.choice, Quot.sound, propext |
| C110 | `Nodit.C110_zero_overlap_of_listed` | Classical.choice, Quot.sound, propext |
| C110 | `Nodit.C110_zero_overlap_foretells_insert` | Classical.choice, Quot.sound, propext |
| C110 | `Nodit.C110_point_lookup` | Classical.choice, Quot.sound, propext |
| C110 | `Nodit.C110_cut_what_is_listed` | Classical.choice, Quot.sound, propext |
| C110 | `Nodit.C110_wider_query` | Classical.choice, Quot.sound, propext |
| C110 | `Nodit.C110_whole_domain` | Classical.choice, Quot.sound, propext |
| C111 | `Nodit.C111_all_free` | Classical.choice, Quot.sound, propext |
| C111 | `Nodit.C111_nothing_free` | Classical.choice, Quot.sound, propext |
| C111 | `Nodit.C111_available_for` | Classical.choice, Quot.sound, propext |
| C111 | `Nodit.C111_nothing_to_do` | Classical.choice, Quot.sound, propext |
| C111 | `Nodit.C111_single_point` | Classical.choice, Quot.sound, propext |
| C111 | `Nodit.C111_no_and_with` | Classical.choice, Quot.sound, propext |
| C111 | `Nodit.C111_narrower_query` | Classical.choice, Quot.sound, propext |
| C112 | `Nodit.C112_map_questions` | Classical.choice, Quot.sound, propext |
| C112 | `Nodit.C112_remove_in_two_steps` | Classical.choice, Quot.sound, propext |
| C112 | `Nodit.C112_cut_pieces` | Classical.choice, Quot.sound, propext |
| C112 | `Nodit.C112_mut_in_two_steps` | Classical.choice, Quot.sound, propext |
| C112 | `Nodit.C112_set` | Classical.choice, Quot.sound, propext |
| C112 | `Nodit.C112_zosdit` | Classical.choice, Quot.sound, propext |
| C112 | `Nodit.C112_gqdit` | Classical.choice, Quot.sound, propext |
| C113 | `Nodit.C113_map_again` | Classical.choice, Quot.sound, propext |
| C113 | `Nodit.C113_map_history` | Classical.choice, Quot.sound, propext |
| C113 | `Nodit.C113_set_again` | Classical.choice, Quot.sound, propext |
| C113 | `Nodit.C113_gqdit_again` | Classical.choice, Quot.sound, propext |
| C113 | `Nodit.C113_zosdit_insert_again` | Classical.choice, Quot.sound, propext |
| C113 | `Nodit.C113_zosdit_cut_again` | Classical.choice, Quot.sound, propext |
| C114 | `Nodit.C114_strict_inserts` | Classical.choice, Quot.sound, propext |
| C114 | `Nodit.C114_fill` | Classical.choice, Quot.sound, propext |
| C114 | `Nodit.C114_zosdit_inserts` | Classical.choice, Quot.sound, propext |
| C115 | `Nodit.C115_map_questions` | Classical.choice, Quot.sound, propext |
| C115 | `Nodit.C115_map_history` | Classical.choice, Quot.sound, propext |
| C115 | `Nodit.C115_map_strict_insert` | Classical.choice, Quot.sound, propext |
| C115 | `Nodit.C115_set_history` | Classical.choice, Quot.sound, propext |
| C115 | `Nodit.C115_gqdit_history` | Classical.choice, Quot.sound, propext |
| C115 | `Nodit.C115_gqdit_gaps` | Classical.choice, Quot.sound, propext |
| C115 | `Nodit.C115_zosdit` | Classical.choice, Quot.sound, propext |
| C115 | `Nodit.C115_hindered_inserts_differ` | Classical.choice, Quot.sound, propext |
| C116 | `Nodit.Crash.C116_map` | Quot.sound, propext |
| C116 | `Nodit.Crash.C116_set` | Quot.sound, propext |
| C116 | `Nodit.Crash.C116_gqdit` | Classical.choice, Quot.sound, propext |
| C116 | `Nodit.Crash.C116_append` | Classical.choice, Quot.sound, propext |
| C116 | `Nodit.Crash.C116_zosdit` | Quot.sound, propext |
| C116 | `Nodit.Crash.C116_map_one_at_a_time` | Classical.choice, Quot.sound, propext |
| C116 | `Nodit.Crash.C116_set_one_at_a_time` | Classical.choice, Quot.sound, propext |
| C116 | `Nodit.Crash.C116_gqdit_one_at_a_time` | Classical.choice, Quot.sound, propext |
| C116 | `Nodit.Crash.C116_append_one_at_a_time` | Classical.choice, Quot.sound, propext |
| C116 | `Nodit.Crash.C116_zosdit_one_at_a_time` | Classical.choice, Quot.sound, propext |
| C117 | `Nodit.C117_rollback` | Classical.choice, Quot.sound, propext |
| C117 | `Nodit.C117_exact` | Classical.choice, Quot.sound, propext |
| C117 | `Nodit.C117_merging_is_irreversible` | Classical.choice, Quot.sound, propext |
| C117 | `Nodit.C117_set_rollback` | Classical.choice, Quot.sound, propext |
| C117 | `Nodit.C117_set_exact` | Classical.choice, Quot.sound, propext |
| C117 | `Nodit.C117_set_merging_is_irreversible` | Classical.choice, Quot.sound, propext |
| C118 | `Nodit.C118_division` | Classical.choice, Quot.sound, propext |
| C118 | `Nodit.C118_division_seen` | Classical.choice, Quot.sound, propext |
| C118 | `Nodit.C118_set_division` | Classical.choice, Quot.sound, propext |
| C118 | `Nodit.C118_set_division_seen` | Classical.choice, Quot.sound, propext |
| C119 | `Nodit.Alloc.C119_alloc` | Classical.choice, Quot.sound, propext |
| C119 | `Nodit.Alloc.C119_history` | Classical.choice, Quot.sound, propext |
| C119 | `Nodit.Alloc.C119_reuse` | Classical.choice, Quot.sound, propext |
| C120 | `Nodit.RangeUpdate.C120_update` | Classical.choice, Quot.sound, propext |
| C120 | `Nodit.RangeUpdate.C120_history` | Classical.choice, Quot.sound, propext |
| C120 | `Nodit.RangeUpdate.C120_sums` | Classical.choice, Quot.sound, propext |
| C121 | `Nodit.Compact.C121_fewest` | Classical.choice, Quot.sound, propext |
| C121 | `Nodit.Compact.C121_compact` | Classical.choice, Quot.sound, propext |
| C121 | `Nodit.Compact.C121_rebuild` | Classical.choice, Quot.sound, propext |
| C121 | `Nodit.Compact.C121_set_fewest` | Classical.choice, Quot.sound, propext |
| C121 | `Nodit.Compact.C121_set_compact` | Classical.choice, Quot.sound, propext |
| C122 | `Nodit.Nearest.C122_next_free` | Classical.choice, Quot.sound, propext |
| C122 | `Nodit.Nearest.C122_prev_free` | Classical.choice, Quot.sound, propext |
| C122 | `Nodit.Nearest.C122_next_entry` | Classical.choice, Quot.sound, propext |
| C122 | `Nodit.Nearest.C122_prev_entry` | Classical.choice, Quot.sound, propext |
| C122 | `Nodit.Nearest.C122_gap_between` | Classical.choice, Quot.sound, propext |
| C123 | `Nodit.Exchange.C123_exchange` | Classical.choice, Quot.sound, propext |
| C123 | `Nodit.Exchange.C123_exchange_twice` | Classical.choice, Quot.sound, propext |
| C123 | `Nodit.Exchange.C123_exchange_whole` | Classical.choice, Quot.sound, propext |
| C123 | `Nodit.Exchange.C123_move` | Classical.choice, Quot.sound, propext |
| C124 | `Nodit.Replicas.C124_gqdit_replicas_converge` | Classical.choice, Quot.sound, propext |
| C124 | `Nodit.Replicas.C124_set_replicas_contents` | Classical.choice, Quot.sound, propext |
| C124 | `Nodit.Replicas.C124_set_replicas_converge` | Classical.choice, Quot.sound, propext |
| C125 | `Nodit.Durable.C125_map` | Classical.choice, Quot.sound, propext |
| C125 | `Nodit.Durable.C125_set` | Classical.choice, Quot.sound, propext |
| C125 | `Nodit.Durable.C125_gqdit` | Classical.choice, Quot.sound, propext |
| C125 | `Nodit.Durable.C125_zosdit` | Classical.choice, Quot.sound, propext |
| C125 | `Nodit.Durable.C125_zosdit_cut_reorders` | Classical.choice, Quot.sound, propext |
| C125 | `Nodit.Durable.C125_torn_snapshot` | Classical.choice, Quot.sound, propext |
| C126 | `Nodit.Walk.C126_walk` | Classical.choice, Quot.sound, propext |
| C127 | `Nodit.Join.C127_join` | Classical.choice, Quot.sound, propext |
| C128 | `Nodit.Shift.C128_shift` | Classical.choice, Quot.sound, propext |
| C128 | `Nodit.Shift.C128_shift_back` | Classical.choice, Quot.sound, propext |
| C129 | `Nodit.C129_append` | Classical.choice, Quot.sound, propext |
| C129 | `Nodit.C129_timeline` | Classical.choice, Quot.sound, propext |
| C129 | `Nodit.C129_lookup` | Classical.choice, Quot.sound, propext |
| C129 | `Nodit.C129_no_holes` | Classical.choice, Quot.sound, propext |
| C129 | `Nodit.C129_cut` | Classical.choice, Quot.sound, propext |
| C129 | `Nodit.C129_pop` | Classical.choice, Quot.sound, propext |
| C130 | `Nodit.Patch.C130_diff` | Classical.choice, Quot.sound, propext |
| C130 | `Nodit.Patch.C130_apply` | Classical.choice, Quot.sound, propext |
| C130 | `Nodit.Patch.C130_patch` | Classical.choice, Quot.sound, propext |
| C130 | `Nodit.Patch.C130_merge` | Classical.choice, Quot.sound, propext |
| C131 | `Nodit.Splice.C131_insert_space` | Classical.choice, Quot.sound, propext |
| C131 | `Nodit.Splice.C131_remove_space` | Classical.choice, Quot.sound, propext |
| C131 | `Nodit.Splice.C131_round_trip` | Classical.choice, Quot.sound, propext |
| C132 | `Nodit.Routing.C132_most_specific` | Classical.choice, Quot.sound, propext |
| C132 | `Nodit.Routing.C132_order` | Classical.choice, Quot.sound, propext |
| C133 | `Nodit.Rooms.C133_rooms` | Classical.choice, Quot.sound, propext |
| C133 | `Nodit.Rooms.C133_fewest` | Classical.choice, Quot.sound, propext |
| C133 | `Nodit.Rooms.C133_numbers` | Classical.choice, Quot.sound, propext |
| C134 | `Nodit.C134_map` | Classical.choice, Quot.sound, propext |
| C134 | `Nodit.C134_set` | Classical.choice, Quot.sound, propext |
| C134 | `Nodit.C134_set_coalescing` | Classical.choice, Quot.sound, propext |
| C134 | `Nodit.C134_gqdit` | Classical.choice, Quot.sound, propext |
| C134 | `Nodit.C134_zosdit` | Classical.choice, Quot.sound, propext |
| C135 | `Nodit.Reassembly.C135_sound` | Classical.choice, Quot.sound, propext |
| C135 | `Nodit.Reassembly.C135_delivered` | Classical.choice, Quot.sound, propext |
| C135 | `Nodit.Reassembly.C135_report` | Classical.choice, Quot.sound, propext |
| C135 | `Nodit.Reassembly.C135_complete` | Classical.choice, Quot.sound, propext |
| C135 | `Nodit.Reassembly.C135_answered` | Classical.choice, Quot.sound, propext |
| C135 | `Nodit.Reassembly.C135_monotone` | Classical.choice, Quot.sound, propext |
| C135 | `Nodit.Reassembly.C135_acknowledge` | Classical.choice, Quot.sound, propext |
| C135 | `Nodit.Reassembly.C135_any_order` | Classical.choice, Quot.sound, propext |
| C136 | `Nodit.Locks.C136_history` | Classical.choice, Quot.sound, propext |
| C136 | `Nodit.Locks.C136_exclusion` | Classical.choice, Quot.sound, propext |
| C136 | `Nodit.Locks.C136_kept` | Classical.choice, Quot.sound, propext |
| C136 | `Nodit.Locks.C136_released` | Classical.choice, Quot.sound, propext |
| C137 | `Nodit.Groups.C137_groups` | Classical.choice, Quot.sound, propext |
| C137 | `Nodit.Groups.C137_lookup` | Classical.choice, Quot.sound, propext |
| C137 | `Nodit.Groups.C137_value` | Classical.choice, Quot.sound, propext |
| C137 | `Nodit.Groups.C137_len` | Classical.choice, Quot.sound, propext |
| C137 | `Nodit.Groups.C137_any_order` | Classical.choice, Quot.sound, propext |
| C137 | `Nodit.Groups.C137_set` | Classical.choice, Quot.sound, propext |
| C138 | `Nodit.Painter.C138_same` | Classical.choice, Quot.sound, propext |
| C138 | `Nodit.Painter.C138_visible` | Classical.choice, Quot.sound, propext |
| C138 | `Nodit.Painter.C138_pieces` | Classical.choice, Quot.sound, propext |
| C138 | `Nodit.Painter.C138_count` | Classical.choice, Quot.sound, propext |
| C139 | `Nodit.Paging.C139_pages` | Classical.choice, Quot.sound, propext |
| C139 | `Nodit.Paging.C139_complete` | Classical.choice, Quot.sound, propext |
| C139 | `Nodit.Paging.C139_still` | Classical.choice, Quot.sound, propext |
| C140 | `Nodit.Replay.C140_never_twice` | Classical.choice, Quot.sound, propext |
| C140 | `Nodit.Replay.C140_refused` | Classical.choice, Quot.sound, propext |
| C140 | `Nodit.Replay.C140_kept` | Classical.choice, Quot.sound, propext |
| C141 | `Nodit.Toggle.C141_toggle` | Classical.choice, Quot.sound, propext |
| C141 | `Nodit.Toggle.C141_odd` | Classical.choice, Quot.sound, propext |
| C141 | `Nodit.Toggle.C141_parity` | Classical.choice, Quot.sound, propext |
| C141 | `Nodit.Toggle.C141_twice` | Classical.choice, Quot.sound, propext |
| C141 | `Nodit.Toggle.C141_symmetric_difference` | Classical.choice, Quot.sound, propext |
| C142 | `Nodit.Greedy.C142_most` | Classical.choice, Quot.sound, propext |
| C142 | `Nodit.Greedy.C142_points` | Classical.choice, Quot.sound, propext |
| C143 | `Nodit.Cache.C143_served` | Classical.choice, Quot.sound, propext |
| C143 | `Nodit.Cache.C143_once` | Classical.choice, Quot.sound, propext |
| C144 | `Nodit.Txn.C144_transactions` | Classical.choice, Quot.sound, propext |
| C144 | `Nodit.Txn.C144_rollback` | propext |
| C145 | `Nodit.Busiest.C145_busiest` | Classical.choice, Quot.sound, propext |
| C146 | `Nodit.Shards.C146_shards` | Classical.choice, Quot.sound, propext |
| C147 | `Nodit.Tiles.C147_pieces` | Classical.choice, Quot.sound, propext |
| C148 | `Nodit.Kth.C148_kth` | Classical.choice, Quot.sound, propext |
| C149 | `Nodit.Slots.C149_most` | Classical.choice, Quot.sound, propext |
| C150 | `Nodit.Rooms.C150_rooms` | Classical.choice, Quot.sound, propext |
| C151 | `Nodit.Kth.C151_kth_free` | Classical.choice, Quot.sound, propext |
