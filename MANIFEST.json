{
 "claims": [
  {
   "property": "C01",
   "status": "proved",
   "theorems": [
    "Moledyn.Props.C01_new",
    "Moledyn.Props.C01_refines_slots",
    "Moledyn.Props.C01_never_panics",
    "Moledyn.Props.C01_sweep_is_live_slots",
    "Moledyn.Props.C01_live_sorted",
    "Moledyn.Props.C01_del_iff_live",
    "Moledyn.Props.C01_contents",
    "Moledyn.Props.C01_views_agree"
   ],
   "note": "Every history of calls; refinement to a machine on slot sets, contents included."
  },
  {
   "property": "C02",
   "status": "proved",
   "theorems": [
    "Moledyn.Props.C02_links_consistent"
   ],
   "note": "Chain of next from head and of prev from tail, after every history."
  },
  {
   "property": "C03",
   "status": "proved",
   "theorems": [
    "Moledyn.Props.C03_sweep_under_deletion",
    "Moledyn.Props.C03_each_survivor_once"
   ],
   "note": "Any deletions between the calls of one sweep."
  },
  {
   "property": "C04",
   "status": "proved",
   "theorems": [
    "Moledyn.Props.C04_push_visited",
    "Moledyn.Props.C04_push_after_last_is_missed"
   ],
   "note": "The full claim is false; the exact condition is proved and the counterexample is a theorem."
  },
  {
   "property": "C05",
   "status": "proved",
   "theorems": [
    "Moledyn.Props.C05_pair_sweep",
    "Moledyn.Props.C05_each_pair_once",
    "Moledyn.Props.C05_views_agree"
   ],
   "note": "Every reachable list."
  },
  {
   "property": "C06",
   "status": "proved",
   "theorems": [
    "Moledyn.Props.C06_merging_sweep",
    "Moledyn.Props.C06_each_surviving_pair_once"
   ],
   "note": "Every pattern of merges of the second member."
  },
  {
   "property": "C07",
   "status": "proved",
   "theorems": [
    "Moledyn.Props.C07_pairs_are_live",
    "Moledyn.Props.C07_self_pair",
    "Moledyn.Props.C07_missed_pair_first_member",
    "Moledyn.Props.C07_missed_pair_last_slot",
    "Moledyn.Props.C07_gentle_deletions",
    "Moledyn.Props.C07_gentle_each_pair_once"
   ],
   "note": "Safety without proviso; completeness with the proviso; three theorems show the proviso is needed."
  },
  {
   "property": "C08",
   "status": "proved",
   "theorems": [
    "Moledyn.Props.C08_agents",
    "Moledyn.Props.C08_merges_conserve_total",
    "Moledyn.Props.C08_merge_adds_sizes",
    "Moledyn.Props.C08_unguarded_merges_do_not_conserve"
   ],
   "note": "For every agent with sizes; C08_agents instantiates the crate's merging agent."
  },
  {
   "property": "C09",
   "status": "proved",
   "theorems": [
    "Moledyn.Props.C09_connect_all",
    "Moledyn.Props.C09_all_live_and_idempotent"
   ],
   "note": ""
  },
  {
   "property": "C10",
   "status": "proved",
   "theorems": [
    "Moledyn.Props.C10_dead_stays_dead"
   ],
   "note": ""
  },
  {
   "property": "C11",
   "status": "proved",
   "theorems": [
    "Moledyn.Props.C11_kth_call",
    "Moledyn.Props.C11_item_count",
    "Moledyn.Props.C11_no_limit",
    "Moledyn.Props.C11_negative_limit"
   ],
   "note": ""
  },
  {
   "property": "C12",
   "status": "proved",
   "theorems": [
    "Moledyn.Props.C12_const_clock",
    "Moledyn.Props.C12_exp_clock",
    "Moledyn.Props.C12_starts_at_zero"
   ],
   "note": "Tier C: every monotone rounding, so IEEE doubles (Rounding.double) without overflow."
  },
  {
   "property": "C13",
   "status": "proved",
   "theorems": [
    "Moledyn.Props.C13_schedule",
    "Moledyn.Props.C13_steps",
    "Moledyn.Props.C13_new_ratio"
   ],
   "note": ""
  },
  {
   "property": "C14",
   "status": "proved",
   "theorems": [
    "Moledyn.Props.C14_const_terminates",
    "Moledyn.Props.C14_exp_terminates",
    "Moledyn.Props.C14_exp_terminates_ratio",
    "Moledyn.Props.C14_zero_step_never_ends",
    "Moledyn.Props.C14_zero_exp_step_never_ends",
    "Moledyn.Props.C14_set_inc_can_make_it_endless",
    "Moledyn.Props.C14_rounding_can_stall"
   ],
   "note": "Exact arithmetic; see C65 for doubles."
  },
  {
   "property": "C15",
   "status": "proved",
   "theorems": [
    "Moledyn.Props.C15_const_renew",
    "Moledyn.Props.C15_exp_renew"
   ],
   "note": ""
  },
  {
   "property": "C16",
   "status": "proved",
   "theorems": [
    "Moledyn.Props.C16_same_times",
    "Moledyn.Props.C16_const_increments",
    "Moledyn.Props.C16_exp_increments",
    "Moledyn.Props.C16_first"
   ],
   "note": ""
  },
  {
   "property": "C17",
   "status": "proved",
   "theorems": [
    "Moledyn.Props.C17_constructors",
    "Moledyn.Props.C17_setters_reject",
    "Moledyn.Props.C17_set_tmax_effect",
    "Moledyn.Props.C17_nan_accepted"
   ],
   "note": ""
  },
  {
   "property": "C18",
   "status": "proved",
   "theorems": [
    "Moledyn.Props.C18_ratio",
    "Moledyn.Props.C18_short_blocks",
    "Moledyn.Props.C18_claim_false"
   ],
   "note": "Claim false as stated; exact ratio and counterexample proved."
  },
  {
   "property": "C19",
   "status": "proved",
   "theorems": [
    "Moledyn.Props.C19_accepted_is_inside",
    "Moledyn.Props.C19_exact_and_first_order",
    "Moledyn.Props.C19_inclusion_meaning",
    "Moledyn.Props.C19_inside_has_dimension",
    "Moledyn.Props.C19_nan_is_inside"
   ],
   "note": "Tier A: any arithmetic, NaN included."
  },
  {
   "property": "C20",
   "status": "proved",
   "theorems": [
    "Moledyn.Props.C20_cube_image",
    "Moledyn.Props.C20_images"
   ],
   "note": ""
  },
  {
   "property": "C21",
   "status": "proved",
   "theorems": [
    "Moledyn.Props.C21_sphere_image"
   ],
   "note": ""
  },
  {
   "property": "C22",
   "status": "proved",
   "theorems": [
    "Moledyn.Props.C22_cylinder_image"
   ],
   "note": ""
  },
  {
   "property": "C23",
   "status": "proved",
   "theorems": [
    "Moledyn.Props.C23_inside_is_addition",
    "Moledyn.Props.C23_outside_is_not_addition"
   ],
   "note": "Tier A."
  },
  {
   "property": "C24",
   "status": "proved",
   "theorems": [
    "Moledyn.Props.C24_inclusion_dimension",
    "Moledyn.Props.C24_check_bc_dimension",
    "Moledyn.Props.C24_to_vec_dimension"
   ],
   "note": ""
  },
  {
   "property": "C25",
   "status": "proved",
   "theorems": [
    "Moledyn.Props.C25_claim_false",
    "Moledyn.Props.C25_rejected_is_outside"
   ],
   "note": "Claim false; what holds is proved."
  },
  {
   "property": "C26",
   "status": "proved",
   "theorems": [
    "Moledyn.Props.C26_cube",
    "Moledyn.Props.C26_cube_rounded",
    "Moledyn.Props.C26_sphere",
    "Moledyn.Props.C26_sphere_to_vec",
    "Moledyn.Props.C26_cylinder",
    "Moledyn.Props.C26_cylinder_rounded",
    "Moledyn.Props.C26_cylinder_to_vec_claim_false",
    "Moledyn.Props.C26_cylinder_to_vec_bound",
    "Moledyn.Props.C26_sphere_may_loop"
   ],
   "note": "Exact arithmetic and, for cube and cylinder, every monotone rounding; false for the cylinder's to_vec (theorem)."
  },
  {
   "property": "C27",
   "status": "proved",
   "theorems": [
    "Moledyn.Props.C27_cube_and_sphere",
    "Moledyn.Props.C27_cylinder_iff",
    "Moledyn.Props.C27_cylinder_claim_false"
   ],
   "note": "Exact characterisation for cylinders."
  },
  {
   "property": "C28",
   "status": "proved",
   "theorems": [
    "Moledyn.Props.C28_exact_reflection"
   ],
   "note": ""
  },
  {
   "property": "C29",
   "status": "proved",
   "theorems": [
    "Moledyn.Props.C29_defined_iff_same_dim",
    "Moledyn.Props.C29_distance_is_norm_of_difference",
    "Moledyn.Props.C29_euclidean",
    "Moledyn.Props.C29_metric",
    "Moledyn.Props.C29_cauchy_schwarz",
    "Moledyn.Props.C29_norm",
    "Moledyn.Props.C29_symmetric_under_rounding",
    "Moledyn.Props.C29_taxi",
    "Moledyn.Props.C29_lattice_distance"
   ],
   "note": ""
  },
  {
   "property": "C30",
   "status": "proved",
   "theorems": [
    "Moledyn.Props.C30_add_sub_coordinatewise",
    "Moledyn.Props.C30_in_place_agree",
    "Moledyn.Props.C30_in_place_unequal",
    "Moledyn.Props.C30_add_then_sub",
    "Moledyn.Props.C30_clear"
   ],
   "note": ""
  },
  {
   "property": "C31",
   "status": "proved",
   "theorems": [
    "Moledyn.Props.C31_parse_printed",
    "Moledyn.Props.C31_display_roundtrip",
    "Moledyn.Props.C31_usize_faithful"
   ],
   "note": ""
  },
  {
   "property": "C32",
   "status": "proved",
   "theorems": [
    "Moledyn.Props.C32_never_rejects",
    "Moledyn.Props.C32_garbage_becomes_default"
   ],
   "note": "Claim false; exact behaviour proved."
  },
  {
   "property": "C33",
   "status": "proved",
   "theorems": [
    "Moledyn.Props.C33_open_ball",
    "Moledyn.Props.C33_dimension",
    "Moledyn.Props.C33_degenerate"
   ],
   "note": ""
  },
  {
   "property": "C34",
   "status": "proved",
   "theorems": [
    "Moledyn.Props.C34_standard",
    "Moledyn.Props.C34_nonstandard_adds",
    "Moledyn.Props.C34_uniform_range",
    "Moledyn.Props.C34_consecutive"
   ],
   "note": ""
  },
  {
   "property": "C35",
   "status": "proved",
   "theorems": [
    "Moledyn.Props.C35_exponential",
    "Moledyn.Props.C35_lennard_jones",
    "Moledyn.Props.C35_signs"
   ],
   "note": "Derivatives in the sense of Mathlib's HasDerivAt."
  },
  {
   "property": "C36",
   "status": "proved",
   "theorems": [
    "Moledyn.Props.C36_independent",
    "Moledyn.Props.C36_merging",
    "Moledyn.Props.C36_exponential",
    "Moledyn.Props.C36_lennard_jones",
    "Moledyn.Props.C36_dimension_errors",
    "Moledyn.Props.C36_coincident"
   ],
   "note": ""
  },
  {
   "property": "C37",
   "status": "proved",
   "theorems": [
    "Moledyn.Props.C37_new_uniform",
    "Moledyn.Props.C37_renew_uniform",
    "Moledyn.Props.C37_systems_draw_inside",
    "Moledyn.Props.C37_box_draws_inside_rounded",
    "Moledyn.Props.C37_systems_outside_dim",
    "Moledyn.Props.C37_cylinder_claim_false"
   ],
   "note": "False for cylinders (theorem)."
  },
  {
   "property": "C38",
   "status": "proved",
   "theorems": [
    "Moledyn.Props.C38_history",
    "Moledyn.Props.C38_size_is_one_plus_sum",
    "Moledyn.Props.C38_coefficient_forgets_D0",
    "Moledyn.Props.C38_levy_error_after_change"
   ],
   "note": ""
  },
  {
   "property": "C39",
   "status": "proved",
   "theorems": [
    "Moledyn.Props.C39_random_move",
    "Moledyn.Props.C39_variants_agree"
   ],
   "note": ""
  },
  {
   "property": "C40",
   "status": "proved",
   "theorems": [
    "Moledyn.Props.C40_new",
    "Moledyn.Props.C40_convert_from",
    "Moledyn.Props.C40_uniform_converted_not_ready",
    "Moledyn.Props.C40_renew_leaves_interaction_stale",
    "Moledyn.Props.C40_classification"
   ],
   "note": ""
  },
  {
   "property": "C41",
   "status": "proved",
   "theorems": [
    "Moledyn.Props.C41_agent_type",
    "Moledyn.Props.C41_target_type",
    "Moledyn.Props.C41_move_type",
    "Moledyn.Props.C41_move_type_panics_iff",
    "Moledyn.Props.C41_init_type",
    "Moledyn.Props.C41_init_type_empty",
    "Moledyn.Props.C41_init_type_failures",
    "Moledyn.Props.C41_interact_type",
    "Moledyn.Props.C41_interact_type_panics_iff",
    "Moledyn.Props.C41_system_type",
    "Moledyn.Props.C41_system_type_zero",
    "Moledyn.Props.C41_system_type_panics_iff",
    "Moledyn.Props.C41_boundary_cond",
    "Moledyn.Props.C41_boundary_cond_panics_iff",
    "Moledyn.Props.C41_time_type",
    "Moledyn.Props.C41_time_type_short",
    "Moledyn.Props.C41_time_type_panics_iff"
   ],
   "note": ""
  },
  {
   "property": "C42",
   "status": "proved",
   "theorems": [
    "Moledyn.Props.C42_names_not_checked",
    "Moledyn.Props.C42_reads_back",
    "Moledyn.Props.C42_colon_never_reads_back",
    "Moledyn.Props.C42_systems",
    "Moledyn.Props.C42_targets",
    "Moledyn.Props.C42_agents",
    "Moledyn.Props.C42_clocks",
    "Moledyn.Props.C42_simulations",
    "Moledyn.Props.C42_cylinder_and_mixed_never",
    "Moledyn.Props.C42_colon_in_path_never",
    "Moledyn.Props.C42_truncated",
    "Moledyn.Props.C42_consumes",
    "Moledyn.Props.C42_file"
   ],
   "note": "Round trip under hypotheses on the number format, with instances."
  },
  {
   "property": "C43",
   "status": "proved",
   "theorems": [
    "Moledyn.Props.C43_time_words",
    "Moledyn.Props.C43_vec_words",
    "Moledyn.Props.C43_time_words_reach",
    "Moledyn.Props.C43_vec_words_never",
    "Moledyn.Props.C43_fixed_words",
    "Moledyn.Props.C43_wrong_count",
    "Moledyn.Props.C43_wrong_count_code",
    "Moledyn.Props.C43_reads_words",
    "Moledyn.Props.C43_panics_iff",
    "Moledyn.Props.C43_counts",
    "Moledyn.Props.C43_setup_simulates",
    "Moledyn.Props.C43_setup_analyzes",
    "Moledyn.Props.C43_setup_refuses",
    "Moledyn.Props.C43_setup_panics",
    "Moledyn.Props.C43_shadowed",
    "Moledyn.Props.C43_crate_not_shadowed",
    "Moledyn.Props.C43_fixed",
    "Moledyn.Props.C43_info_order"
   ],
   "note": ""
  },
  {
   "property": "C44",
   "status": "proved",
   "theorems": [
    "Moledyn.Props.C44_tests",
    "Moledyn.Props.C44_exactly_one",
    "Moledyn.Props.C44_eq_iff",
    "Moledyn.Props.C44_equivalence",
    "Moledyn.Props.C44_constructors",
    "Moledyn.Props.C44_syntax_errors_indistinguishable",
    "Moledyn.Props.C44_display_injective",
    "Moledyn.Props.C44_display_message",
    "Moledyn.Props.C44_texts"
   ],
   "note": ""
  },
  {
   "property": "C45",
   "status": "proved",
   "theorems": [
    "Moledyn.Props.C45_in_range",
    "Moledyn.Props.C45_rounded",
    "Moledyn.Props.C45_by_count",
    "Moledyn.Props.C45_num_bin_panics",
    "Moledyn.Props.C45_ratio_below_one_panics",
    "Moledyn.Props.C45_default"
   ],
   "note": ""
  },
  {
   "property": "C46",
   "status": "proved",
   "theorems": [
    "Moledyn.Props.C46_counts",
    "Moledyn.Props.C46_order",
    "Moledyn.Props.C46_two_goes",
    "Moledyn.Props.C46_vector",
    "Moledyn.Props.C46_vector_exact",
    "Moledyn.Props.C46_vector_arity"
   ],
   "note": ""
  },
  {
   "property": "C47",
   "status": "proved",
   "theorems": [
    "Moledyn.Props.C47_densities"
   ],
   "note": ""
  },
  {
   "property": "C48",
   "status": "proved",
   "theorems": [
    "Moledyn.Props.C48_mean_stddev",
    "Moledyn.Props.C48_draw_twice"
   ],
   "note": ""
  },
  {
   "property": "C49",
   "status": "proved",
   "theorems": [
    "Moledyn.Props.C49_process_clear",
    "Moledyn.Props.C49_process_claim_false",
    "Moledyn.Props.C49_clear",
    "Moledyn.Props.C49_clear_unallocated",
    "Moledyn.Props.C49_clear_vector"
   ],
   "note": "False for ProcessAnalysis (theorem)."
  },
  {
   "property": "C50",
   "status": "proved",
   "theorems": [
    "Moledyn.Props.C50_process",
    "Moledyn.Props.C50_empty_bin_nan"
   ],
   "note": ""
  },
  {
   "property": "C51",
   "status": "proved",
   "theorems": [
    "Moledyn.Props.C51_foreign_file_fatal",
    "Moledyn.Props.C51_groups",
    "Moledyn.Props.C51_succeeds_iff",
    "Moledyn.Props.C51_word_nonneg",
    "Moledyn.Props.C51_word_neg",
    "Moledyn.Props.C51_same_word_iff",
    "Moledyn.Props.C51_separates",
    "Moledyn.Props.C51_separates_nat",
    "Moledyn.Props.C51_saturates",
    "Moledyn.Props.C51_sign_collision",
    "Moledyn.Props.C51_sign",
    "Moledyn.Props.C51_equal_iff",
    "Moledyn.Props.C51_sim_ignored",
    "Moledyn.Props.C51_equal_iff_values",
    "Moledyn.Props.C51_not_recorded",
    "Moledyn.Props.C51_not_recorded_interacting",
    "Moledyn.Props.C51_names_exist",
    "Moledyn.Props.C51_names_missing",
    "Moledyn.Props.C51_pick_names",
    "Moledyn.Props.C51_pick_values",
    "Moledyn.Props.C51_time_group",
    "Moledyn.Props.C51_file_order",
    "Moledyn.Props.C51_from_file",
    "Moledyn.Props.C51_file_order_times",
    "Moledyn.Props.C51_file_order_rows",
    "Moledyn.Props.C51_file_order_processes",
    "Moledyn.Props.C51_zero_columns_order"
   ],
   "note": "The hasher is a parameter dh; statements hold for hashers that separate the words at hand."
  },
  {
   "property": "C52",
   "status": "proved",
   "theorems": [
    "Moledyn.Props.C52_every_step",
    "Moledyn.Props.C52_steps_end"
   ],
   "note": ""
  },
  {
   "property": "C53",
   "status": "proved",
   "theorems": [
    "Moledyn.Props.C53_pair_forces",
    "Moledyn.Props.C53_missing_buffer",
    "Moledyn.Props.C53_minus_gradient"
   ],
   "note": ""
  },
  {
   "property": "C54",
   "status": "proved",
   "theorems": [
    "Moledyn.Props.C54_clear_touches_live_only"
   ],
   "note": ""
  },
  {
   "property": "C55",
   "status": "proved",
   "theorems": [
    "Moledyn.Props.C55_time_rows",
    "Moledyn.Props.C55_time_log_rows",
    "Moledyn.Props.C55_time_rows_reach",
    "Moledyn.Props.C55_time_rows_dropped",
    "Moledyn.Props.C55_process_rows",
    "Moledyn.Props.C55_vector_rows",
    "Moledyn.Props.C55_vector_reach",
    "Moledyn.Props.C55_process_tail_dropped",
    "Moledyn.Props.C55_new_time",
    "Moledyn.Props.C55_new_time_zero",
    "Moledyn.Props.C55_new_panics",
    "Moledyn.Props.C55_new_endless"
   ],
   "note": ""
  },
  {
   "property": "C56",
   "status": "proved",
   "theorems": [
    "Moledyn.Props.C56_result_file_injective",
    "Moledyn.Props.C56_group_file_ignores_simulation",
    "Moledyn.Props.C56_group_file_injective",
    "Moledyn.Props.C56_group_members_may_differ",
    "Moledyn.Props.C56_same_type",
    "Moledyn.Props.C56_natFmt_underscoreless"
   ],
   "note": ""
  },
  {
   "property": "C57",
   "status": "proved",
   "theorems": [
    "Moledyn.Props.C57_merging",
    "Moledyn.Props.C57_independent"
   ],
   "note": ""
  },
  {
   "property": "C58",
   "status": "proved",
   "theorems": [
    "Moledyn.Props.C58_interacting",
    "Moledyn.Props.C58_ended",
    "Moledyn.Props.C58_prepare_failure",
    "Moledyn.Props.C58_ball_never_fails",
    "Moledyn.Props.C58_ball_exports"
   ],
   "note": "Tier A for the invariants, exact arithmetic for \"never fails in a ball\"."
  },
  {
   "property": "C59",
   "status": "proved",
   "theorems": [
    "Moledyn.Props.C59_sphere",
    "Moledyn.Props.C59_sphere_exact",
    "Moledyn.Props.C59_cube",
    "Moledyn.Props.C59_cylinder"
   ],
   "note": ""
  },
  {
   "property": "C60",
   "status": "proved",
   "theorems": [
    "Moledyn.Props.C60_cube",
    "Moledyn.Props.C60_cube_convert",
    "Moledyn.Props.C60_sphere",
    "Moledyn.Props.C60_cylinder",
    "Moledyn.Props.C60_cylinder_convert",
    "Moledyn.Props.C60_zero_radius",
    "Moledyn.Props.C60_cube_never_aborts",
    "Moledyn.Props.C60_sphere_never_aborts",
    "Moledyn.Props.C60_cylinder_never_aborts",
    "Moledyn.Props.C60_target",
    "Moledyn.Props.C60_independent",
    "Moledyn.Props.C60_merging",
    "Moledyn.Props.C60_exponential",
    "Moledyn.Props.C60_lennard_jones",
    "Moledyn.Props.C60_new"
   ],
   "note": ""
  },
  {
   "property": "C61",
   "status": "proved",
   "theorems": [
    "Moledyn.Props.C61_tangent_plane_rule",
    "Moledyn.Props.C61_agrees_to_first_order",
    "Moledyn.Props.C61_grazing_moves_thrown_out"
   ],
   "note": ""
  },
  {
   "property": "C62",
   "status": "proved",
   "theorems": [
    "Moledyn.Props.C62_fresh_directory",
    "Moledyn.Props.C62_directory_found",
    "Moledyn.Props.C62_writes_inside",
    "Moledyn.Props.C62_overwrites_nothing",
    "Moledyn.Props.C62_directories_ignored",
    "Moledyn.Props.C62_missing_directory",
    "Moledyn.Props.C62_one_file_each"
   ],
   "note": ""
  },
  {
   "property": "C63",
   "status": "proved",
   "theorems": [
    "Moledyn.Props.C63_time_line",
    "Moledyn.Props.C63_process_line",
    "Moledyn.Props.C63_vector_line",
    "Moledyn.Props.C63_title",
    "Moledyn.Props.C63_title_runs_together",
    "Moledyn.Props.C63_table",
    "Moledyn.Props.C63_time_table",
    "Moledyn.Props.C63_process_table",
    "Moledyn.Props.C63_vector_table"
   ],
   "note": ""
  },
  {
   "property": "C64",
   "status": "proved",
   "theorems": [
    "Moledyn.Props.C64_time_results"
   ],
   "note": "First-passage analysis; exact arithmetic for the numbers, any number format that reads back what it writes."
  },
  {
   "property": "C65",
   "status": "proved",
   "theorems": [
    "Moledyn.Props.C65_drift",
    "Moledyn.Props.C65_ends",
    "Moledyn.Props.C65_stands_still",
    "Moledyn.Props.C65_never_ends"
   ],
   "note": "IEEE rounding to nearest even with 53 bits and gradual underflow; overflow not modelled."
  },
  {
   "property": "C66",
   "status": "proved",
   "theorems": [
    "Moledyn.Props.C66_first_passage",
    "Moledyn.Props.C66_time_is_turns",
    "Moledyn.Props.C66_buffer_makes_no_difference",
    "Moledyn.Props.C66_wrong_buffer_refused",
    "Moledyn.Props.C66_fastest",
    "Moledyn.Props.C66_no_searcher",
    "Moledyn.Props.C66_free_diffusion",
    "Moledyn.Props.C66_shipped_free_diffusion_fails"
   ],
   "note": ""
  },
  {
   "property": "C67",
   "status": "proved",
   "theorems": [
    "Moledyn.Props.C67_mean",
    "Moledyn.Props.C67_mean_is_average",
    "Moledyn.Props.C67_first_failure",
    "Moledyn.Props.C67_independent_run",
    "Moledyn.Props.C67_merging_run"
   ],
   "note": ""
  },
  {
   "property": "C68",
   "status": "proved",
   "theorems": [
    "Moledyn.Props.C68_no_memory",
    "Moledyn.Props.C68_every_ensemble"
   ],
   "note": ""
  },
  {
   "property": "C69",
   "status": "proved",
   "theorems": [
    "Moledyn.Props.C69_steps_made",
    "Moledyn.Props.C69_counting_clock",
    "Moledyn.Props.C69_large_n",
    "Moledyn.Props.C69_mfpt_exp"
   ],
   "note": ""
  },
  {
   "property": "C70",
   "status": "proved",
   "theorems": [
    "Moledyn.Props.C70_no_memory",
    "Moledyn.Props.C70_lines",
    "Moledyn.Props.C70_program",
    "Moledyn.Props.C70_every_ensemble",
    "Moledyn.Props.C70_ball_all_lines",
    "Moledyn.Props.C70_main_limit"
   ],
   "note": ""
  },
  {
   "property": "C71",
   "status": "proved",
   "theorems": [
    "Moledyn.Props.C71_seed_value",
    "Moledyn.Props.C71_sets_apart",
    "Moledyn.Props.C71_user_seed",
    "Moledyn.Props.C71_negative_hash",
    "Moledyn.Props.C71_collision",
    "Moledyn.Props.C71_double_sets_apart"
   ],
   "note": ""
  },
  {
   "property": "C72",
   "status": "proved",
   "theorems": [
    "Moledyn.Props.C72_probability",
    "Moledyn.Props.C72_cube",
    "Moledyn.Props.C72_ball",
    "Moledyn.Props.C72_cylinder",
    "Moledyn.Props.C72_cylinder_outside"
   ],
   "note": ""
  },
  {
   "property": "C73",
   "status": "proved",
   "theorems": [
    "Moledyn.Props.C73_systems",
    "Moledyn.Props.C73_new",
    "Moledyn.Props.C73_renew",
    "Moledyn.Props.C73_many",
    "Moledyn.Props.C73_ensemble"
   ],
   "note": ""
  },
  {
   "property": "C74",
   "status": "proved",
   "theorems": [
    "Moledyn.Props.C74_move",
    "Moledyn.Props.C74_moments",
    "Moledyn.Props.C74_walk",
    "Moledyn.Props.C74_diffusion_mean",
    "Moledyn.Props.C74_diffusion_limit"
   ],
   "note": ""
  },
  {
   "property": "C75",
   "status": "proved",
   "theorems": [
    "Moledyn.Props.C75_accepts",
    "Moledyn.Props.C75_blames",
    "Moledyn.Props.C75_count",
    "Moledyn.Props.C75_variables",
    "Moledyn.Props.C75_not_visible"
   ],
   "note": ""
  },
  {
   "property": "C76",
   "status": "proved",
   "theorems": [
    "Moledyn.Props.C76_extend",
    "Moledyn.Props.C76_index",
    "Moledyn.Props.C76_slices",
    "Moledyn.Props.C76_padded_not_read_back",
    "Moledyn.Props.C76_length_scale"
   ],
   "note": ""
  },
  {
   "property": "C77",
   "status": "proved",
   "theorems": [
    "Moledyn.Props.C77_search",
    "Moledyn.Props.C77_mean",
    "Moledyn.Props.C77_outcomes",
    "Moledyn.Props.C77_failure_bound",
    "Moledyn.Props.C77_ensemble",
    "Moledyn.Props.C77_success",
    "Moledyn.Props.C77_large_ensembles_fail",
    "Moledyn.Props.C77_systems",
    "Moledyn.Props.C77_walls",
    "Moledyn.Props.C77_safe_steps"
   ],
   "note": ""
  },
  {
   "property": "C78",
   "status": "proved",
   "theorems": [
    "Moledyn.Props.C78_process_results",
    "Moledyn.Props.C78_vector_results"
   ],
   "note": "Vector and process analyses; exact arithmetic for the numbers, any number format that reads back what it writes."
  },
  {
   "property": "C79",
   "status": "proved",
   "theorems": [
    "Moledyn.Props.C79_systems",
    "Moledyn.Props.C79_new_uniform",
    "Moledyn.Props.C79_renew_uniform"
   ],
   "note": ""
  },
  {
   "property": "C80",
   "status": "proved",
   "theorems": [
    "Moledyn.Props.C80_overview",
    "Moledyn.Props.C80_help",
    "Moledyn.Props.C80_shown",
    "Moledyn.Props.C80_names",
    "Moledyn.Props.C80_file_names",
    "Moledyn.Props.C80_analysis_names",
    "Moledyn.Props.C80_vector_analysis",
    "Moledyn.Props.C80_wanted",
    "Moledyn.Props.C80_texts",
    "Moledyn.Props.C80_analysis_texts",
    "Moledyn.Props.C80_examples"
   ],
   "note": ""
  },
  {
   "property": "C81",
   "status": "proved",
   "theorems": [
    "Moledyn.Props.C81_words",
    "Moledyn.Props.C81_usize",
    "Moledyn.Props.C81_move_type",
    "Moledyn.Props.C81_position",
    "Moledyn.Props.C81_init_type",
    "Moledyn.Props.C81_system_type",
    "Moledyn.Props.C81_boundary_cond",
    "Moledyn.Props.C81_time_type",
    "Moledyn.Props.C81_interact_type",
    "Moledyn.Props.C81_errors"
   ],
   "note": ""
  },
  {
   "property": "C82",
   "status": "proved",
   "theorems": [
    "Moledyn.Props.C82_by_size",
    "Moledyn.Props.C82_by_number",
    "Moledyn.Props.C82_tiny_window",
    "Moledyn.Props.C82_zero_bin_size"
   ],
   "note": ""
  },
  {
   "property": "C83",
   "status": "proved",
   "theorems": [
    "Moledyn.Props.C83_time_rows",
    "Moledyn.Props.C83_process_rows",
    "Moledyn.Props.C83_vector_rows",
    "Moledyn.Props.C83_summary_name"
   ],
   "note": ""
  },
  {
   "property": "C84",
   "status": "proved",
   "theorems": [
    "Moledyn.Props.C84_period",
    "Moledyn.Props.C84_seeds",
    "Moledyn.Props.C84_values",
    "Moledyn.Props.C84_equal_chances",
    "Moledyn.Props.C84_values_double",
    "Moledyn.Props.C84_open_interval"
   ],
   "note": ""
  },
  {
   "property": "C85",
   "status": "proved",
   "theorems": [
    "Moledyn.Props.C85_bounded",
    "Moledyn.Props.C85_returns",
    "Moledyn.Props.C85_round",
    "Moledyn.Props.C85_words",
    "Moledyn.Props.C85_sequence_fails"
   ],
   "note": ""
  },
  {
   "property": "C86",
   "status": "proved",
   "theorems": [
    "Moledyn.Props.C86_rooms",
    "Moledyn.Props.C86_searchers",
    "Moledyn.Props.C86_merging",
    "Moledyn.Props.C86_generator",
    "Moledyn.Props.C86_large_n",
    "Moledyn.Props.C86_tests"
   ],
   "note": ""
  },
  {
   "property": "C87",
   "status": "proved",
   "theorems": [
    "Moledyn.Props.C87_cube",
    "Moledyn.Props.C87_trajectory",
    "Moledyn.Props.C87_short_moves",
    "Moledyn.Props.C87_edge"
   ],
   "note": "IEEE rounding to nearest even with 53 bits and gradual underflow; overflow not modelled."
  },
  {
   "property": "C88",
   "status": "proved",
   "theorems": [
    "Moledyn.Props.C88_no_sample_lost",
    "Moledyn.Props.C88_bins_in_order",
    "Moledyn.Props.C88_bin_edges",
    "Moledyn.Props.C88_mean",
    "Moledyn.Props.C88_negative_variance"
   ],
   "note": "IEEE rounding to nearest even with 53 bits and gradual underflow; overflow not modelled; log2 is taken to be correctly rounded."
  },
  {
   "property": "C89",
   "status": "proved",
   "theorems": [
    "Moledyn.Props.C89_block_ok",
    "Moledyn.Props.C89_block_fails",
    "Moledyn.Props.C89_file_ok",
    "Moledyn.Props.C89_file_fails"
   ],
   "note": ""
  },
  {
   "property": "C90",
   "status": "proved",
   "theorems": [
    "Moledyn.Props.C90_norm",
    "Moledyn.Props.C90_distance",
    "Moledyn.Props.C90_inclusion",
    "Moledyn.Props.C90_find",
    "Moledyn.Props.C90_ball",
    "Moledyn.Props.C90_trajectory",
    "Moledyn.Props.C90_accepts",
    "Moledyn.Props.C90_edge"
   ],
   "note": "IEEE rounding to nearest even with 53 bits and gradual underflow; overflow not modelled; dimension at most 2^26, radius at least 2^-440."
  },
  {
   "property": "C91",
   "status": "proved",
   "theorems": [
    "Moledyn.Props.C91_bounded",
    "Moledyn.Props.C91_returns",
    "Moledyn.Props.C91_round"
   ],
   "note": "rand_distr's ziggurat over Double with tables as parameters (hypotheses DoubleTables, met by doubleTables); ln is the correctly rounded logarithm; overflow not modelled."
  },
  {
   "property": "C92",
   "status": "proved",
   "theorems": [
    "Moledyn.Props.C92_room",
    "Moledyn.Props.C92_searchers",
    "Moledyn.Props.C92_merging",
    "Moledyn.Props.C92_large_n",
    "Moledyn.Props.C92_generator",
    "Moledyn.Props.C92_crate",
    "Moledyn.Props.C92_disc_fails"
   ],
   "note": "Boxes with half side at least 2^-440, overflow not modelled; powf correctly rounded. The disc is a counterexample (C92_disc_fails)."
  },
  {
   "property": "C93",
   "status": "proved",
   "theorems": [
    "Moledyn.Props.C93_schedule",
    "Moledyn.Props.C93_ends",
    "Moledyn.Props.C93_never_ends",
    "Moledyn.Props.C93_stands_still",
    "Moledyn.Props.C93_simulation_clock"
   ],
   "note": "Tier C at Rounding.double (round to nearest even, 53 bits, gradual underflow, no overflow)."
  },
  {
   "property": "C94",
   "status": "proved",
   "theorems": [
    "Moledyn.Props.C94_product",
    "Moledyn.Props.C94_cylinder",
    "Moledyn.Props.C94_accepts",
    "Moledyn.Props.C94_trajectory"
   ],
   "note": "C94_product for every arithmetic in which a number is above L or at most L; the rest at Rounding.double (round to nearest even, 53 bits, gradual underflow, no overflow)."
  },
  {
   "property": "C95",
   "status": "proved",
   "theorems": [
    "Moledyn.Props.C95_clear_is_new",
    "Moledyn.Props.C95_cleared",
    "Moledyn.Props.C95_default_words",
    "Moledyn.Props.C95_cleared_reads_back",
    "Moledyn.Props.C95_cleared_converted",
    "Moledyn.Props.C95_cleared_clock_frozen"
   ],
   "note": "Any arithmetic and number format; the frozen clock in exact arithmetic."
  },
  {
   "property": "C96",
   "status": "proved",
   "theorems": [
    "Moledyn.Props.C96_positions",
    "Moledyn.Props.C96_datasets",
    "Moledyn.Props.C96_contract_claim_false",
    "Moledyn.Props.C96_equal_is_eq"
   ],
   "note": "Every arithmetic without NaN (exact, rounded). The contract of PartialOrd is refuted (C96_contract_claim_false) for every pair of set indices."
  },
  {
   "property": "C97",
   "status": "proved",
   "theorems": [
    "Moledyn.Props.C97_radial_vs_exact",
    "Moledyn.Props.C97_bound_is_sharp",
    "Moledyn.Props.C97_radial_vs_first_order",
    "Moledyn.Props.C97_exact_accepts_iff",
    "Moledyn.Props.C97_short_moves_refused",
    "Moledyn.Props.C97_comparison_is_vacuous",
    "Moledyn.Props.C97_exact_accepts_short",
    "Moledyn.Props.C97_exact_accepts_sharp",
    "Moledyn.Props.C97_realization",
    "Moledyn.Props.C97_exact_checks"
   ],
   "note": "Exact arithmetic. C97_exact_accepts_short/_sharp: which moves check_bc_exact accepts for certain; C97_exact_checks, C97_realization: the test programs."
  },
  {
   "property": "C98",
   "status": "proved",
   "theorems": [
    "Moledyn.Props.C98_file_on_disk",
    "Moledyn.Props.C98_finished_ensembles_kept",
    "Moledyn.Props.C98_data_cut",
    "Moledyn.Props.C98_cut_between_lines",
    "Moledyn.Props.C98_last_line_feed",
    "Moledyn.Props.C98_cut_number",
    "Moledyn.Props.C98_cut_number_stops",
    "Moledyn.Props.C98_header_cut",
    "Moledyn.Props.C98_header_cut_stops",
    "Moledyn.Props.C98_header_complete",
    "Moledyn.Props.C98_stopped_run",
    "Moledyn.Props.C98_stopped_in_header",
    "Moledyn.Props.C98_any_cut_happens",
    "Moledyn.Props.C98_restart_empties",
    "Moledyn.Props.C98_digit_lost",
    "Moledyn.Props.C98_wrong_result",
    "Moledyn.Props.C98_empty_group_nan"
   ],
   "note": "The buffer is that of the standard library's BufWriter (modelled in Model/OutFile for every capacity). Any arithmetic; NaN for empty groups in XF. C98_stopped_run and C98_stopped_in_header put the parts together: from the calls made to what the analysis sees."
  },
  {
   "property": "C99",
   "status": "proved",
   "theorems": [
    "Moledyn.Props.C99_moments",
    "Moledyn.Props.C99_mean_accuracy",
    "Moledyn.Props.C99_fastest"
   ],
   "note": "Exact arithmetic, ideal generator (IdealRng), the programs of tests/rts_n_searcher.rs and tests/single_ptl_rts.rs."
  },
  {
   "property": "C100",
   "status": "proved",
   "theorems": [
    "Moledyn.Props.C100_search",
    "Moledyn.Props.C100_found",
    "Moledyn.Props.C100_moments",
    "Moledyn.Props.C100_mean",
    "Moledyn.Props.C100_accuracy",
    "Moledyn.Props.C100_fastest",
    "Moledyn.Props.C100_systems",
    "Moledyn.Props.C100_cut_normal"
   ],
   "note": "Exact arithmetic; IndepRng with any distribution of the normal numbers that satisfies BoundedSpread; C100_cut_normal shows that normal numbers cut at any b > 0 do. The sequel of C77, where unbounded normal numbers make all large ensembles fail."
  },
  {
   "property": "C101",
   "status": "proved",
   "theorems": [
    "Moledyn.Props.C101_one_step_less",
    "Moledyn.Props.C101_lines",
    "Moledyn.Props.C101_zero",
    "Moledyn.Props.C101_start_ignored",
    "Moledyn.Props.C101_seed"
   ],
   "note": "Exact arithmetic (the two programs add up the time in a different order, so in double precision they differ by rounding as well)."
  },
  {
   "property": "C102",
   "status": "proved",
   "theorems": [
    "Moledyn.Props.C102_searcher",
    "Moledyn.Props.C102_fastest",
    "Moledyn.Props.C102_law",
    "Moledyn.Props.C102_reliable",
    "Moledyn.Props.C102_same_law"
   ],
   "note": "Exact arithmetic; the laws for ideal generators (C77) and for generators with bounded normal numbers (C100)."
  },
  {
   "property": "C103",
   "status": "proved",
   "theorems": [
    "Moledyn.Props.C103_rows",
    "Moledyn.Props.C103_left",
    "Moledyn.Props.C103_reported",
    "Moledyn.Props.C103_complete",
    "Moledyn.Props.C103_killed",
    "Moledyn.Props.C103_lost_table",
    "Moledyn.Props.C103_reading_fails",
    "Moledyn.Props.C103_reading_reported",
    "Moledyn.Props.C103_cut_row"
   ],
   "note": "For results shorter than the buffer, except C103_cut_row which is about longer ones. create_dir_all is one call; println! and power failures are not modelled."
  },
  {
   "property": "C104",
   "status": "proved",
   "theorems": [
    "Moledyn.Props.C104_first",
    "Moledyn.Props.C104_law",
    "Moledyn.Props.C104_reliable",
    "Moledyn.Props.C104_bounded",
    "Moledyn.Props.C104_same_law"
   ],
   "note": "Exact arithmetic; an ideal generator (C77), and generators with bounded normal numbers (C100) for C104_same_law."
  },
  {
   "property": "C105",
   "status": "proved",
   "theorems": [
    "Moledyn.Props.C105_every_start",
    "Moledyn.Props.C105_tail",
    "Moledyn.Props.C105_found",
    "Moledyn.Props.C105_ensembles",
    "Moledyn.Props.C105_cube_every_start",
    "Moledyn.Props.C105_cube_tail",
    "Moledyn.Props.C105_cube_found",
    "Moledyn.Props.C105_cube_ensembles",
    "Moledyn.Props.C105_cyl_every_start",
    "Moledyn.Props.C105_cyl_tail",
    "Moledyn.Props.C105_cyl_found",
    "Moledyn.Props.C105_cyl_ensembles"
   ],
   "note": "Exact arithmetic, balls (the room of tests/merge_fpt.rs) cubes with every boundary condition and cylinders; bounded normal numbers (C100), without which steps can be too large. C105_every_start, C105_cube_every_start and C105_cyl_every_start are about the search from given starts, the others about the whole program."
  },
  {
   "property": "C106",
   "status": "proved",
   "theorems": [
    "Moledyn.Props.C106_ensembles",
    "Moledyn.Props.C106_law",
    "Moledyn.Props.C106_outcomes",
    "Moledyn.Props.C106_bounded",
    "Moledyn.Props.C106_cube_bounded",
    "Moledyn.Props.C106_cyl_bounded"
   ],
   "note": "Exact arithmetic; generators with independent numbers. C106_law for any system with bounded room and an ideal generator, C106_bounded (balls), C106_cube_bounded (cubes) and C106_cyl_bounded (cylinders) for bounded normal numbers. C106_ensembles for ensembles."
  },
  {
   "property": "C107",
   "status": "proved",
   "theorems": [
    "Moledyn.Props.C107_law",
    "Moledyn.Props.C107_ensembles",
    "Moledyn.Props.C107_program",
    "Moledyn.Props.C107_fails",
    "Moledyn.Props.C107_errors"
   ],
   "note": "Exact arithmetic; generators with independent numbers. C107_law for one search on a shared list and clock, C107_ensembles and C107_program for ensembles, C107_fails for balls with ideal normal numbers. The numbers of the process have any distribution. C107_errors: errors while the searchers are made are reported (any arithmetic)."
  },
  {
   "property": "C108",
   "status": "proved",
   "theorems": [
    "Moledyn.Props.C108_law",
    "Moledyn.Props.C108_short_clock",
    "Moledyn.Props.C108_program",
    "Moledyn.Props.C108_ball",
    "Moledyn.Props.C108_no_zeros",
    "Moledyn.Props.C108_limit",
    "Moledyn.Props.C108_forces"
   ],
   "note": "Exact arithmetic; generators with independent numbers. C108_law for one ensemble, C108_short_clock for clocks that end at once, C108_program for all lines, C108_ball and C108_no_zeros for balls with ideal normal numbers, C108_limit for the limit the program uses, C108_forces as a check of the process' forces."
  },
  {
   "property": "C109",
   "status": "proved",
   "theorems": [
    "Moledyn.Props.C109_vectors",
    "Moledyn.Props.C109_readable",
    "Moledyn.Props.C109_disk_twins",
    "Moledyn.Props.C109_disk",
    "Moledyn.Props.C109_vector_laws",
    "Moledyn.Props.C109_bins",
    "Moledyn.Props.C109_bins_rounded",
    "Moledyn.Props.C109_one_bin",
    "Moledyn.Props.C109_clamped",
    "Moledyn.Props.C109_data",
    "Moledyn.Props.C109_file",
    "Moledyn.Props.C109_mean_count",
    "Moledyn.Props.C109_curve",
    "Moledyn.Props.C109_histogram"
   ],
   "note": "The plotting library is not modelled: the data, bins and curve handed to it are. C109_vectors, C109_data, C109_file for any arithmetic; C109_bins_rounded for any monotone rounding; the rest exact arithmetic; laws for ideal generators. The two disk programs agree loop for loop in exact arithmetic only (in floating point they round differently)."
  },
  {
   "property": "C110",
   "status": "proved",
   "theorems": [
    "Moledyn.Props.C110_not_met",
    "Moledyn.Props.C110_same_program",
    "Moledyn.Props.C110_points",
    "Moledyn.Props.C110_law",
    "Moledyn.Props.C110_processes"
   ],
   "note": "C110_not_met and C110_same_program for any arithmetic; C110_points exact and for any rounding; C110_law and C110_processes exact arithmetic with an ideal generator."
  },
  {
   "property": "C111",
   "status": "proved",
   "theorems": [
    "Moledyn.Props.C111_mean",
    "Moledyn.Props.C111_one",
    "Moledyn.Props.C111_gain",
    "Moledyn.Props.C111_limit",
    "Moledyn.Props.C111_sooner"
   ],
   "note": "exact arithmetic, bounded independent normal numbers (as C100, C104_same_law)."
  },
  {
   "property": "C112",
   "status": "proved",
   "theorems": [
    "Moledyn.Props.C112_program",
    "Moledyn.Props.C112_zero",
    "Moledyn.Props.C112_means"
   ],
   "note": "exact arithmetic; C112_program and C112_zero for ideal normal numbers, C112_means for bounded independent ones."
  },
  {
   "property": "C113",
   "status": "proved",
   "theorems": [
    "Moledyn.Props.C113_push",
    "Moledyn.Props.C113_merge",
    "Moledyn.Props.C113_exp",
    "Moledyn.Props.C113_zeros",
    "Moledyn.Props.C113_times",
    "Moledyn.Props.C113_points"
   ],
   "note": "exact arithmetic; independent numbers of any distribution, except C113_times (ideal normal numbers, balls)."
  },
  {
   "property": "C114",
   "status": "proved",
   "theorems": [
    "Moledyn.Props.C114_outcomes",
    "Moledyn.Props.C114_numbers",
    "Moledyn.Props.C114_lines",
    "Moledyn.Props.C114_zeros",
    "Moledyn.Props.C114_merging",
    "Moledyn.Props.C114_merge_fpt",
    "Moledyn.Props.C114_large_n",
    "Moledyn.Props.C114_rooms"
   ],
   "note": "Process level: C114_outcomes (mfpt_exp) and C114_merging; program level: C114_numbers, C114_lines, C114_zeros, C114_merge_fpt, C114_large_n; C114_rooms gives the hypotheses on the room for the three systems."
  },
  {
   "property": "C115",
   "status": "proved",
   "theorems": [
    "Moledyn.Props.C115_turns",
    "Moledyn.Props.C115_search",
    "Moledyn.Props.C115_mean",
    "Moledyn.Props.C115_fastest",
    "Moledyn.Props.C115_pruned",
    "Moledyn.Props.C115_taking_turns",
    "Moledyn.Props.C115_files"
   ],
   "note": "exact arithmetic, ideal generator. C115_turns is about the process, the others about the programs."
  },
  {
   "property": "C116",
   "status": "proved",
   "theorems": [
    "Moledyn.Props.C116_bundled",
    "Moledyn.Props.C116_mfpt_exp",
    "Moledyn.Props.C116_double",
    "Moledyn.Props.C116_double_mfpt_exp",
    "Moledyn.Props.C116_crate",
    "Moledyn.Props.C116_crate_mfpt_exp"
   ],
   "note": "The double precision is rounding alone: no overflow and no NaN (two interacting searchers in the same place divide 0 by 0 in f64; the model's quotient is 0). Runs that do not end within the fuel are not considered failures: C116 is about what is reported."
  },
  {
   "property": "C117",
   "status": "proved",
   "theorems": [
    "Moledyn.Props.C117_buffer",
    "Moledyn.Props.C117_one_tick_before",
    "Moledyn.Props.C117_clock_ends",
    "Moledyn.Props.C117_searcher",
    "Moledyn.Props.C117_fastest",
    "Moledyn.Props.C117_times_stand_still",
    "Moledyn.Props.C117_never_given_up",
    "Moledyn.Props.C117_first_to_its_end"
   ],
   "note": "Rounding alone: no overflow, no NaN. In the line of tests/arguments.rs the time x is characterised by x + dt = t as the machine adds. The programs of C108 (mfpt_exp) and C110 (large_n) are not included."
  },
  {
   "property": "C118",
   "status": "proved",
   "theorems": [
    "Moledyn.Props.C118_single",
    "Moledyn.Props.C118_fastest",
    "Moledyn.Props.C118_list",
    "Moledyn.Props.C118_merging",
    "Moledyn.Props.C118_large",
    "Moledyn.Props.C118_large_program"
   ],
   "note": "Rounding alone: no overflow, no NaN. Says what a reported mean is; that a mean is reported is C92 and C76-C78 and C107. That large_n_simulation reports the time before the last step is C69."
  },
  {
   "property": "C119",
   "status": "proved",
   "theorems": [
    "Moledyn.Props.C119_operations",
    "Moledyn.Props.C119_single",
    "Moledyn.Props.C119_buffered",
    "Moledyn.Props.C119_fastest",
    "Moledyn.Props.C119_list",
    "Moledyn.Props.C119_arguments",
    "Moledyn.Props.C119_mfpt_exp",
    "Moledyn.Props.C119_setup",
    "Moledyn.Props.C119_merging",
    "Moledyn.Props.C119_merging_fails",
    "Moledyn.Props.C119_law"
   ],
   "note": "Exact arithmetic. The generator's state is given: the seeds the bundled programs compute depend on the numbers of the arguments, so the same seed argument gives another generator in other units. The programs that start a minimum at f64::MAX need times below it in both units. Merging needs len^2 = time; what goes wrong otherwise is C119_merging_fails."
  },
  {
   "property": "C120",
   "status": "proved",
   "theorems": [
    "Moledyn.Props.C120_turns",
    "Moledyn.Props.C120_double",
    "Moledyn.Props.C120_box"
   ],
   "note": "C120_turns for any arithmetic, C120_double for any system whose draws are inside, C120_box for boxes, where the program is known not to fail (C116). With the steps dt_0, dt_1, ... of the clock the number after k turns is dt_0 + ... + dt_(k-1), though the moves took dt_1, ..., dt_k (.skip(1))."
  },
  {
   "property": "C121",
   "status": "proved",
   "theorems": [
    "Moledyn.Props.C121_systems",
    "Moledyn.Props.C121_bounded",
    "Moledyn.Props.C121_periodic"
   ],
   "note": "C121_systems for ideal normal numbers (all rotations), C121_bounded for bounded symmetric ones (exchanges and reflections of axes), C121_periodic for shifts along periodic directions. SameChances (Spec/Symmetry.lean) quantifies over all sets of results. A target that reaches over a periodic end is cut there, which is why C121_periodic excludes it."
  },
  {
   "property": "C122",
   "status": "proved",
   "theorems": [
    "Moledyn.Props.C122_systems",
    "Moledyn.Props.C122_program"
   ],
   "note": "C122_systems for ideal normal numbers in cube, ball and cylinder; SameCrowds (Spec/SymmetryCrowds.lean) lists the programs: ensembles of tests/merge_fpt.rs, one run of tests/large_n_simulation.rs from any team, the lines of examples/mfpt_exp.rs. C122_program is the whole program of tests/large_n_simulation.rs in a ball."
  },
  {
   "property": "C123",
   "status": "proved",
   "theorems": [
    "Moledyn.Props.C123_same_centre",
    "Moledyn.Props.C123_same_centre_rounded",
    "Moledyn.Props.C123_ball_in_ball",
    "Moledyn.Props.C123_searches",
    "Moledyn.Props.C123_within",
    "Moledyn.Props.C123_counting",
    "Moledyn.Props.C123_exp_clock",
    "Moledyn.Props.C123_skip",
    "Moledyn.Props.C123_times",
    "Moledyn.Props.C123_single"
   ],
   "note": "Covers and FoundNoLater are in Spec/LargerTarget.lean; C123_searches is turn by turn in any arithmetic, C123_times and C123_single are the reported times under any monotone rounding, C123_same_centre* and C123_ball_in_ball say which ball targets cover which."
  },
  {
   "property": "C124",
   "status": "proved",
   "theorems": [
    "Moledyn.Props.C124_search",
    "Moledyn.Props.C124_programs"
   ],
   "note": "CutOff is in Spec/TimeLimit.lean. C124_search is for any loop body and the three kinds of loops over a clock; C124_programs are the programs that have a limit."
  }
 ]
}