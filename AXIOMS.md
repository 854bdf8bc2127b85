# Axioms of the theorems in MANIFEST.json

Generated by `tools/axioms.py` (`#print axioms`). `propext`, `Classical.choice` and `Quot.sound` are Lean's standard axioms; there are no others.

## no axioms (22)

`recorder`, `criterion_roundtrip`, `criterion_toStr_injective`, `scheme_roundtrip`, `scheme_toStr_injective`, `stateType_roundtrip`, `stateType_toStr_injective`, `stateType_documented_names`, `scheme_numeric_alias`, `stateType_numeric_alias`, `criterion_numeric_alias_partial`, `criterion_numeric_alias_false`, `criterion_numeric_alias_confusion`, `profile_shared`, `optimize_idempotent`, `ancilla_wrong_output`, `ancilla_out_of_range`, `checker_name_injective`, `setter_writes`, `maxSims_default_wraps`, `MemoryWitness.missing_reference_faults`, `MemoryWitness.lookahead_case`

## propext (50)

`recorder_all`, `queue_history`, `queue_notify_wakes`, `queue_lost_wakeup`, `queue_deadline_wakes`, `other_requests_return`, `readEnum_blank`, `readEnum_failed`, `anythingToExecute_iff`, `onlyZX_iff`, `onlyZX_tasks`, `onlySimulation_iff`, `setMaxSims_spec`, `disableAll_nothing`, `config_ext`, `PrepareWitness.padding_without_physical_qubit`, `passes_exact`, `symbolic_circuits_not_optimised`, `passes_keep_meaning`, `gap_loses_qubit`, `zx_never_notEquivalent`, `zx_stopped`, `zx_ancilla`, `legacyCost_wraps`, `gateCost_with_profile`, `cost_function_ignored`, `populate_unknown`, `missing_file_is_error`, `comment_skipped`, `addSpecialCases_keeps`, `simple_schemes`, `gateRatio_symm`, `proportional_undefined_at_end`, `consideredEquivalent_iff`, `profileName_inj`, `compilation_ignores_scheme`, `reseed_like_new`, `reseed_and_clear_like_new`, `mode_complete`, `checker_report`, `setter_cost`, `maxSims_last_call_iff`, `unstopped_simulations_complete`, `fault_stays`, `fault_iff`, `MemoryWitness.simulation_case`, `MemoryWitness.stopped_simulation_keeps`, `measured_circuits`, `step_tolerance`, `failed_construction`

## Quot.sound, propext (108)

`initScheme_good`, `sequential_returns_partial`, `sequential_without_timeout`, `three_threads_suffice`, `parallel_overflow_iff`, `parallel_exception_propagates`, `reset_like_fresh`, `rerun_smaller_max_diverges`, `queue_contents`, `queue_linearizable`, `queue_exactly_once`, `queue_real_time`, `queue_memory_safe`, `queue_no_race`, `queue_wakeup_partial`, `queue_null_after_deadline`, `queue_null_only_if_empty`, `product_stimulus`, `product_all_combinations`, `exhausted_never_returns`, `counter_fair`, `onlySimulation_tasks`, `computeMaxSims_eq`, `construct_fallback`, `alternating_never_throws_after_construction`, `fallback_keeps_functionality_check`, `cap_spec_partial`, `cap_undefined`, `cap_keeps`, `PrepareWitness.surplus_output_marked_garbage`, `alternating_throws_iff`, `construct_throws_iff`, `PrepareWitness.symbolic_optimisation_unreachable`, `invert_spec`, `reduction_keeps`, `reduction_preserves_meaning`, `reduction_terminates`, `reduction_aborts`, `reduction_frozen`, `fullReduce_exhaustive`, `reduction_exhaustive`, `legacyCost_eq`, `scheme_errors`, `gateRatio_rounds`, `proportional_defined`, `json_optimizations`, `json_simulation`, `json_functionality`, `json_parts`, `report_verdict`, `report_fields`, `report_simulations`, `symbolic_verdict`, `symbolic_returns_partial`, `symbolic_timeout_crash`, `report_no_instantiations`, `readSize_sign`, `reused_checker_stale_verdict`, `optimize_history`, `optimize_enabled`, `reset_continues_sequence`, `setSeed_keeps_used_states`, `nothing_run`, `symbolic_reports`, `setters_history`, `setters_history_cost`, `setters_commute`, `timed_run`, `vector_is_table`, `timed_run_early`, `timed_run_complete`, `no_race_before_deadline`, `race_when_adding`, `every_timed_run_can_race`, `write_can_race`, `read_can_race`, `decided_run_waits_only_if_lost`, `undecided_run_waits`, `running_checker_told`, `told_only_by_timeout`, `running_checker_is_last`, `rerun_crashes_iff`, `returned_no_null`, `null_after_exception`, `simulation_memory_safe`, `simulation_references`, `completed_simulations_keep_nothing`, `construction_memory_safe`, `alternating_memory_safe`, `alternating_references`, `run_is_delayed`, `rerun_alternating_undisturbed`, `measured_well_formed`, `session_metadata`, `session_preprocessing_time`, `session_check_time`, `session_counterexample`, `early_iff`, `recorded_configuration_iff`, `capped_is_exhaustive`, `tolerance_in_force`, `made_tolerance`, `manager_options_own`, `concurrent_linearised`, `concurrent_foreign`, `thread_alone`, `managers_not_shared`, `concurrent_tolerance_in_force`

## Classical.choice, Quot.sound, propext (619)

`each_operation_once_in_order`, `verdict_scheme_independent`, `alternating_product_partial`, `identity_skip_wrong`, `lookahead_compound_wrong`, `skip_pair_not_safe`, `swaps_can_be_safe`, `alternating_product_checked_partial`, `safe_of_not_mistakable`, `shared_ancilla_not_misled`, `construction_true_functionality`, `simulation_true_output`, `simulation_partial_output`, `alternating_verdict_sound_partial`, `alternating_verdict_correct_partial`, `construction_verdict_correct`, `construction_different_flags_partial`, `construction_flags_incomplete`, `simulation_never_refutes_equivalent`, `simulation_counterexample_real`, `simulation_passed_meaning`, `simulation_passed_distance`, `checkers_agree_partial`, `alternating_positive_confirmed_partial`, `empty_verdict`, `empty_same_iff`, `empty_verdict_right_partial`, `empty_shortcut_wrong`, `sequential_returned`, `sequential_verdict_explained`, `sequential_verdict_not_invented`, `sequential_all_consulted`, `conclusive_is_final`, `sequential_counters`, `sequential_sims_complete`, `probably_equivalent_meaning`, `sequential_timeout_crash`, `parallel_verdict_explained`, `parallel_verdict_not_invented`, `parallel_stop_reason`, `parallel_verdict_depends_on_schedule`, `parallel_thread_bound_partial`, `parallel_too_few_threads`, `parallel_finite`, `parallel_ends_partial`, `parallel_terminates_partial`, `parallel_can_wait_forever`, `sequential_conflicting_evidence`, `sequential_suspicion_reported`, `parallel_suspicion_reported`, `parallel_zx_without_answer`, `sequential_sound`, `parallel_sound`, `flows_never_contradict`, `sequential_threw`, `parallel_exceptions`, `parallel_no_crash_partial`, `parallel_null_checker`, `parallel_exception_waits`, `parallel_timeout_verdict`, `parallel_stop_reaches_running`, `run_keeps_cfg`, `rerun_after_reset`, `rerun_without_reset_loses_verdict`, `rerun_smaller_max_hangs`, `parallel_rerun_loses_verdict`, `parallel_counters`, `parallel_definitive_once`, `parallel_queue`, `queue_quiescent`, `queue_single_consumer_order`, `queue_no_deadlock`, `stimulus_shape`, `stimuli_distinct`, `stimuli_exhaustive`, `wide_stimuli_may_repeat`, `wide_bits`, `wide_all_inputs`, `request_returns_iff`, `at_most_all_stimuli`, `capped_requests_return`, `raised_max_never_returns`, `wide_stimulus`, `criterion_parse_exact`, `criterion_stream_roundtrip`, `scheme_parse_exact`, `scheme_stream_roundtrip`, `stateType_parse_exact`, `stateType_stream_roundtrip`, `readEnum_fail_iff`, `isSpaceC_iff`, `onlySingleTask_sound`, `onlySingleTask_exact_partial`, `onlySingleTask_not_exact`, `default_tasks`, `keyword_iff_documented`, `option_has_keyword`, `augment_spec`, `augment_accepts`, `augment_rejects`, `augment_order`, `augment_leaves_partial_changes`, `construct_defined_partial`, `PrepareWitness.construct_made`, `PrepareWitness.fallback_happens`, `PrepareWitness.setter_reenables_throwing_checker`, `PrepareWitness.fallback_may_throw`, `strip_idle_qubits`, `strip_keeps_correspondence`, `strip_keeps_used`, `setup_ancillaries`, `setup_same_width`, `prepared_circuits`, `canHandle_iff`, `canHandle_ignores_output`, `accepted_of_canHandle`, `accepted_of_made`, `MisreadWitness.misread_call`, `invert_involutive`, `concat_spec`, `complete_spec`, `complete_bijection`, `invertPermutations_spec`, `invertPermutations_bijection_partial`, `zx_positive_iff`, `zx_sound`, `zx_sound_ancilla`, `zx_skips_garbage`, `zx_garbage_index`, `zx_rotated_ancilla`, `legacyCost_closed_form`, `legacyCost_pos`, `legacyCost_mono`, `gateCost_with_function`, `find_emplace`, `populate_lookup`, `costFunctionTable_lookup`, `profile_roundtrip`, `addSpecialCases_covers`, `addSpecialCases_only`, `parameterized_refuted`, `parameterized_not_equivalent_sound`, `parameterized_not_equivalent_tolerance`, `parameterized_reports`, `parameterized_positive`, `parameterized_different_parameters`, `parameterized_file`, `verify_choice`, `rounding_refutes`, `positive_is_sampled`, `refutation_dropped`, `parameterized_stats`, `extract_parameters`, `extract_affine`, `instantiation_hits`, `zero_instantiation`, `solver_exists`, `extract_nonaffine`, `phase_instantiation`, `parameterized_checks`, `mem_parameters`, `eval_value`, `eval_only_parameters`, `affine_parameters`, `parameterized_time`, `parameterized_no_timeout`, `late_no_information`, `exact_budget_is_unlimited`, `first_check_not_charged`, `json_sections`, `json_execution`, `json_application`, `json_profile`, `report_counterexample`, `report_faithful`, `sequential_report`, `stopped_checker_verdict`, `fresh_stopped_checker_partial`, `stopped_alternating_verdict`, `recurrence_sound`, `recurrence_complete`, `next_term_nearest`, `continuation_correct`, `continuation_linear`, `continuation_negative`, `compilation_config`, `profileName_shipped`, `compilation_call`, `compilation_asked`, `call_verdict_true`, `generate_deterministic`, `history_deterministic`, `same_seed_same_stimuli`, `reductions_on_both_sides_partial`, `construction_partial_exact`, `simulation_partial_meaning`, `construction_partial_unsound`, `ancillae_fixed_partial`, `ancillae_fixed_iff`, `construct_fixed_iff`, `sequential_counterexample`, `parallel_counterexample`, `parallel_mode_iff`, `sequential_reports`, `parallel_reports`, `rerun_reports_twice`, `maxSims_not_last_call`, `maxSims_default_iff`, `sequential_verdict_true`, `parallel_verdict_true`, `composed_verdict_true`, `delayed_verdict_true`, `sequential_verdict_decides`, `answer_means`, `decided_run_exists`, `parallel_verdict_decides`, `parallel_verdict_decides_pair`, `parallel_decided_returns`, `decided_parallel_run_exists`, `answer_mixed`, `mixed_answer_means`, `mixed_sequential_verdict`, `mixed_parallel_verdict`, `VerifyMixedWitness.exists_mixed_alternating`, `prob_physical`, `same_partially`, `partially_basis`, `alternating_partial_sound_partial`, `alternating_partial_exact_partial`, `construction_partial_never_refutes`, `simulation_partial_never_refutes`, `alternating_partial_incomplete`, `construction_one_sided_garbage`, `one_sided_garbage_contradiction`, `one_sided_garbage_accepted`, `composed_refines`, `composed_same_states`, `composed_ids`, `composed_gives_up_late`, `composed_queue_unused`, `composed_finite`, `composed_timeout_returns`, `composed_can_give_up`, `composed_stuck`, `composed_can_hang`, `composed_hangs_iff`, `strip_preserves`, `strip_outputs`, `setup_preserves`, `prepare_preserves`, `construct_preserves`, `prepare_preserves_common`, `construct_preserves_common`, `construct_fixed`, `mixed_constructed`, `construct_last`, `construct_preserves_partial`, `constructed_partially`, `constructed_verdict_true`, `prepared_same`, `prepared_verdict_true`, `prepared_verdict_decides`, `prepared_sequential_verdict`, `prepared_sequential_decides`, `prepared_parallel_verdict`, `PreparationWitness.prepared_run`, `PreparationWitness.c1_equal_c2`, `PreparationWitness.constructed`, `VerifyPartialWitness.g1_partially_g2`, `VerifyPartialWitness.g1_not_partially_g3`, `constructed_same_garbage`, `timed_verdict_explained`, `TimeoutWitness.ordinary_run`, `use_after_free`, `TimeoutWitness.ordinary_run_may_race`, `TimeoutWitness.ordinary_run_use_after_free`, `TimeoutWitness.ordinary_run_may_race_on_done`, `notification_can_be_lost`, `TimeoutWitness.ordinary_run_may_wait`, `TimeoutWitness.undecided_always_waits`, `TimeoutWitness.simulation_stopped`, `no_race_on_results`, `changes_are_accesses`, `race_iff`, `parallel_can_race`, `parallel_races_without_timeout`, `rerun_like_run`, `rerun_still_signalled`, `rerun_crash_example`, `rerun_case`, `SessionWitness.exception_then_undefined`, `delayed_like_run`, `delayed_same_outcomes`, `delayed_sound`, `delayed_finite`, `delayed_ends_partial`, `delayed_stop_missed`, `delayed_stop_missed_case`, `delayed_returns`, `rounding_outputs`, `rounding_overlap`, `rounding_never_refutes`, `rounding_counterexample`, `rounding_equivalent`, `rounding_phase`, `rounding_budget`, `rounding_alternating`, `rounding_alternating_verdict`, `rounding_construction`, `rounding_construction_verdict_partial`, `rounding_factor`, `rounding_bound_attained`, `rounding_false_alarm`, `rounding_borderline`, `rounding_budget_case`, `rounding_borderline_case`, `rounding_alternating_case`, `rounding_false_alarm_case`, `partial_answer_means`, `partial_sequential_verdict`, `partial_parallel_verdict`, `partial_conclusive_decides`, `partial_sequential_decides`, `partial_parallel_decides`, `partial_composed_verdict`, `partial_delayed_verdict`, `manager_partial_verdict`, `partial_decided_run_exists`, `partial_equivalent_pair`, `partial_different_pair`, `partial_manager_unsound`, `partial_verdict_depends_on_schedule`, `partial_sequential_definite`, `partial_parallel_definite`, `constructed_one_idle`, `manager_partially_decides`, `VerifyPartialDecidesWitness.partially_decides_both`, `VerifyPartialDecidesWitness.partially_decides_widths`, `RoutingWitness.misled_partial_call`, `rerun_construction`, `rerun_alternating`, `rerun_alternating_correct`, `RerunWitness.rerun_lookahead_wrong`, `RerunWitness.rerun_alternating_thrice`, `generated_profile`, `generated_keys`, `generated_file_read`, `generated_nonneg_partial`, `generated_read_exact_partial`, `ProfileGenWitness.generated_negative`, `additive_nonneg`, `quadratic_nonneg`, `ProfileGenWitness.squares_quadratic`, `ProfileGenWitness.squares_plain`, `ProfileGenWitness.squares_nonneg`, `ProfileGenWitness.uneven_additive`, `SessionWitness.stale_counterexample`, `SessionWitness.stale_time`, `SessionWitness.reset_forgets_preprocessing`, `SessionWitness.recorded_not_used`, `exhaustive_simulation`, `exhaustive_probably_equivalent`, `exhaustive_reversible`, `reversible_agree_iff`, `agrees_fidelity`, `exhaustive_run_exists`, `exhaustive_misses_phases`, `exhaustive_finds_difference`, `parallel_exhaustive_simulation`, `parallel_exhaustive_probably_equivalent`, `parallel_exhaustive_reversible`, `parallel_exhaustive_decided`, `session_option`, `call_option`, `session_isolated`, `session_used`, `session_fresh`, `session_refused`, `session_circuits_irrelevant`, `compilation_sticks`, `compilation_reaches`, `import_errors`, `manager_created_iff`, `PySessionWitness.program_runs`, `PySessionWitness.calls_are_not_independent`, `PySessionWitness.refused_call_changes`, `import_needs_modules`, `PySessionWitness.qobj_missing`, `created_configuration`, `manager_configuration`, `fetched_configuration`, `PySessionWitness.managed_case`, `manager_verdict_true`, `verify_verdict_true`, `verify_partial_verdict`, `realises_sound`, `verify_parameterized_not_equivalent`, `verify_parameterized_equivalent`, `output_no_ops`, `VerifyWitness.verify_runs`, `VerifyWitness.verify_refutes`, `VerifyWitness.run_exists`, `VerifyWitness.swap_reported_equivalent`, `VerifyPartialWitness.partial_verify_runs`, `VerifyPartialWitness.partial_verify_refutes`, `VerifyPartialWitness.prun_exists`, `VerifyPartialWitness.construction_reported_equivalent`, `verdict_same_ancillas`, `VerifyMixedWitness.different_ancillas_refuted`, `VerifyMixedWitness.same_operations_refuted`, `not_displaced`, `VerifyDisplacedWitness.displaced_ancilla_refuted`, `partial_verdict_same_ancillas`, `partial_verdict_no_ancillas`, `not_ancillas_on_both_sides`, `safe_of_not_misled`, `RoutingWitness.misled_call`, `RoutingWitness.routed_not_misled`, `not_misread`, `settled_of_not_misread`, `manager_decides`, `verify_decides`, `calm_definite`, `mixed_sequential_definite`, `mixed_parallel_definite`, `calm_manager_run`, `VerifyDecidesWitness.verify_decides_both`, `verify_partially_decides`, `calm_partial_definite`, `own_tolerance_partial`, `own_kept`, `ProcessWitness.alone`, `ProcessWitness.other_manager`, `ProcessWitness.failed_manager`, `ProcessWitness.options_met`, `concurrent_tolerance`, `ProcessWitness.threads_interfere`, `ProcessWitness.threads_agree`, `ProcessWitness.alone_case`, `same_verdict`, `no_contradiction`, `call_verify`, `verify_call`, `fullyChecked_decides`, `decided_unique`, `asked_iff`, `PythonVerifyWitness.same_verdict_met`, `PythonVerifyWitness.option_changes_verdict`, `self_equivalent`, `self_never_refuted`, `exchange_verdict`, `exchange_no_contradiction`, `equivalent_trans`, `equivalent_congr`, `equalUpTo_refl`, `equal_symm`, `equal_trans`, `PythonVerifyWitness.narrow_not_transitive`, `check_self_equivalent`, `check_self_never_refuted`, `manager_self_equivalent`, `manager_self_never_refuted`, `SelfCheckWitness.self_met`, `SelfCheckWitness.self_refuted`, `settled_self`, `rounded_sequential_verdict`, `rounded_parallel_verdict`, `rounded_sequential_decides`, `rounded_parallel_decides`, `rounded_verdict_separates`, `rounded_answer_means`, `drift_linear`, `Inexactly.equivalent_pair`, `Inexactly.different_pair`, `Inexactly.run_exists`, `Inexactly.budget`, `Inexactly.pair_safe`, `rounded_composed_verdict`, `rounded_delayed_verdict`, `verify_verdict_rounded`, `manager_verdict_rounded`, `verify_rounded_decides`, `rcalm_definite`, `rcalm_manager_run`, `inexact_constructed`, `construction_not_used`, `VerifyRoundingWitness.rounded_verify_runs`, `VerifyRoundingWitness.rcalm_run_exists`, `VerifyRoundingWitness.rcalm_realises`, `safe_of_not_nearly_misled`, `VerifyRoundingWitness.rounded_not_misled`, `compiled_equal`, `compiled_accepted_partial`, `compiled_not_refuted_partial`, `compiled_verdict_partial`, `RoutingWitness.compiled_met`, `RoutingWitness.compiled_rejected`, `RoutingWitness.flip_prepared`, `compiled_wider_accepted`, `compiled_wider_not_refuted`, `RoutingWitness.routed_wider`, `partial_is_weaker`, `partial_never_contradicts`, `partial_same_verdict`, `partial_exchange`, `partial_self`, `partial_trans`, `partly_decides`, `partly_refuted`, `partiallyEqual_symm`, `partiallyEqual_trans`, `PartialRelationWitness.weaker_met`, `PartialRelationWitness.contradicts_met`, `PartialRelationWitness.exchange_met`, `PartialRelationWitness.construction_changes_verdict`, `manager_partial_self_never_refuted`, `manager_partial_self`, `check_partial_self_never_refuted`, `check_partial_self`, `SelfCheckPartialWitness.partial_self_met`, `checked_common_true`, `fullyChecked_decides_common`, `same_verdict_common`, `exchange_verdict_common`, `no_contradiction_common`, `alternating_decides_common`, `manager_common_true`, `manager_decides_common`, `not_otherwise_same`, `not_otherwise_alternating`, `VerifyCommonWitness.different_ancillas_decided`, `VerifyCommonWitness.zx_changes_verdict`, `detection_probability`, `detection_bound`, `enough_simulations_detect`, `enough_simulations_decide`, `requests_return_ae`, `stimuli_equally_likely`, `runs_exist`, `numberTape_ideal`, `swap_disagreements`, `swap_missed_rarely`, `swap_never_missed`, `parallel_detection_probability`, `parallel_detection_bound`, `parallel_enough_simulations_detect`, `parallel_enough_simulations_decide`, `stimulated`, `parallel_simulation_run_exists`, `parallel_runs_exist`, `parallel_swap_missed_rarely`, `stimuli_probability`, `stimuli_bound`, `parallel_stimuli_probability`, `parallel_stimuli_bound`, `stimuli_law`, `product_stimuli_complete`, `product_stimuli_detect`, `product_stimuli_agree`, `agreement_lt`, `agreement_one`, `product_simulations_converge`, `blocks_prob`, `kinds_runs_exist`, `ideal_source_exists`, `zSetting_disagreements`, `zSetting_agreement`, `z_missed_rarely`, `product_average`, `product_fidelity_average`, `product_agreement_bound`, `product_simulations_bound`, `processFidelity_le_one`, `processFidelity_one_iff`, `zSetting_fidelity`, `z_bounded`, `quad_sum`, `product_average_ge`, `product_fidelity_average_ge`, `product_disagreement_bound`, `product_simulations_miss`, `mcz_fidelity`, `no_number_suffices`, `rounded_partial_sequential_verdict`, `rounded_partial_parallel_verdict`, `rounded_partial_sequential_decides`, `rounded_partial_parallel_decides`, `rounded_partial_composed_verdict`, `rounded_partial_delayed_verdict`, `rounded_partial_answer_means`, `rounded_partial_conclusive`, `partially_within_zero`, `rounding_partial_alternating`, `rounding_partial_simulation`, `rounding_partial_never_refutes`, `RoundingPartialCases.alternating_case`, `RoundingPartialCases.alternating_accepts`, `RoundingPartialCases.alternating_refutes`, `RoundingPartialCases.simulation_accepts`, `RoundingPartialCases.unread_run`, `RoundingPartialCases.run_accepts`, `RoundingPartialCases.run_refutes`, `RoundingPartialCases.partially`, `RoundingPartialCases.not_same`, `RoundingPartialCases.told_apart`, `verify_verdict_rounded_partial`, `manager_verdict_rounded_partial`, `verify_rounded_partial_decides`, `rpverdict_of_meaning`, `inexact_partial_constructed`, `partiallyNear_zero`, `common_not_used`, `rpcalm_definite`, `rounded_partial_sequential_definite`, `inexact_same_garbage`, `one_idle_of_not_used`, `VerifyRoundingPartialWitness.rounded_partial_verify_runs`, `VerifyRoundingPartialWitness.partial_not_misled`, `VerifyRoundingPartialWitness.far`
