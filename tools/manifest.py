#!/usr/bin/env python3
"""Writes MANIFEST.json from the table below (theorem names are given without their namespace QCEC.Props)."""
import json
P = "QCEC.Props."
T = {}
def claim(c, status, theorems, note=""):
    T[c] = {"property": c, "status": status, "theorems": [P + t for t in theorems.split()], "note": note}

claim("C01", "proved", "each_operation_once_in_order recorder recorder_all initScheme_good verdict_scheme_independent",
      "Oracle calls that crash or throw are covered (the run then ends early); all five schemes, any operation lists.")
claim("C02", "partial", "alternating_product_partial identity_skip_wrong lookahead_compound_wrong skip_pair_not_safe swaps_can_be_safe alternating_product_checked_partial safe_of_not_mistakable shared_ancilla_not_misled",
      "For lookahead: proved unless compound operations contain SWAPs (false then, lookahead_compound_wrong). For the other schemes: alternating_product_partial for CancelSafe pairs, i.e. when operations that compare equal do the same to the logical qubits wherever they occur (Spec/Functionality.lean), from any initial diagram; alternating_product_checked_partial for the diagram the checker starts with and SkipSafe pairs, where this is only asked of operations that follow beginnings which do the same up to a phase. safe_of_not_mistakable: SkipSafe says that the same operation never follows such beginnings on physical qubits that carry different logical ones. Nothing is skipped at all if a qubit is ancillary in both circuits, because the diagram is singular then (part of SkipSafe; shared_ancilla_not_misled: such a qubit survives the preparation if one circuit uses it). Otherwise false (identity_skip_wrong, whose pair is not SkipSafe by skip_pair_not_safe). CancelSafe holds e.g. for equal layouts without SWAPs, but also for circuits with SWAPs (swaps_can_be_safe).")
claim("C03", "proved", "construction_true_functionality simulation_true_output simulation_partial_output")
claim("C04", "partial", "alternating_verdict_sound_partial alternating_verdict_correct_partial identity_skip_wrong lookahead_compound_wrong",
      "Same side conditions as C02; the witnesses show the full statement is false of the code.")
claim("C05", "partial", "construction_verdict_correct construction_different_flags_partial construction_flags_incomplete",
      "Full for equal ancillary/garbage flags; with different flags only one direction holds (witness).")
claim("C06", "proved", "simulation_never_refutes_equivalent simulation_counterexample_real simulation_passed_meaning simulation_passed_distance")
claim("C07", "partial", "checkers_agree_partial alternating_positive_confirmed_partial construction_flags_incomplete",
      "Under the side conditions of C02 and equal flags; false for different flags (witness).")
claim("C08", "partial", "empty_verdict empty_same_iff empty_verdict_right_partial empty_shortcut_wrong",
      "The shortcut ignores output permutations; right when they agree, witness otherwise.")
claim("C09", "proved", "sequential_returned sequential_verdict_explained sequential_verdict_not_invented sequential_all_consulted")
claim("C10", "proved", "conclusive_is_final")
claim("C11", "proved", "sequential_counters sequential_sims_complete probably_equivalent_meaning")
claim("C12", "partial", "sequential_returns_partial sequential_without_timeout sequential_timeout_crash",
      "With a timeout the process is terminated whenever a simulation gives up (witness); proved otherwise.")
claim("C13", "proved", "parallel_verdict_explained parallel_verdict_not_invented parallel_stop_reason parallel_verdict_depends_on_schedule",
      "Includes the witness that contradicting evidence discards a checker that would settle the question.")
claim("C14", "partial", "parallel_thread_bound_partial three_threads_suffice parallel_overflow_iff parallel_too_few_threads",
      "False with two threads and alternating+construction+ZX (out-of-bounds access); exact condition proved.")
claim("C15", "partial", "parallel_finite parallel_ends_partial parallel_terminates_partial parallel_can_wait_forever",
      "Every execution is finite; stuck states are final except one situation, which is reachable.")
claim("C16", "proved", "sequential_conflicting_evidence sequential_suspicion_reported parallel_suspicion_reported parallel_zx_without_answer")
claim("C17", "proved", "sequential_sound parallel_sound flows_never_contradict")
claim("C18", "partial", "sequential_without_timeout sequential_threw parallel_exceptions parallel_exception_propagates parallel_no_crash_partial parallel_null_checker parallel_exception_waits",
      "False if a constructor throws while another checker finishes first (witness).")
claim("C19", "proved", "parallel_timeout_verdict parallel_stop_reaches_running")
claim("C20", "proved", "reset_like_fresh run_keeps_cfg rerun_after_reset rerun_without_reset_loses_verdict rerun_smaller_max_diverges rerun_smaller_max_hangs parallel_rerun_loses_verdict")
claim("C21", "proved", "parallel_counters parallel_definitive_once parallel_queue")
claim("C22", "proved", "queue_contents queue_linearizable queue_exactly_once queue_quiescent queue_single_consumer_order queue_real_time queue_history queue_memory_safe queue_no_race queue_no_deadlock",
      "Any number of producers and consumers, single shared accesses as steps, addresses may be reused.")
claim("C23", "partial", "queue_wakeup_partial queue_notify_wakes queue_lost_wakeup",
      "False: the notification can fall between the test and the wait (witness); holds for a consumer that fell asleep on an empty queue.")
claim("C24", "proved", "queue_null_after_deadline queue_null_only_if_empty queue_deadline_wakes queue_exactly_once")
claim("C25", "proved", "stimulus_shape stimuli_distinct stimuli_exhaustive wide_stimuli_may_repeat product_stimulus product_all_combinations wide_bits wide_all_inputs",
      "Distinctness is claimed up to 63 data qubits; beyond that repeats are possible (witness).")
claim("C26", "partial", "request_returns_iff exhausted_never_returns at_most_all_stimuli capped_requests_return raised_max_never_returns other_requests_return counter_fair",
      "Holds after construction for every random source that eventually produces every value; false after setMaxSims raised the number beyond the basis states (theorem).")
claim("C27", "proved", "wide_stimulus wide_bits wide_all_inputs")
claim("C28", "proved", "criterion_roundtrip criterion_toStr_injective criterion_parse_exact criterion_stream_roundtrip scheme_roundtrip scheme_toStr_injective scheme_parse_exact scheme_stream_roundtrip stateType_roundtrip stateType_toStr_injective stateType_parse_exact stateType_stream_roundtrip readEnum_blank readEnum_failed readEnum_fail_iff isSpaceC_iff stateType_documented_names")
claim("C29", "partial", "scheme_numeric_alias stateType_numeric_alias criterion_numeric_alias_partial criterion_numeric_alias_false criterion_numeric_alias_confusion",
      "False for the equivalence criterion.")
claim("C30", "partial", "anythingToExecute_iff onlySingleTask_sound onlySingleTask_exact_partial onlySingleTask_not_exact onlyZX_iff onlyZX_tasks onlySimulation_iff onlySimulation_tasks computeMaxSims_eq default_tasks setMaxSims_spec disableAll_nothing",
      "onlySingleTask misses the case of zero simulations.")
claim("C32", "proved", "construct_fallback alternating_never_throws_after_construction fallback_keeps_functionality_check construct_defined_partial PrepareWitness.construct_made PrepareWitness.fallback_happens PrepareWitness.setter_reenables_throwing_checker PrepareWitness.fallback_may_throw",
      "Claims the state after construction; the witnesses show that setters and the lookahead scheme get around it.")
claim("C33", "partial", "cap_spec_partial cap_undefined cap_keeps",
      "Full below 64 data qubits; from 64 on the shift is undefined (theorem).")
claim("C34", "proved", "strip_idle_qubits strip_keeps_correspondence strip_keeps_used")
claim("C35", "proved", "setup_ancillaries setup_same_width prepared_circuits PrepareWitness.padding_without_physical_qubit PrepareWitness.surplus_output_marked_garbage",
      "The witnesses show two defects the property does not speak about.")
claim("C36", "partial", "canHandle_iff alternating_throws_iff prepared_circuits alternating_verdict_correct_partial canHandle_ignores_output accepted_of_canHandle accepted_of_made MisreadWitness.misread_call",
      "The exact condition is proved; accepted pairs whose idle ancillary is read out elsewhere get a wrong verdict (canHandle_ignores_output; misread_call for verify()). accepted_of_made: what canHandle checks of the prepared circuits is what the answers of the alternating checker in C81, C82, C85-C90 presuppose (Accepted).")
claim("C37", "proved", "passes_exact construct_throws_iff symbolic_circuits_not_optimised passes_keep_meaning PrepareWitness.symbolic_optimisation_unreachable",
      "The passes themselves are mqt-core code and abstract.")
claim("C38", "partial", "invert_spec invert_involutive concat_spec complete_spec complete_bijection invertPermutations_spec invertPermutations_bijection_partial gap_loses_qubit",
      "Everything is proved except that the map from outputs to wires is a bijection for layouts with gaps in which some qubit is not read out: there it is not (witness).")
claim("C39", "partial", "zx_never_notEquivalent zx_stopped zx_ancilla zx_positive_iff zx_sound zx_sound_ancilla zx_skips_garbage zx_garbage_index zx_rotated_ancilla",
      "Exact condition and semantic soundness are proved; soundness fails for qubits that are garbage in both circuits and for circuits that do not return ancillary qubits to |0> (witnesses).")
claim("C40", "proved", "reduction_keeps reduction_preserves_meaning reduction_terminates reduction_aborts reduction_frozen fullReduce_exhaustive reduction_exhaustive",
      "The rewrite rules are mqt-core code and arbitrary.")
claim("C56", "partial", "ancillae_fixed_partial ancillae_fixed_iff construct_fixed_iff ancilla_wrong_output ancilla_out_of_range gap_loses_qubit",
      "The exact condition is proved: right if and only if the ancillary qubits end on wires in increasing order (in both circuits); otherwise other outputs are fixed or behaviour is undefined (witnesses).")
claim("C41", "proved", "legacyCost_eq legacyCost_closed_form legacyCost_pos legacyCost_mono legacyCost_wraps")
claim("C42", "proved", "gateCost_with_profile gateCost_with_function cost_function_ignored profile_shared scheme_errors find_emplace populate_lookup populate_unknown missing_file_is_error comment_skipped costFunctionTable_lookup profile_roundtrip addSpecialCases_keeps addSpecialCases_covers addSpecialCases_only")
claim("C43", "proved", "simple_schemes gateRatio_rounds gateRatio_symm proportional_defined proportional_undefined_at_end")
claim("C48", "proved", "consideredEquivalent_iff json_sections json_execution json_application json_profile json_optimizations json_simulation json_functionality json_parts report_verdict report_fields report_simulations report_counterexample report_faithful sequential_report")
claim("C49", "partial", "symbolic_verdict symbolic_returns_partial symbolic_timeout_crash report_no_instantiations readSize_sign",
      "With a timeout an unsupported circuit terminates the process (witness).")
claim("C50", "partial", "stopped_checker_verdict fresh_stopped_checker_partial reused_checker_stale_verdict stopped_alternating_verdict parallel_stop_reaches_running",
      "A reused simulation checker reports its previous verdict when stopped (witness).")
claim("C51", "proved", "optimize_idempotent optimize_history optimize_enabled PrepareWitness.symbolic_optimisation_unreachable")
claim("C54", "proved", "generate_deterministic history_deterministic same_seed_same_stimuli reseed_like_new reseed_and_clear_like_new reset_continues_sequence setSeed_keeps_used_states",
      "reset() does not reseed and setSeed() keeps the used states; both stated as theorems.")
claim("C55", "partial", "construction_different_flags_partial reductions_on_both_sides_partial construction_partial_exact simulation_partial_meaning construction_partial_unsound",
      "reductions_on_both_sides_partial holds for any package: both objects are reduced, on the right side, before the comparison. With the package's garbage reduction in exact arithmetic construction_partial_exact and simulation_partial_meaning say exactly what the comparison of the reduced objects then means. The last clause of the statement (agreement for every logical input) is false for superpositions: construction_partial_unsound. Different ancillary flags: construction_different_flags_partial.")
claim("C31", "proved", "keyword_iff_documented option_has_keyword augment_spec augment_accepts augment_rejects augment_order config_ext augment_leaves_partial_changes",
      "If a keyword is rejected, options set before stay changed in the caller's configuration object (theorem).")
claim("C44", "partial", "parameterized_refuted parameterized_not_equivalent_sound parameterized_not_equivalent_tolerance parameterized_reports parameterized_positive parameterized_different_parameters parameterized_file verify_choice rounding_refutes positive_is_sampled refutation_dropped",
      "Proved in full for tolerance 0 and no timeout; with a tolerance constant angles are rounded too and equivalent circuits can be reported to differ, and a refutation found when the budget runs out is dropped (witnesses).")
claim("C45", "partial", "parameterized_stats refutation_dropped",
      "Exact except when the time runs out in an additional instantiation: that run is missing (theorem and witness).")
claim("C46", "proved", "extract_parameters extract_affine instantiation_hits zero_instantiation solver_exists extract_nonaffine phase_instantiation parameterized_checks mem_parameters eval_value eval_only_parameters affine_parameters",
      "pinv is assumed to solve solvable systems; expressions that are not affine are misrepresented (witness).")
claim("C47", "partial", "parameterized_time parameterized_no_timeout late_no_information exact_budget_is_unlimited first_check_not_charged",
      "Bound T + two checks + one instantiation unless the charged time meets the timeout exactly, in which case there is no limit (witness).")
claim("C52", "proved", "recurrence_sound recurrence_complete next_term_nearest continuation_correct continuation_linear continuation_negative",
      "Exact arithmetic instead of doubles. Predicted costs can be negative (theorem).")
claim("C53", "proved", "compilation_config profileName_inj profileName_shipped compilation_ignores_scheme compilation_call compilation_asked call_verdict_true",
      "Keywords for the schemes and the profile are accepted and ignored.")
claim("C57", "proved", "sequential_counterexample parallel_counterexample")
claim("C58", "proved", "parallel_mode_iff mode_complete nothing_run")
claim("C59", "partial", "sequential_reports symbolic_reports parallel_reports rerun_reports_twice checker_report checker_name_injective",
      "Proved for all three flows on a fresh or reset manager; without reset() earlier checkers are reported again (theorem rerun_reports_twice: the claim is false of the code there).")
claim("C60", "partial", "setter_writes setter_cost setters_history setters_history_cost setters_commute maxSims_not_last_call maxSims_last_call_iff maxSims_default_wraps maxSims_default_iff cost_function_ignored profile_shared",
      "Proved for all setters and histories. Two expectations are refuted with the exact condition under which they hold: setMaxSims(0) disables simulations for good, and the Python default of set_max_sims wraps around on a machine reporting fewer than two threads.")
claim("C61", "partial", "sequential_verdict_true parallel_verdict_true composed_verdict_true delayed_verdict_true sequential_verdict_decides answer_means decided_run_exists parallel_verdict_decides parallel_verdict_decides_pair parallel_decided_returns decided_parallel_run_exists parallel_verdict_depends_on_schedule answer_mixed mixed_answer_means mixed_sequential_verdict mixed_parallel_verdict VerifyMixedWitness.exists_mixed_alternating",
      "The last sentence is false of the parallel flow: it gives up with NoInformation as soon as all simulations have passed and the ZX checker has a doubt, even while the alternating checker is still running (parallel_verdict_depends_on_schedule); parallel_verdict_decides proves that this is the only exception, parallel_verdict_decides_pair that there is none without simulations or without ZX. Exact arithmetic; circuits for which skipping identical gates is safe (SkipSafe, see C02); no partial equivalence; a fresh checker table for the parallel flow. Each of these is necessary: see the counterexamples listed with C02, C04, C20, C55. Any qubits may be ancillary, in each circuit different ones: mixed_sequential_verdict, mixed_parallel_verdict (MMeaning); what a verdict then speaks about, and why the construction checker is excepted, is shown by the witnesses of C81.")
claim("C62", "partial", "prob_physical same_partially partially_basis alternating_partial_sound_partial alternating_partial_exact_partial construction_partial_exact construction_partial_never_refutes simulation_partial_meaning simulation_partial_never_refutes construction_partial_unsound alternating_partial_incomplete construction_one_sided_garbage one_sided_garbage_contradiction one_sided_garbage_accepted",
      "The full statement is false of the code. Construction only compares outcome probabilities on basis states (construction_partial_exact says exactly what it decides): construction_partial_unsound has a pair it accepts although it is not partially equivalent, and which the alternating checker refutes. The alternating checker is sound (alternating_partial_sound_partial) and exact when one circuit is idle on all common ancillaries (alternating_partial_exact_partial), but refutes partially equivalent circuits when the common ancillaries are idle in different circuits (alternating_partial_incomplete). Simulation never refutes partially equivalent circuits, and a passed simulation bounds the difference of all outcome probabilities on its stimulus. Pairs that are not SkipSafe: see C02.")
claim("C63", "partial", "composed_refines composed_same_states composed_ids composed_gives_up_late composed_queue_unused composed_finite composed_timeout_returns composed_can_give_up composed_stuck composed_can_hang composed_hangs_iff",
      "All parts hold except the last: without a timeout every such run can hang because of the queue's lost wake-up, whatever its configuration (composed_can_hang; composed_hangs_iff: exactly the runs without a timeout).")
claim("C64", "proved", "strip_preserves strip_outputs setup_preserves prepare_preserves construct_preserves prepare_preserves_common construct_preserves_common construct_fixed mixed_constructed construct_last construct_preserves_partial constructed_partially constructed_verdict_true prepared_same prepared_verdict_true prepared_verdict_decides prepared_sequential_verdict prepared_sequential_decides prepared_parallel_verdict PreparationWitness.prepared_run PreparationWitness.c1_equal_c2 PreparationWitness.constructed VerifyPartialWitness.g1_partially_g2 VerifyPartialWitness.g1_not_partially_g3 constructed_same_garbage",
      "The optimization passes are mqt-core code; construct_preserves assumes of the enabled ones that they keep outputs, width and ancillary qubits. Operations are unitary (gates, SWAPs, barriers, compound operations). The end-to-end statements take over the assumptions of C61 about the prepared circuits (Setting).")
claim("C65", "proved", "timed_run vector_is_table timed_run_early timed_run_complete timed_verdict_explained TimeoutWitness.ordinary_run",
      "The theorems about run() in Model/Manager.lean (C09-C12, C16, C17, C49, C57, C59, C61, ...) therefore hold of the two-thread program, except for executions with undefined behaviour (C66). Accesses to done are assumed sequentially consistent.")
claim("C66", "partial", "no_race_before_deadline race_when_adding every_timed_run_can_race use_after_free write_can_race read_can_race TimeoutWitness.ordinary_run_may_race TimeoutWitness.ordinary_run_use_after_free TimeoutWitness.ordinary_run_may_race_on_done",
      "False of the code: true before the deadline as far as the list of checkers is concerned (no_race_before_deadline), but whenever a checker is added while done is not set the timeout may strike in this moment, so every sequential run with a timeout that constructs a checker can have undefined behaviour, including reading a freed buffer; the plain bool done is raced on by every decided run.")
claim("C67", "partial", "decided_run_waits_only_if_lost notification_can_be_lost undecided_run_waits TimeoutWitness.ordinary_run_may_wait TimeoutWitness.undecided_always_waits",
      "False of the code: a run whose checkers give no decision (e.g. passing simulations and an unsupported ZX check) never returns before the deadline (undecided_run_waits); a decided run waits only if the notification comes between the timeout thread's test of done and its wait (decided_run_waits_only_if_lost), which can happen in every run (notification_can_be_lost).")
claim("C68", "proved", "running_checker_told told_only_by_timeout running_checker_is_last TimeoutWitness.simulation_stopped",
      "The running checker is the last of the list; that it then gives up is C50. For executions without undefined behaviour (C66).")
claim("C69", "partial", "no_race_on_results changes_are_accesses race_iff parallel_can_race parallel_races_without_timeout",
      "False of the code, but exactly characterised: workers do not race with each other, completed checkers are handled without race, and the only races are the main thread's assignment of done against a worker's read and setAndSignalDone's look at a pointer against a worker creating its checker (race_iff); both can happen in every run with a timeout (parallel_can_race) and in ordinary runs without (parallel_races_without_timeout). The race on the queue is excluded by C22's queue_no_race.")
claim("C70", "partial", "rerun_like_run rerun_still_signalled rerun_crashes_iff rerun_crash_example rerun_case returned_no_null null_after_exception SessionWitness.exception_then_undefined",
      "Holds (as a simulation of every run of the second kind by one of a fresh manager) when the kinds of checkers launched are those left in the table; then only the stop flags of the earlier run remain set (rerun_still_signalled), which is how C59's parallel_rerun_loses_verdict loses a verdict. False when the configuration is changed in between: a simulation launched into a slot holding another checker dereferences the null result of a dynamic_cast (rerun_crashes_iff, rerun_crash_example). Also false after a run that an exception of a checker constructor left: a null entry stays in the table until reset() (null_after_exception), which a later sequential run dereferences (exception_then_undefined).")
claim("C71", "partial", "simulation_memory_safe simulation_references completed_simulations_keep_nothing unstopped_simulations_complete construction_memory_safe alternating_memory_safe alternating_references fault_stays fault_iff MemoryWitness.simulation_case MemoryWitness.stopped_simulation_keeps MemoryWitness.missing_reference_faults MemoryWitness.lookahead_case",
      "Memory safety holds for all three checkers. The balance holds for completed simulations; it is false for stopped ones, each of which keeps exactly two references (simulation_references, stopped_simulation_keeps); construction and alternating checkers never give back their diagrams, which only matters until the checker is destroyed together with its package. Relative to the behaviour of the package assumed in Model/Memory.lean (multiply, getDD do not collect; changePermutation, reduce* and simulate hand over references).")
claim("C72", "partial", "delayed_like_run delayed_same_outcomes delayed_sound delayed_finite delayed_ends_partial delayed_stop_missed delayed_stop_missed_case delayed_returns run_is_delayed",
      "Outcomes, soundness and finiteness hold with delays (delayed_same_outcomes, delayed_sound, delayed_finite; delayed_ends_partial has the same exception as C15). The last part is false with delays: delayed_stop_missed exhibits, for every configuration with a timeout that starts a worker, a run that waits for a running checker it has not told to stop (store-buffering pattern; it cannot happen with sequential consistency, parallel_stop_reaches_running). C++ itself gives a racing access no meaning (C69).")
claim("C73", "partial", "rounding_outputs rounding_overlap rounding_never_refutes rounding_counterexample rounding_equivalent rounding_phase rounding_budget rounding_alternating rounding_alternating_verdict rounding_construction rounding_construction_verdict_partial rounding_factor rounding_bound_attained rounding_false_alarm rounding_borderline rounding_budget_case rounding_borderline_case rounding_alternating_case rounding_false_alarm_case",
      "Simulation and alternating checks: full (alternating verdict for circuits without common ancillas; the object bound with ancillas). The bound is attained (rounding_bound_attained) and a bound is needed (rounding_false_alarm). Construction: false in a borderline case (rounding_borderline, finding 33): `equals` looks at the product only if neither matrix is found close to the identity. The package's error is an assumption (it is external), stated in Spec/Rounding.lean; with the usual double precision and the default threshold 1e-8, rounding_budget leaves room for about 10^6 multiplications of error 1e-15. The alternating theorems ask (NearSafe) that operations that compare equal do the same behind beginnings that agree within the accumulated error; other circuits are the exception of C02.")
claim("C74", "partial", "partial_answer_means partial_sequential_verdict partial_parallel_verdict partial_conclusive_decides partial_sequential_decides partial_parallel_decides partial_composed_verdict partial_delayed_verdict manager_partial_verdict partial_decided_run_exists partial_equivalent_pair partial_different_pair partial_manager_unsound partial_verdict_depends_on_schedule partial_sequential_definite partial_parallel_definite constructed_same_garbage constructed_one_idle manager_partially_decides VerifyPartialDecidesWitness.partially_decides_both VerifyPartialDecidesWitness.partially_decides_widths RoutingWitness.misled_partial_call",
      "The full statement is false of the code: with the construction checker enabled the manager reports Equivalent for circuits that are not partially equivalent (partial_manager_unsound, finding 34), and with both complete checkers enabled the verdict of a parallel run depends on which finishes first (partial_verdict_depends_on_schedule). Proved: what each verdict means in terms of the checkers that can have given it (partial_answer_means, partial_sequential_verdict, partial_parallel_verdict, PMeaning in Spec/EndToEndPartial.lean), and with the alternating checker instead of construction (and one circuit idle on every common ancilla) that the verdict decides partial equivalence (partial_conclusive_decides, partial_sequential_decides, partial_parallel_decides). Exact arithmetic; the ZX checker only for circuits without garbage. manager_partial_verdict joins this with the preparation of the circuits (C64), for circuits of any widths with any ancillary qubits whose common qubits are garbage in both or in neither; that the prepared circuits then have matching garbage qubits, and that one of them is idle on the qubits added by the manager, is proved (constructed_same_garbage, constructed_one_idle). manager_partially_decides: an uninterrupted run decides. Both name the exceptions CrossedShortcut and Misled of C81 (misled_partial_call: an uninterrupted call with partial equivalence that is misled).")
claim("C75", "partial", "rerun_construction rerun_alternating rerun_alternating_undisturbed rerun_alternating_correct RerunWitness.rerun_lookahead_wrong RerunWitness.rerun_alternating_thrice",
      "False for the lookahead scheme (RerunWitness.rerun_lookahead_wrong, finding 35): the scheme object keeps the cached matrix of an operation of the previous run and applies it in place of the first one, so that the second run about S;S;S and S;Z reports NotEquivalent after the first reported Equivalent. Proved for the construction checker with every scheme and every package, and for the alternating checker with every other scheme. The manager itself never runs a decided checker object again (C70), so this concerns users of the C++ classes.")
claim("C76", "proved", "generated_profile measured_circuits measured_well_formed generated_keys generated_file_read",
      "generated_profile gives the content entry by entry, generated_file_read what the C++ reader makes of it. Numbers in the continuation are exact (C52).")
claim("C77", "partial", "generated_nonneg_partial generated_read_exact_partial ProfileGenWitness.generated_negative additive_nonneg quadratic_nonneg ProfileGenWitness.squares_quadratic ProfileGenWitness.squares_plain ProfileGenWitness.squares_nonneg ProfileGenWitness.uneven_additive",
      "False of the code (ProfileGenWitness.generated_negative, finding 36): measured costs that grow with every control, but ever more slowly, are continued to negative costs by a recurrence of order three, and the reader takes -500 as 2^64-500. Proved when the costs are continued by a factor, by a constant difference, by a recurrence without negative coefficients or by a quadratic function that opens upwards (Plain), which includes the case that no recurrence is found.")
claim("C78", "partial", "session_metadata session_preprocessing_time session_check_time session_counterexample early_iff recorded_configuration_iff SessionWitness.stale_counterexample SessionWitness.stale_time SessionWitness.reset_forgets_preprocessing SessionWitness.recorded_not_used",
      "Names, sizes and configuration: proved for every history. False of the code for the rest, with the exact behaviour proved (finding 37): the check time is that of the latest run that stored one, and early_iff says which runs do not; reset() sets the preprocessing time to zero for good; a counterexample stays until reset() whatever later runs find; the configuration shown is not the one used if a parallel run switches a checker off (recorded_configuration_iff).")
claim("C79", "proved", "exhaustive_simulation exhaustive_probably_equivalent exhaustive_reversible reversible_agree_iff agrees_fidelity capped_is_exhaustive exhaustive_run_exists exhaustive_misses_phases exhaustive_finds_difference parallel_exhaustive_simulation parallel_exhaustive_probably_equivalent parallel_exhaustive_reversible parallel_exhaustive_decided",
      "Sequential flow. exhaustive_run_exists: for every pair of circuits there is such a run. exhaustive_misses_phases: a Z gate and no gate at all pass all simulations.")
claim("C80", "proved", "session_option call_option session_isolated session_used session_fresh session_refused session_circuits_irrelevant compilation_sticks compilation_reaches import_errors manager_created_iff PySessionWitness.program_runs PySessionWitness.calls_are_not_independent PySessionWitness.refused_call_changes import_needs_modules PySessionWitness.qobj_missing created_configuration manager_configuration fetched_configuration PySessionWitness.managed_case",
      "The property describes the code as it is: calls that share an object are not independent (calls_are_not_independent, refused_call_changes). Conversions of keyword values are a parameter (Typed: a value converted for an option has its type).")
claim("C81", "partial", "manager_verdict_true verify_verdict_true manager_partial_verdict verify_partial_verdict realises_sound verify_parameterized_not_equivalent verify_parameterized_equivalent output_no_ops VerifyWitness.verify_runs VerifyWitness.verify_refutes VerifyWitness.run_exists VerifyWitness.swap_reported_equivalent VerifyPartialWitness.partial_verify_runs VerifyPartialWitness.partial_verify_refutes VerifyPartialWitness.prun_exists VerifyPartialWitness.construction_reported_equivalent verdict_same_ancillas VerifyMixedWitness.different_ancillas_refuted VerifyMixedWitness.same_operations_refuted not_displaced VerifyDisplacedWitness.displaced_ancilla_refuted partial_verdict_same_ancillas partial_verdict_no_ancillas not_ancillas_on_both_sides constructed_one_idle safe_of_not_misled RoutingWitness.misled_call RoutingWitness.routed_not_misled RoutingWitness.misled_partial_call not_misread settled_of_not_misread accepted_of_made MisreadWitness.misread_call",
      "With check_partial_equivalence (verify_partial_verdict) the verdicts have their meaning for the outcome probabilities of the measured qubits, except for the cases named in PartialVerdict (circuits whose common qubits are garbage in both or in neither, any widths and ancillary qubits): with the construction checker a positive verdict only speaks about basis states (construction_reported_equivalent), with ancillary qubits used on both sides NotEquivalent may be wrong (C62); the latter needs a qubit declared ancillary in both circuits (not_ancillas_on_both_sides); the two exceptions below apply here too (misled_partial_call). Without it, true except for two cases, which the theorems name. Misled: the alternating checker is enabled and the prepared circuits, after beginnings that do the same up to a phase, continue with the same operation on physical qubits that carry different logical ones (or a compound operation contains SWAPs), or qubits that are ancillary in both circuits are read out elsewhere (Misread: misread_call is an uninterrupted call that reports NotEquivalent for equivalent circuits; not_misread: nothing of the kind if no qubit is ancillary in both); misled_call is an uninterrupted call that then reports NotEquivalent for equivalent circuits, routed_not_misled a pair with a common gate that is not misled. CrossedShortcut: if no operation is left in either circuit after the optimization passes, Equivalent is reported without comparing how inputs are connected to outputs. swap_reported_equivalent: in the default configuration, with passes that preserve what circuits do, a SWAP and an empty circuit are reported equivalent. Trusted: the passes of mqt-core preserve outputs, width and ancillary qubits; exact arithmetic (see C73 for rounding); operations that compare equal with Operation::equals are equal. The exceptions speak about the circuits that the passes of the library used in the run produce (Library). Circuits that declare different qubits as ancillary: a positive verdict speaks about the inputs where all qubits ancillary in one of them are zero, NotEquivalent about those where the common ones are (Verdict; different_ancillas_refuted shows that no more holds), and with the construction checker even identical operations are refuted (ConstructionMixed, same_operations_refuted). Ancillary qubits that are not the last ones of the first circuit: simulation and ZX take the last ones for them, so that NotEquivalent of a simulation may be wrong (Displaced, displaced_ancilla_refuted); the theorems name this case too. For circuits with the same ancillary qubits, which are the last ones, Verdict is VerdictTrue (verdict_same_ancillas).")
claim("C82", "partial", "manager_decides verify_decides calm_definite mixed_sequential_definite mixed_parallel_definite calm_manager_run parallel_verdict_depends_on_schedule VerifyDecidesWitness.verify_decides_both manager_partially_decides verify_partially_decides partial_sequential_definite partial_parallel_definite calm_partial_definite VerifyPartialDecidesWitness.partially_decides_both VerifyPartialDecidesWitness.partially_decides_widths RoutingWitness.misled_call RoutingWitness.routed_not_misled RoutingWitness.misled_partial_call not_misread MisreadWitness.misread_call",
      "False in three cases, which the theorem names: circuits that mislead the alternating checker (Misled, RoutingWitness.misled_call, MisreadWitness.misread_call), the shortcut for circuits from which no operation is left (CrossedShortcut, VerifyWitness.swap_reported_equivalent) and, in the parallel flow with simulations and the ZX checker, a run that gives up with NoInformation as soon as all simulations have passed and the ZX checker doubts equivalence, without waiting for the alternating or construction checker (ParallelWithBoth; parallel_verdict_depends_on_schedule shows such a run). With check_partial_equivalence (verify_partially_decides) circuits without declared ancillary qubits, also of different width, are decided in the same sense, except that positive verdicts of the construction checker only speak about basis states (C74); the same three exceptions are named (misled_partial_call). Trusted base as in C81.")
claim("C83", "partial", "tolerance_in_force own_tolerance_partial own_kept made_tolerance step_tolerance ProcessWitness.alone ProcessWitness.other_manager ProcessWitness.failed_manager manager_options_own failed_construction ProcessWitness.options_met concurrent_linearised concurrent_tolerance concurrent_foreign ProcessWitness.threads_interfere ProcessWitness.threads_agree thread_alone managers_not_shared concurrent_tolerance_in_force ProcessWitness.alone_case",
      "False as stated: the tolerance is a static member of the package, so that the last construction (even one that throws) or set_tolerance() of any manager decides (tolerance_in_force, ProcessWitness.other_manager, ProcessWitness.failed_manager). Proved for a manager since whose construction no other one has been constructed or given a tolerance, which is how verify() uses managers. Threads: concurrent_tolerance (any number of threads, any overlap of their calls) if all ask for the same tolerance; concurrent_foreign: two threads that each construct and run a manager with different tolerances, as two calls of verify() do, can run one with the tolerance of the other, even if no two runs overlap (finding 54).")
claim("C84", "partial", "same_verdict no_contradiction call_verify verify_call compilation_call call_verdict_true fullyChecked_decides decided_unique asked_iff PythonVerifyWitness.same_verdict_met PythonVerifyWitness.option_changes_verdict",
      "False in the three cases of C82, which the theorems name (Excused): option_changes_verdict shows that a SWAP and an empty circuit are equivalent with the default options and not equivalent with elide_permutations=False. Proved for circuits with the same ancillary qubits, which are the last ones. Trusted base as in C81.")
claim("C85", "partial", "self_equivalent self_never_refuted exchange_verdict exchange_no_contradiction equivalent_trans equivalent_congr equalUpTo_refl equal_symm equal_trans PythonVerifyWitness.narrow_not_transitive check_self_equivalent check_self_never_refuted manager_self_equivalent manager_self_never_refuted SelfCheckWitness.self_met SelfCheckWitness.self_refuted settled_self",
      "Reflexivity (check_self_equivalent, check_self_never_refuted) holds for every circuit, whatever its ancillary qubits and whether or not operations could be mistaken for each other, except for lookahead on compound operations with SWAPs, where it is false (self_refuted: verify() reports that a circuit is not equivalent to itself); it assumes in addition that mqt-core finds an operation equal to itself and recognises the identity (SharpManagerRun). Transitivity is false if the middle circuit has fewer qubits than both others (narrow_not_transitive: the qubits a circuit lacks are compared in |0> only); proved if it has at least the qubits both others have, for circuits whose ancillary qubits agree and are the last ones, up to the exceptions of C82 (Excused). Trusted base as in C81.")
claim("C86", "proved", "rounded_sequential_verdict rounded_parallel_verdict rounded_sequential_decides rounded_parallel_decides rounded_verdict_separates rounded_answer_means drift_linear Inexactly.equivalent_pair Inexactly.different_pair Inexactly.run_exists Inexactly.budget Inexactly.pair_safe rounded_composed_verdict rounded_delayed_verdict",
      "The restriction to runs without the construction checker for negative verdicts is necessary: rounding_borderline (C73). The ZX checker is taken to be exact; ancillas the alternating checker reduces are idle in one of the circuits (canHandle, C36). Safe is only asked if the alternating checker is enabled; circuits that are not safe are the exception of C02 (exact packages are packages with error zero, so its counterexamples apply).")
claim("C87", "proved", "verify_verdict_rounded manager_verdict_rounded verify_rounded_decides rcalm_definite rcalm_manager_run inexact_constructed construction_not_used VerifyRoundingWitness.rounded_verify_runs VerifyRoundingWitness.rcalm_run_exists VerifyRoundingWitness.rcalm_realises safe_of_not_nearly_misled VerifyRoundingWitness.rounded_not_misled",
      "Combines C86 with the preparation theorems of C64/C81. The drift is that of the prepared circuits (what the checkers work on); the passes are taken to be exact, as in C81. Hypothesis ConstructionRuns is ruled out from the given circuits by construction_not_used. The exception NearlyMisled is named in the theorems, not assumed away; rounded_not_misled: the example pair is no such case.")
claim("C88", "partial", "compiled_equal compiled_accepted_partial compiled_not_refuted_partial compiled_verdict_partial RoutingWitness.compiled_met RoutingWitness.compiled_rejected RoutingWitness.flip_prepared RoutingWitness.misled_call RoutingWitness.routed_not_misled compiled_wider_accepted compiled_wider_not_refuted shared_ancilla_not_misled RoutingWitness.routed_wider",
      "The full statement is false of the code: misled_call is an uninterrupted call of verify that rejects a correct compilation, because the alternating checker skips identical gates that act on different logical qubits (finding 49). The theorems name this case (Misled), and the run that gives up (ParallelWithBoth, C82); routed_not_misled: a compilation with a SWAP and another layout that is not misled. If the compiled circuit uses, after the passes, a qubit the original does not have, and the scheme is not lookahead, there is no such case: compiled_wider_accepted, compiled_wider_not_refuted (met: routed_wider).")
claim("C89", "partial", "partial_is_weaker partial_never_contradicts partial_same_verdict partial_exchange partial_self partial_trans partly_decides partly_refuted partiallyEqual_symm partiallyEqual_trans PartialRelationWitness.weaker_met PartialRelationWitness.contradicts_met PartialRelationWitness.exchange_met PartialRelationWitness.construction_changes_verdict manager_partial_self_never_refuted manager_partial_self check_partial_self_never_refuted check_partial_self SelfCheckPartialWitness.partial_self_met",
      "That options do not change verdicts is false if the construction checker is used: it compares outcome probabilities on basis states only (construction_changes_verdict: the same two circuits are reported equivalent with it and not equivalent with the alternating checker). The theorems name this case (ConstructionUsed) and those of C82 (Excused: shortcut for circuits without operations, giving up, misled alternating checker). Transitivity for circuits with the same number of qubits. That a circuit is never reported different from itself needs the exception Misled only for lookahead (check_partial_self; for any ancillary qubits manager_partial_self, with the exception of C74 for the alternating checker). Trusted base as in C74; in addition, for check_partial_self, that an operation compares equal to itself and the identity is recognised.")
claim("C90", "partial", "checked_common_true fullyChecked_decides_common same_verdict_common exchange_verdict_common no_contradiction_common alternating_decides_common manager_common_true manager_decides_common not_otherwise_same not_otherwise_alternating VerifyCommonWitness.different_ancillas_decided VerifyCommonWitness.zx_changes_verdict",
      "False of the code, and excepted by name (OtherwiseTreated), if a checker other than the alternating one is used that treats the ancillary qubits differently: construction if the circuits declare different ones (same_operations_refuted in C81), ZX-calculus in that case (zx_changes_verdict: with it Z on a qubit that only the first circuit declares as ancillary is equivalent to no operation, with the alternating checker it is not), simulation and ZX-calculus if the ancillary qubits are not the last ones of the first circuit. not_otherwise_same, not_otherwise_alternating: when this cannot happen. The other exceptions are those of C82. Trusted base as in C81.")
claim("C91", "proved", "detection_probability detection_bound enough_simulations_detect enough_simulations_decide requests_return_ae stimuli_equally_likely runs_exist numberTape_ideal swap_disagreements swap_missed_rarely swap_never_missed parallel_detection_probability parallel_detection_bound parallel_enough_simulations_detect parallel_enough_simulations_decide stimulated parallel_simulation_run_exists parallel_runs_exist parallel_swap_missed_rarely",
      "Both flows; in the parallel one for every schedule of the threads (the stimuli of the simulations handled are, in some order, the first ones requested: stimulated). The property is about classical stimuli of up to 63 data qubits. That std::mt19937_64 with std::uniform_int_distribution behaves like independent uniform numbers is an idealisation (it cannot be proved: the engine is deterministic); the last sentence does not need it. What the simulation checker answers is as in C06 and C79, with exact arithmetic.")
claim("C92", "proved", "stimuli_probability stimuli_bound parallel_stimuli_probability parallel_stimuli_bound stimuli_law product_stimuli_complete product_stimuli_detect product_stimuli_agree agreement_lt agreement_one product_simulations_converge blocks_prob kinds_runs_exist ideal_source_exists zSetting_disagreements zSetting_agreement z_missed_rarely product_average product_fidelity_average product_agreement_bound product_simulations_bound processFidelity_le_one processFidelity_one_iff zSetting_fidelity z_bounded quad_sum product_average_ge product_fidelity_average_ge product_disagreement_bound product_simulations_miss mcz_fidelity no_number_suffices",
      "That std::mt19937_64 with std::uniform_int_distribution behaves like independent uniform numbers is an idealisation (the engine is deterministic). What the random Clifford circuit computes from its seed is a parameter of the setting (mqt-core); the theorem about stabilizer stimuli is about whatever it computes. Classical stimuli of up to 63 qubits are C91. Exact arithmetic (rounding is C86).")
claim("C93", "partial", "rounded_partial_sequential_verdict rounded_partial_parallel_verdict rounded_partial_sequential_decides rounded_partial_parallel_decides rounded_partial_composed_verdict rounded_partial_delayed_verdict rounded_partial_answer_means rounded_partial_conclusive partially_within_zero rounding_partial_alternating rounding_partial_simulation rounding_partial_never_refutes RoundingPartialCases.alternating_case RoundingPartialCases.alternating_accepts RoundingPartialCases.alternating_refutes RoundingPartialCases.simulation_accepts RoundingPartialCases.unread_run RoundingPartialCases.run_accepts RoundingPartialCases.run_refutes RoundingPartialCases.partially RoundingPartialCases.not_same RoundingPartialCases.told_apart",
      "Not for verdicts of the construction checker, which is unsound with partial equivalence already in exact arithmetic (C62, C74, partial_manager_unsound): PMeaning and PRMeaning leave them out. As in C74 the negative verdict of the alternating checker needs a circuit that does not act on the common ancillary qubits, and circuits that lead the alternating checker astray (C02) are excepted. That the package's test for the identity up to garbage accepts within theta0 of such an operator is an assumption (RoundedGarbageTest; the test compares weights of nodes, which are relative to the norm of the node, so theta0 can be much smaller than the configured threshold, about its square). partially_within_zero: without errors the meaning is C74's.")
claim("C94", "partial", "verify_verdict_rounded_partial manager_verdict_rounded_partial verify_rounded_partial_decides rpverdict_of_meaning inexact_partial_constructed partiallyNear_zero common_not_used rpcalm_definite rounded_partial_sequential_definite inexact_same_garbage one_idle_of_not_used VerifyRoundingPartialWitness.rounded_partial_verify_runs VerifyRoundingPartialWitness.partial_not_misled VerifyRoundingPartialWitness.far",
      "Verdicts of the construction checker are excepted (it is unsound with partial equivalence, C62, C74), as are the limits already found in exact arithmetic: the shortcut for circuits without operations (C08), circuits that lead the alternating checker astray (C02, C36), ancillary qubits that are not the last ones together with simulations or ZX (C71), and, for NotEquivalent, common ancillary qubits that both circuits use (none if no qubit is declared ancillary in both: common_not_used). partiallyNear_zero: with drift zero the meaning is partial equivalence. Rounding assumptions as in C93.")
if __name__ == "__main__":
    out = {"claims": [T[k] for k in sorted(T)]}
    json.dump(out, open("/verif/MANIFEST.json", "w"), indent=1)
    print(len(T), "claims")
