{
 "claims": [
  {
   "property": "C01",
   "status": "proved",
   "theorems": [
    "QCEC.Props.each_operation_once_in_order",
    "QCEC.Props.recorder",
    "QCEC.Props.recorder_all",
    "QCEC.Props.initScheme_good",
    "QCEC.Props.verdict_scheme_independent"
   ],
   "note": "Oracle calls that crash or throw are covered (the run then ends early); all five schemes, any operation lists."
  },
  {
   "property": "C02",
   "status": "partial",
   "theorems": [
    "QCEC.Props.alternating_product_partial",
    "QCEC.Props.identity_skip_wrong",
    "QCEC.Props.lookahead_compound_wrong",
    "QCEC.Props.skip_pair_not_safe",
    "QCEC.Props.swaps_can_be_safe",
    "QCEC.Props.alternating_product_checked_partial",
    "QCEC.Props.safe_of_not_mistakable",
    "QCEC.Props.shared_ancilla_not_misled"
   ],
   "note": "For lookahead: proved unless compound operations contain SWAPs (false then, lookahead_compound_wrong). For the other schemes: alternating_product_partial for CancelSafe pairs, i.e. when operations that compare equal do the same to the logical qubits wherever they occur (Spec/Functionality.lean), from any initial diagram; alternating_product_checked_partial for the diagram the checker starts with and SkipSafe pairs, where this is only asked of operations that follow beginnings which do the same up to a phase. safe_of_not_mistakable: SkipSafe says that the same operation never follows such beginnings on physical qubits that carry different logical ones. Nothing is skipped at all if a qubit is ancillary in both circuits, because the diagram is singular then (part of SkipSafe; shared_ancilla_not_misled: such a qubit survives the preparation if one circuit uses it). Otherwise false (identity_skip_wrong, whose pair is not SkipSafe by skip_pair_not_safe). CancelSafe holds e.g. for equal layouts without SWAPs, but also for circuits with SWAPs (swaps_can_be_safe)."
  },
  {
   "property": "C03",
   "status": "proved",
   "theorems": [
    "QCEC.Props.construction_true_functionality",
    "QCEC.Props.simulation_true_output",
    "QCEC.Props.simulation_partial_output"
   ],
   "note": ""
  },
  {
   "property": "C04",
   "status": "partial",
   "theorems": [
    "QCEC.Props.alternating_verdict_sound_partial",
    "QCEC.Props.alternating_verdict_correct_partial",
    "QCEC.Props.identity_skip_wrong",
    "QCEC.Props.lookahead_compound_wrong"
   ],
   "note": "Same side conditions as C02; the witnesses show the full statement is false of the code."
  },
  {
   "property": "C05",
   "status": "partial",
   "theorems": [
    "QCEC.Props.construction_verdict_correct",
    "QCEC.Props.construction_different_flags_partial",
    "QCEC.Props.construction_flags_incomplete"
   ],
   "note": "Full for equal ancillary/garbage flags; with different flags only one direction holds (witness)."
  },
  {
   "property": "C06",
   "status": "proved",
   "theorems": [
    "QCEC.Props.simulation_never_refutes_equivalent",
    "QCEC.Props.simulation_counterexample_real",
    "QCEC.Props.simulation_passed_meaning",
    "QCEC.Props.simulation_passed_distance"
   ],
   "note": ""
  },
  {
   "property": "C07",
   "status": "partial",
   "theorems": [
    "QCEC.Props.checkers_agree_partial",
    "QCEC.Props.alternating_positive_confirmed_partial",
    "QCEC.Props.construction_flags_incomplete"
   ],
   "note": "Under the side conditions of C02 and equal flags; false for different flags (witness)."
  },
  {
   "property": "C08",
   "status": "partial",
   "theorems": [
    "QCEC.Props.empty_verdict",
    "QCEC.Props.empty_same_iff",
    "QCEC.Props.empty_verdict_right_partial",
    "QCEC.Props.empty_shortcut_wrong"
   ],
   "note": "The shortcut ignores output permutations; right when they agree, witness otherwise."
  },
  {
   "property": "C09",
   "status": "proved",
   "theorems": [
    "QCEC.Props.sequential_returned",
    "QCEC.Props.sequential_verdict_explained",
    "QCEC.Props.sequential_verdict_not_invented",
    "QCEC.Props.sequential_all_consulted"
   ],
   "note": ""
  },
  {
   "property": "C10",
   "status": "proved",
   "theorems": [
    "QCEC.Props.conclusive_is_final"
   ],
   "note": ""
  },
  {
   "property": "C11",
   "status": "proved",
   "theorems": [
    "QCEC.Props.sequential_counters",
    "QCEC.Props.sequential_sims_complete",
    "QCEC.Props.probably_equivalent_meaning"
   ],
   "note": ""
  },
  {
   "property": "C12",
   "status": "partial",
   "theorems": [
    "QCEC.Props.sequential_returns_partial",
    "QCEC.Props.sequential_without_timeout",
    "QCEC.Props.sequential_timeout_crash"
   ],
   "note": "With a timeout the process is terminated whenever a simulation gives up (witness); proved otherwise."
  },
  {
   "property": "C13",
   "status": "proved",
   "theorems": [
    "QCEC.Props.parallel_verdict_explained",
    "QCEC.Props.parallel_verdict_not_invented",
    "QCEC.Props.parallel_stop_reason",
    "QCEC.Props.parallel_verdict_depends_on_schedule"
   ],
   "note": "Includes the witness that contradicting evidence discards a checker that would settle the question."
  },
  {
   "property": "C14",
   "status": "partial",
   "theorems": [
    "QCEC.Props.parallel_thread_bound_partial",
    "QCEC.Props.three_threads_suffice",
    "QCEC.Props.parallel_overflow_iff",
    "QCEC.Props.parallel_too_few_threads"
   ],
   "note": "False with two threads and alternating+construction+ZX (out-of-bounds access); exact condition proved."
  },
  {
   "property": "C15",
   "status": "partial",
   "theorems": [
    "QCEC.Props.parallel_finite",
    "QCEC.Props.parallel_ends_partial",
    "QCEC.Props.parallel_terminates_partial",
    "QCEC.Props.parallel_can_wait_forever"
   ],
   "note": "Every execution is finite; stuck states are final except one situation, which is reachable."
  },
  {
   "property": "C16",
   "status": "proved",
   "theorems": [
    "QCEC.Props.sequential_conflicting_evidence",
    "QCEC.Props.sequential_suspicion_reported",
    "QCEC.Props.parallel_suspicion_reported",
    "QCEC.Props.parallel_zx_without_answer"
   ],
   "note": ""
  },
  {
   "property": "C17",
   "status": "proved",
   "theorems": [
    "QCEC.Props.sequential_sound",
    "QCEC.Props.parallel_sound",
    "QCEC.Props.flows_never_contradict"
   ],
   "note": ""
  },
  {
   "property": "C18",
   "status": "partial",
   "theorems": [
    "QCEC.Props.sequential_without_timeout",
    "QCEC.Props.sequential_threw",
    "QCEC.Props.parallel_exceptions",
    "QCEC.Props.parallel_exception_propagates",
    "QCEC.Props.parallel_no_crash_partial",
    "QCEC.Props.parallel_null_checker",
    "QCEC.Props.parallel_exception_waits"
   ],
   "note": "False if a constructor throws while another checker finishes first (witness)."
  },
  {
   "property": "C19",
   "status": "proved",
   "theorems": [
    "QCEC.Props.parallel_timeout_verdict",
    "QCEC.Props.parallel_stop_reaches_running"
   ],
   "note": ""
  },
  {
   "property": "C20",
   "status": "proved",
   "theorems": [
    "QCEC.Props.reset_like_fresh",
    "QCEC.Props.run_keeps_cfg",
    "QCEC.Props.rerun_after_reset",
    "QCEC.Props.rerun_without_reset_loses_verdict",
    "QCEC.Props.rerun_smaller_max_diverges",
    "QCEC.Props.rerun_smaller_max_hangs",
    "QCEC.Props.parallel_rerun_loses_verdict"
   ],
   "note": ""
  },
  {
   "property": "C21",
   "status": "proved",
   "theorems": [
    "QCEC.Props.parallel_counters",
    "QCEC.Props.parallel_definitive_once",
    "QCEC.Props.parallel_queue"
   ],
   "note": ""
  },
  {
   "property": "C22",
   "status": "proved",
   "theorems": [
    "QCEC.Props.queue_contents",
    "QCEC.Props.queue_linearizable",
    "QCEC.Props.queue_exactly_once",
    "QCEC.Props.queue_quiescent",
    "QCEC.Props.queue_single_consumer_order",
    "QCEC.Props.queue_real_time",
    "QCEC.Props.queue_history",
    "QCEC.Props.queue_memory_safe",
    "QCEC.Props.queue_no_race",
    "QCEC.Props.queue_no_deadlock"
   ],
   "note": "Any number of producers and consumers, single shared accesses as steps, addresses may be reused."
  },
  {
   "property": "C23",
   "status": "partial",
   "theorems": [
    "QCEC.Props.queue_wakeup_partial",
    "QCEC.Props.queue_notify_wakes",
    "QCEC.Props.queue_lost_wakeup"
   ],
   "note": "False: the notification can fall between the test and the wait (witness); holds for a consumer that fell asleep on an empty queue."
  },
  {
   "property": "C24",
   "status": "proved",
   "theorems": [
    "QCEC.Props.queue_null_after_deadline",
    "QCEC.Props.queue_null_only_if_empty",
    "QCEC.Props.queue_deadline_wakes",
    "QCEC.Props.queue_exactly_once"
   ],
   "note": ""
  },
  {
   "property": "C25",
   "status": "proved",
   "theorems": [
    "QCEC.Props.stimulus_shape",
    "QCEC.Props.stimuli_distinct",
    "QCEC.Props.stimuli_exhaustive",
    "QCEC.Props.wide_stimuli_may_repeat",
    "QCEC.Props.product_stimulus",
    "QCEC.Props.product_all_combinations",
    "QCEC.Props.wide_bits",
    "QCEC.Props.wide_all_inputs"
   ],
   "note": "Distinctness is claimed up to 63 data qubits; beyond that repeats are possible (witness)."
  },
  {
   "property": "C26",
   "status": "partial",
   "theorems": [
    "QCEC.Props.request_returns_iff",
    "QCEC.Props.exhausted_never_returns",
    "QCEC.Props.at_most_all_stimuli",
    "QCEC.Props.capped_requests_return",
    "QCEC.Props.raised_max_never_returns",
    "QCEC.Props.other_requests_return",
    "QCEC.Props.counter_fair"
   ],
   "note": "Holds after construction for every random source that eventually produces every value; false after setMaxSims raised the number beyond the basis states (theorem)."
  },
  {
   "property": "C27",
   "status": "proved",
   "theorems": [
    "QCEC.Props.wide_stimulus",
    "QCEC.Props.wide_bits",
    "QCEC.Props.wide_all_inputs"
   ],
   "note": ""
  },
  {
   "property": "C28",
   "status": "proved",
   "theorems": [
    "QCEC.Props.criterion_roundtrip",
    "QCEC.Props.criterion_toStr_injective",
    "QCEC.Props.criterion_parse_exact",
    "QCEC.Props.criterion_stream_roundtrip",
    "QCEC.Props.scheme_roundtrip",
    "QCEC.Props.scheme_toStr_injective",
    "QCEC.Props.scheme_parse_exact",
    "QCEC.Props.scheme_stream_roundtrip",
    "QCEC.Props.stateType_roundtrip",
    "QCEC.Props.stateType_toStr_injective",
    "QCEC.Props.stateType_parse_exact",
    "QCEC.Props.stateType_stream_roundtrip",
    "QCEC.Props.readEnum_blank",
    "QCEC.Props.readEnum_failed",
    "QCEC.Props.readEnum_fail_iff",
    "QCEC.Props.isSpaceC_iff",
    "QCEC.Props.stateType_documented_names"
   ],
   "note": ""
  },
  {
   "property": "C29",
   "status": "partial",
   "theorems": [
    "QCEC.Props.scheme_numeric_alias",
    "QCEC.Props.stateType_numeric_alias",
    "QCEC.Props.criterion_numeric_alias_partial",
    "QCEC.Props.criterion_numeric_alias_false",
    "QCEC.Props.criterion_numeric_alias_confusion"
   ],
   "note": "False for the equivalence criterion."
  },
  {
   "property": "C30",
   "status": "partial",
   "theorems": [
    "QCEC.Props.anythingToExecute_iff",
    "QCEC.Props.onlySingleTask_sound",
    "QCEC.Props.onlySingleTask_exact_partial",
    "QCEC.Props.onlySingleTask_not_exact",
    "QCEC.Props.onlyZX_iff",
    "QCEC.Props.onlyZX_tasks",
    "QCEC.Props.onlySimulation_iff",
    "QCEC.Props.onlySimulation_tasks",
    "QCEC.Props.computeMaxSims_eq",
    "QCEC.Props.default_tasks",
    "QCEC.Props.setMaxSims_spec",
    "QCEC.Props.disableAll_nothing"
   ],
   "note": "onlySingleTask misses the case of zero simulations."
  },
  {
   "property": "C31",
   "status": "proved",
   "theorems": [
    "QCEC.Props.keyword_iff_documented",
    "QCEC.Props.option_has_keyword",
    "QCEC.Props.augment_spec",
    "QCEC.Props.augment_accepts",
    "QCEC.Props.augment_rejects",
    "QCEC.Props.augment_order",
    "QCEC.Props.config_ext",
    "QCEC.Props.augment_leaves_partial_changes"
   ],
   "note": "If a keyword is rejected, options set before stay changed in the caller's configuration object (theorem)."
  },
  {
   "property": "C32",
   "status": "proved",
   "theorems": [
    "QCEC.Props.construct_fallback",
    "QCEC.Props.alternating_never_throws_after_construction",
    "QCEC.Props.fallback_keeps_functionality_check",
    "QCEC.Props.construct_defined_partial",
    "QCEC.Props.PrepareWitness.construct_made",
    "QCEC.Props.PrepareWitness.fallback_happens",
    "QCEC.Props.PrepareWitness.setter_reenables_throwing_checker",
    "QCEC.Props.PrepareWitness.fallback_may_throw"
   ],
   "note": "Claims the state after construction; the witnesses show that setters and the lookahead scheme get around it."
  },
  {
   "property": "C33",
   "status": "partial",
   "theorems": [
    "QCEC.Props.cap_spec_partial",
    "QCEC.Props.cap_undefined",
    "QCEC.Props.cap_keeps"
   ],
   "note": "Full below 64 data qubits; from 64 on the shift is undefined (theorem)."
  },
  {
   "property": "C34",
   "status": "proved",
   "theorems": [
    "QCEC.Props.strip_idle_qubits",
    "QCEC.Props.strip_keeps_correspondence",
    "QCEC.Props.strip_keeps_used"
   ],
   "note": ""
  },
  {
   "property": "C35",
   "status": "proved",
   "theorems": [
    "QCEC.Props.setup_ancillaries",
    "QCEC.Props.setup_same_width",
    "QCEC.Props.prepared_circuits",
    "QCEC.Props.PrepareWitness.padding_without_physical_qubit",
    "QCEC.Props.PrepareWitness.surplus_output_marked_garbage"
   ],
   "note": "The witnesses show two defects the property does not speak about."
  },
  {
   "property": "C36",
   "status": "partial",
   "theorems": [
    "QCEC.Props.canHandle_iff",
    "QCEC.Props.alternating_throws_iff",
    "QCEC.Props.prepared_circuits",
    "QCEC.Props.alternating_verdict_correct_partial",
    "QCEC.Props.canHandle_ignores_output",
    "QCEC.Props.accepted_of_canHandle",
    "QCEC.Props.accepted_of_made",
    "QCEC.Props.MisreadWitness.misread_call"
   ],
   "note": "The exact condition is proved; accepted pairs whose idle ancillary is read out elsewhere get a wrong verdict (canHandle_ignores_output; misread_call for verify()). accepted_of_made: what canHandle checks of the prepared circuits is what the answers of the alternating checker in C81, C82, C85-C90 presuppose (Accepted)."
  },
  {
   "property": "C37",
   "status": "proved",
   "theorems": [
    "QCEC.Props.passes_exact",
    "QCEC.Props.construct_throws_iff",
    "QCEC.Props.symbolic_circuits_not_optimised",
    "QCEC.Props.passes_keep_meaning",
    "QCEC.Props.PrepareWitness.symbolic_optimisation_unreachable"
   ],
   "note": "The passes themselves are mqt-core code and abstract."
  },
  {
   "property": "C38",
   "status": "partial",
   "theorems": [
    "QCEC.Props.invert_spec",
    "QCEC.Props.invert_involutive",
    "QCEC.Props.concat_spec",
    "QCEC.Props.complete_spec",
    "QCEC.Props.complete_bijection",
    "QCEC.Props.invertPermutations_spec",
    "QCEC.Props.invertPermutations_bijection_partial",
    "QCEC.Props.gap_loses_qubit"
   ],
   "note": "Everything is proved except that the map from outputs to wires is a bijection for layouts with gaps in which some qubit is not read out: there it is not (witness)."
  },
  {
   "property": "C39",
   "status": "partial",
   "theorems": [
    "QCEC.Props.zx_never_notEquivalent",
    "QCEC.Props.zx_stopped",
    "QCEC.Props.zx_ancilla",
    "QCEC.Props.zx_positive_iff",
    "QCEC.Props.zx_sound",
    "QCEC.Props.zx_sound_ancilla",
    "QCEC.Props.zx_skips_garbage",
    "QCEC.Props.zx_garbage_index",
    "QCEC.Props.zx_rotated_ancilla"
   ],
   "note": "Exact condition and semantic soundness are proved; soundness fails for qubits that are garbage in both circuits and for circuits that do not return ancillary qubits to |0> (witnesses)."
  },
  {
   "property": "C40",
   "status": "proved",
   "theorems": [
    "QCEC.Props.reduction_keeps",
    "QCEC.Props.reduction_preserves_meaning",
    "QCEC.Props.reduction_terminates",
    "QCEC.Props.reduction_aborts",
    "QCEC.Props.reduction_frozen",
    "QCEC.Props.fullReduce_exhaustive",
    "QCEC.Props.reduction_exhaustive"
   ],
   "note": "The rewrite rules are mqt-core code and arbitrary."
  },
  {
   "property": "C41",
   "status": "proved",
   "theorems": [
    "QCEC.Props.legacyCost_eq",
    "QCEC.Props.legacyCost_closed_form",
    "QCEC.Props.legacyCost_pos",
    "QCEC.Props.legacyCost_mono",
    "QCEC.Props.legacyCost_wraps"
   ],
   "note": ""
  },
  {
   "property": "C42",
   "status": "proved",
   "theorems": [
    "QCEC.Props.gateCost_with_profile",
    "QCEC.Props.gateCost_with_function",
    "QCEC.Props.cost_function_ignored",
    "QCEC.Props.profile_shared",
    "QCEC.Props.scheme_errors",
    "QCEC.Props.find_emplace",
    "QCEC.Props.populate_lookup",
    "QCEC.Props.populate_unknown",
    "QCEC.Props.missing_file_is_error",
    "QCEC.Props.comment_skipped",
    "QCEC.Props.costFunctionTable_lookup",
    "QCEC.Props.profile_roundtrip",
    "QCEC.Props.addSpecialCases_keeps",
    "QCEC.Props.addSpecialCases_covers",
    "QCEC.Props.addSpecialCases_only"
   ],
   "note": ""
  },
  {
   "property": "C43",
   "status": "proved",
   "theorems": [
    "QCEC.Props.simple_schemes",
    "QCEC.Props.gateRatio_rounds",
    "QCEC.Props.gateRatio_symm",
    "QCEC.Props.proportional_defined",
    "QCEC.Props.proportional_undefined_at_end"
   ],
   "note": ""
  },
  {
   "property": "C44",
   "status": "partial",
   "theorems": [
    "QCEC.Props.parameterized_refuted",
    "QCEC.Props.parameterized_not_equivalent_sound",
    "QCEC.Props.parameterized_not_equivalent_tolerance",
    "QCEC.Props.parameterized_reports",
    "QCEC.Props.parameterized_positive",
    "QCEC.Props.parameterized_different_parameters",
    "QCEC.Props.parameterized_file",
    "QCEC.Props.verify_choice",
    "QCEC.Props.rounding_refutes",
    "QCEC.Props.positive_is_sampled",
    "QCEC.Props.refutation_dropped"
   ],
   "note": "Proved in full for tolerance 0 and no timeout; with a tolerance constant angles are rounded too and equivalent circuits can be reported to differ, and a refutation found when the budget runs out is dropped (witnesses)."
  },
  {
   "property": "C45",
   "status": "partial",
   "theorems": [
    "QCEC.Props.parameterized_stats",
    "QCEC.Props.refutation_dropped"
   ],
   "note": "Exact except when the time runs out in an additional instantiation: that run is missing (theorem and witness)."
  },
  {
   "property": "C46",
   "status": "proved",
   "theorems": [
    "QCEC.Props.extract_parameters",
    "QCEC.Props.extract_affine",
    "QCEC.Props.instantiation_hits",
    "QCEC.Props.zero_instantiation",
    "QCEC.Props.solver_exists",
    "QCEC.Props.extract_nonaffine",
    "QCEC.Props.phase_instantiation",
    "QCEC.Props.parameterized_checks",
    "QCEC.Props.mem_parameters",
    "QCEC.Props.eval_value",
    "QCEC.Props.eval_only_parameters",
    "QCEC.Props.affine_parameters"
   ],
   "note": "pinv is assumed to solve solvable systems; expressions that are not affine are misrepresented (witness)."
  },
  {
   "property": "C47",
   "status": "partial",
   "theorems": [
    "QCEC.Props.parameterized_time",
    "QCEC.Props.parameterized_no_timeout",
    "QCEC.Props.late_no_information",
    "QCEC.Props.exact_budget_is_unlimited",
    "QCEC.Props.first_check_not_charged"
   ],
   "note": "Bound T + two checks + one instantiation unless the charged time meets the timeout exactly, in which case there is no limit (witness)."
  },
  {
   "property": "C48",
   "status": "proved",
   "theorems": [
    "QCEC.Props.consideredEquivalent_iff",
    "QCEC.Props.json_sections",
    "QCEC.Props.json_execution",
    "QCEC.Props.json_application",
    "QCEC.Props.json_profile",
    "QCEC.Props.json_optimizations",
    "QCEC.Props.json_simulation",
    "QCEC.Props.json_functionality",
    "QCEC.Props.json_parts",
    "QCEC.Props.report_verdict",
    "QCEC.Props.report_fields",
    "QCEC.Props.report_simulations",
    "QCEC.Props.report_counterexample",
    "QCEC.Props.report_faithful",
    "QCEC.Props.sequential_report"
   ],
   "note": ""
  },
  {
   "property": "C49",
   "status": "partial",
   "theorems": [
    "QCEC.Props.symbolic_verdict",
    "QCEC.Props.symbolic_returns_partial",
    "QCEC.Props.symbolic_timeout_crash",
    "QCEC.Props.report_no_instantiations",
    "QCEC.Props.readSize_sign"
   ],
   "note": "With a timeout an unsupported circuit terminates the process (witness)."
  },
  {
   "property": "C50",
   "status": "partial",
   "theorems": [
    "QCEC.Props.stopped_checker_verdict",
    "QCEC.Props.fresh_stopped_checker_partial",
    "QCEC.Props.reused_checker_stale_verdict",
    "QCEC.Props.stopped_alternating_verdict",
    "QCEC.Props.parallel_stop_reaches_running"
   ],
   "note": "A reused simulation checker reports its previous verdict when stopped (witness)."
  },
  {
   "property": "C51",
   "status": "proved",
   "theorems": [
    "QCEC.Props.optimize_idempotent",
    "QCEC.Props.optimize_history",
    "QCEC.Props.optimize_enabled",
    "QCEC.Props.PrepareWitness.symbolic_optimisation_unreachable"
   ],
   "note": ""
  },
  {
   "property": "C52",
   "status": "proved",
   "theorems": [
    "QCEC.Props.recurrence_sound",
    "QCEC.Props.recurrence_complete",
    "QCEC.Props.next_term_nearest",
    "QCEC.Props.continuation_correct",
    "QCEC.Props.continuation_linear",
    "QCEC.Props.continuation_negative"
   ],
   "note": "Exact arithmetic instead of doubles. Predicted costs can be negative (theorem)."
  },
  {
   "property": "C53",
   "status": "proved",
   "theorems": [
    "QCEC.Props.compilation_config",
    "QCEC.Props.profileName_inj",
    "QCEC.Props.profileName_shipped",
    "QCEC.Props.compilation_ignores_scheme",
    "QCEC.Props.compilation_call",
    "QCEC.Props.compilation_asked",
    "QCEC.Props.call_verdict_true"
   ],
   "note": "Keywords for the schemes and the profile are accepted and ignored."
  },
  {
   "property": "C54",
   "status": "proved",
   "theorems": [
    "QCEC.Props.generate_deterministic",
    "QCEC.Props.history_deterministic",
    "QCEC.Props.same_seed_same_stimuli",
    "QCEC.Props.reseed_like_new",
    "QCEC.Props.reseed_and_clear_like_new",
    "QCEC.Props.reset_continues_sequence",
    "QCEC.Props.setSeed_keeps_used_states"
   ],
   "note": "reset() does not reseed and setSeed() keeps the used states; both stated as theorems."
  },
  {
   "property": "C55",
   "status": "partial",
   "theorems": [
    "QCEC.Props.construction_different_flags_partial",
    "QCEC.Props.reductions_on_both_sides_partial",
    "QCEC.Props.construction_partial_exact",
    "QCEC.Props.simulation_partial_meaning",
    "QCEC.Props.construction_partial_unsound"
   ],
   "note": "reductions_on_both_sides_partial holds for any package: both objects are reduced, on the right side, before the comparison. With the package's garbage reduction in exact arithmetic construction_partial_exact and simulation_partial_meaning say exactly what the comparison of the reduced objects then means. The last clause of the statement (agreement for every logical input) is false for superpositions: construction_partial_unsound. Different ancillary flags: construction_different_flags_partial."
  },
  {
   "property": "C56",
   "status": "partial",
   "theorems": [
    "QCEC.Props.ancillae_fixed_partial",
    "QCEC.Props.ancillae_fixed_iff",
    "QCEC.Props.construct_fixed_iff",
    "QCEC.Props.ancilla_wrong_output",
    "QCEC.Props.ancilla_out_of_range",
    "QCEC.Props.gap_loses_qubit"
   ],
   "note": "The exact condition is proved: right if and only if the ancillary qubits end on wires in increasing order (in both circuits); otherwise other outputs are fixed or behaviour is undefined (witnesses)."
  },
  {
   "property": "C57",
   "status": "proved",
   "theorems": [
    "QCEC.Props.sequential_counterexample",
    "QCEC.Props.parallel_counterexample"
   ],
   "note": ""
  },
  {
   "property": "C58",
   "status": "proved",
   "theorems": [
    "QCEC.Props.parallel_mode_iff",
    "QCEC.Props.mode_complete",
    "QCEC.Props.nothing_run"
   ],
   "note": ""
  },
  {
   "property": "C59",
   "status": "partial",
   "theorems": [
    "QCEC.Props.sequential_reports",
    "QCEC.Props.symbolic_reports",
    "QCEC.Props.parallel_reports",
    "QCEC.Props.rerun_reports_twice",
    "QCEC.Props.checker_report",
    "QCEC.Props.checker_name_injective"
   ],
   "note": "Proved for all three flows on a fresh or reset manager; without reset() earlier checkers are reported again (theorem rerun_reports_twice: the claim is false of the code there)."
  },
  {
   "property": "C60",
   "status": "partial",
   "theorems": [
    "QCEC.Props.setter_writes",
    "QCEC.Props.setter_cost",
    "QCEC.Props.setters_history",
    "QCEC.Props.setters_history_cost",
    "QCEC.Props.setters_commute",
    "QCEC.Props.maxSims_not_last_call",
    "QCEC.Props.maxSims_last_call_iff",
    "QCEC.Props.maxSims_default_wraps",
    "QCEC.Props.maxSims_default_iff",
    "QCEC.Props.cost_function_ignored",
    "QCEC.Props.profile_shared"
   ],
   "note": "Proved for all setters and histories. Two expectations are refuted with the exact condition under which they hold: setMaxSims(0) disables simulations for good, and the Python default of set_max_sims wraps around on a machine reporting fewer than two threads."
  },
  {
   "property": "C61",
   "status": "partial",
   "theorems": [
    "QCEC.Props.sequential_verdict_true",
    "QCEC.Props.parallel_verdict_true",
    "QCEC.Props.composed_verdict_true",
    "QCEC.Props.delayed_verdict_true",
    "QCEC.Props.sequential_verdict_decides",
    "QCEC.Props.answer_means",
    "QCEC.Props.decided_run_exists",
    "QCEC.Props.parallel_verdict_decides",
    "QCEC.Props.parallel_verdict_decides_pair",
    "QCEC.Props.parallel_decided_returns",
    "QCEC.Props.decided_parallel_run_exists",
    "QCEC.Props.parallel_verdict_depends_on_schedule",
    "QCEC.Props.answer_mixed",
    "QCEC.Props.mixed_answer_means",
    "QCEC.Props.mixed_sequential_verdict",
    "QCEC.Props.mixed_parallel_verdict",
    "QCEC.Props.VerifyMixedWitness.exists_mixed_alternating"
   ],
   "note": "The last sentence is false of the parallel flow: it gives up with NoInformation as soon as all simulations have passed and the ZX checker has a doubt, even while the alternating checker is still running (parallel_verdict_depends_on_schedule); parallel_verdict_decides proves that this is the only exception, parallel_verdict_decides_pair that there is none without simulations or without ZX. Exact arithmetic; circuits for which skipping identical gates is safe (SkipSafe, see C02); no partial equivalence; a fresh checker table for the parallel flow. Each of these is necessary: see the counterexamples listed with C02, C04, C20, C55. Any qubits may be ancillary, in each circuit different ones: mixed_sequential_verdict, mixed_parallel_verdict (MMeaning); what a verdict then speaks about, and why the construction checker is excepted, is shown by the witnesses of C81."
  },
  {
   "property": "C62",
   "status": "partial",
   "theorems": [
    "QCEC.Props.prob_physical",
    "QCEC.Props.same_partially",
    "QCEC.Props.partially_basis",
    "QCEC.Props.alternating_partial_sound_partial",
    "QCEC.Props.alternating_partial_exact_partial",
    "QCEC.Props.construction_partial_exact",
    "QCEC.Props.construction_partial_never_refutes",
    "QCEC.Props.simulation_partial_meaning",
    "QCEC.Props.simulation_partial_never_refutes",
    "QCEC.Props.construction_partial_unsound",
    "QCEC.Props.alternating_partial_incomplete",
    "QCEC.Props.construction_one_sided_garbage",
    "QCEC.Props.one_sided_garbage_contradiction",
    "QCEC.Props.one_sided_garbage_accepted"
   ],
   "note": "The full statement is false of the code. Construction only compares outcome probabilities on basis states (construction_partial_exact says exactly what it decides): construction_partial_unsound has a pair it accepts although it is not partially equivalent, and which the alternating checker refutes. The alternating checker is sound (alternating_partial_sound_partial) and exact when one circuit is idle on all common ancillaries (alternating_partial_exact_partial), but refutes partially equivalent circuits when the common ancillaries are idle in different circuits (alternating_partial_incomplete). Simulation never refutes partially equivalent circuits, and a passed simulation bounds the difference of all outcome probabilities on its stimulus. Pairs that are not SkipSafe: see C02."
  },
  {
   "property": "C63",
   "status": "partial",
   "theorems": [
    "QCEC.Props.composed_refines",
    "QCEC.Props.composed_same_states",
    "QCEC.Props.composed_ids",
    "QCEC.Props.composed_gives_up_late",
    "QCEC.Props.composed_queue_unused",
    "QCEC.Props.composed_finite",
    "QCEC.Props.composed_timeout_returns",
    "QCEC.Props.composed_can_give_up",
    "QCEC.Props.composed_stuck",
    "QCEC.Props.composed_can_hang",
    "QCEC.Props.composed_hangs_iff"
   ],
   "note": "All parts hold except the last: without a timeout every such run can hang because of the queue's lost wake-up, whatever its configuration (composed_can_hang; composed_hangs_iff: exactly the runs without a timeout)."
  },
  {
   "property": "C64",
   "status": "proved",
   "theorems": [
    "QCEC.Props.strip_preserves",
    "QCEC.Props.strip_outputs",
    "QCEC.Props.setup_preserves",
    "QCEC.Props.prepare_preserves",
    "QCEC.Props.construct_preserves",
    "QCEC.Props.prepare_preserves_common",
    "QCEC.Props.construct_preserves_common",
    "QCEC.Props.construct_fixed",
    "QCEC.Props.mixed_constructed",
    "QCEC.Props.construct_last",
    "QCEC.Props.construct_preserves_partial",
    "QCEC.Props.constructed_partially",
    "QCEC.Props.constructed_verdict_true",
    "QCEC.Props.prepared_same",
    "QCEC.Props.prepared_verdict_true",
    "QCEC.Props.prepared_verdict_decides",
    "QCEC.Props.prepared_sequential_verdict",
    "QCEC.Props.prepared_sequential_decides",
    "QCEC.Props.prepared_parallel_verdict",
    "QCEC.Props.PreparationWitness.prepared_run",
    "QCEC.Props.PreparationWitness.c1_equal_c2",
    "QCEC.Props.PreparationWitness.constructed",
    "QCEC.Props.VerifyPartialWitness.g1_partially_g2",
    "QCEC.Props.VerifyPartialWitness.g1_not_partially_g3",
    "QCEC.Props.constructed_same_garbage"
   ],
   "note": "The optimization passes are mqt-core code; construct_preserves assumes of the enabled ones that they keep outputs, width and ancillary qubits. Operations are unitary (gates, SWAPs, barriers, compound operations). The end-to-end statements take over the assumptions of C61 about the prepared circuits (Setting)."
  },
  {
   "property": "C65",
   "status": "proved",
   "theorems": [
    "QCEC.Props.timed_run",
    "QCEC.Props.vector_is_table",
    "QCEC.Props.timed_run_early",
    "QCEC.Props.timed_run_complete",
    "QCEC.Props.timed_verdict_explained",
    "QCEC.Props.TimeoutWitness.ordinary_run"
   ],
   "note": "The theorems about run() in Model/Manager.lean (C09-C12, C16, C17, C49, C57, C59, C61, ...) therefore hold of the two-thread program, except for executions with undefined behaviour (C66). Accesses to done are assumed sequentially consistent."
  },
  {
   "property": "C66",
   "status": "partial",
   "theorems": [
    "QCEC.Props.no_race_before_deadline",
    "QCEC.Props.race_when_adding",
    "QCEC.Props.every_timed_run_can_race",
    "QCEC.Props.use_after_free",
    "QCEC.Props.write_can_race",
    "QCEC.Props.read_can_race",
    "QCEC.Props.TimeoutWitness.ordinary_run_may_race",
    "QCEC.Props.TimeoutWitness.ordinary_run_use_after_free",
    "QCEC.Props.TimeoutWitness.ordinary_run_may_race_on_done"
   ],
   "note": "False of the code: true before the deadline as far as the list of checkers is concerned (no_race_before_deadline), but whenever a checker is added while done is not set the timeout may strike in this moment, so every sequential run with a timeout that constructs a checker can have undefined behaviour, including reading a freed buffer; the plain bool done is raced on by every decided run."
  },
  {
   "property": "C67",
   "status": "partial",
   "theorems": [
    "QCEC.Props.decided_run_waits_only_if_lost",
    "QCEC.Props.notification_can_be_lost",
    "QCEC.Props.undecided_run_waits",
    "QCEC.Props.TimeoutWitness.ordinary_run_may_wait",
    "QCEC.Props.TimeoutWitness.undecided_always_waits"
   ],
   "note": "False of the code: a run whose checkers give no decision (e.g. passing simulations and an unsupported ZX check) never returns before the deadline (undecided_run_waits); a decided run waits only if the notification comes between the timeout thread's test of done and its wait (decided_run_waits_only_if_lost), which can happen in every run (notification_can_be_lost)."
  },
  {
   "property": "C68",
   "status": "proved",
   "theorems": [
    "QCEC.Props.running_checker_told",
    "QCEC.Props.told_only_by_timeout",
    "QCEC.Props.running_checker_is_last",
    "QCEC.Props.TimeoutWitness.simulation_stopped"
   ],
   "note": "The running checker is the last of the list; that it then gives up is C50. For executions without undefined behaviour (C66)."
  },
  {
   "property": "C69",
   "status": "partial",
   "theorems": [
    "QCEC.Props.no_race_on_results",
    "QCEC.Props.changes_are_accesses",
    "QCEC.Props.race_iff",
    "QCEC.Props.parallel_can_race",
    "QCEC.Props.parallel_races_without_timeout"
   ],
   "note": "False of the code, but exactly characterised: workers do not race with each other, completed checkers are handled without race, and the only races are the main thread's assignment of done against a worker's read and setAndSignalDone's look at a pointer against a worker creating its checker (race_iff); both can happen in every run with a timeout (parallel_can_race) and in ordinary runs without (parallel_races_without_timeout). The race on the queue is excluded by C22's queue_no_race."
  },
  {
   "property": "C70",
   "status": "partial",
   "theorems": [
    "QCEC.Props.rerun_like_run",
    "QCEC.Props.rerun_still_signalled",
    "QCEC.Props.rerun_crashes_iff",
    "QCEC.Props.rerun_crash_example",
    "QCEC.Props.rerun_case",
    "QCEC.Props.returned_no_null",
    "QCEC.Props.null_after_exception",
    "QCEC.Props.SessionWitness.exception_then_undefined"
   ],
   "note": "Holds (as a simulation of every run of the second kind by one of a fresh manager) when the kinds of checkers launched are those left in the table; then only the stop flags of the earlier run remain set (rerun_still_signalled), which is how C59's parallel_rerun_loses_verdict loses a verdict. False when the configuration is changed in between: a simulation launched into a slot holding another checker dereferences the null result of a dynamic_cast (rerun_crashes_iff, rerun_crash_example). Also false after a run that an exception of a checker constructor left: a null entry stays in the table until reset() (null_after_exception), which a later sequential run dereferences (exception_then_undefined)."
  },
  {
   "property": "C71",
   "status": "partial",
   "theorems": [
    "QCEC.Props.simulation_memory_safe",
    "QCEC.Props.simulation_references",
    "QCEC.Props.completed_simulations_keep_nothing",
    "QCEC.Props.unstopped_simulations_complete",
    "QCEC.Props.construction_memory_safe",
    "QCEC.Props.alternating_memory_safe",
    "QCEC.Props.alternating_references",
    "QCEC.Props.fault_stays",
    "QCEC.Props.fault_iff",
    "QCEC.Props.MemoryWitness.simulation_case",
    "QCEC.Props.MemoryWitness.stopped_simulation_keeps",
    "QCEC.Props.MemoryWitness.missing_reference_faults",
    "QCEC.Props.MemoryWitness.lookahead_case"
   ],
   "note": "Memory safety holds for all three checkers. The balance holds for completed simulations; it is false for stopped ones, each of which keeps exactly two references (simulation_references, stopped_simulation_keeps); construction and alternating checkers never give back their diagrams, which only matters until the checker is destroyed together with its package. Relative to the behaviour of the package assumed in Model/Memory.lean (multiply, getDD do not collect; changePermutation, reduce* and simulate hand over references)."
  },
  {
   "property": "C72",
   "status": "partial",
   "theorems": [
    "QCEC.Props.delayed_like_run",
    "QCEC.Props.delayed_same_outcomes",
    "QCEC.Props.delayed_sound",
    "QCEC.Props.delayed_finite",
    "QCEC.Props.delayed_ends_partial",
    "QCEC.Props.delayed_stop_missed",
    "QCEC.Props.delayed_stop_missed_case",
    "QCEC.Props.delayed_returns",
    "QCEC.Props.run_is_delayed"
   ],
   "note": "Outcomes, soundness and finiteness hold with delays (delayed_same_outcomes, delayed_sound, delayed_finite; delayed_ends_partial has the same exception as C15). The last part is false with delays: delayed_stop_missed exhibits, for every configuration with a timeout that starts a worker, a run that waits for a running checker it has not told to stop (store-buffering pattern; it cannot happen with sequential consistency, parallel_stop_reaches_running). C++ itself gives a racing access no meaning (C69)."
  },
  {
   "property": "C73",
   "status": "partial",
   "theorems": [
    "QCEC.Props.rounding_outputs",
    "QCEC.Props.rounding_overlap",
    "QCEC.Props.rounding_never_refutes",
    "QCEC.Props.rounding_counterexample",
    "QCEC.Props.rounding_equivalent",
    "QCEC.Props.rounding_phase",
    "QCEC.Props.rounding_budget",
    "QCEC.Props.rounding_alternating",
    "QCEC.Props.rounding_alternating_verdict",
    "QCEC.Props.rounding_construction",
    "QCEC.Props.rounding_construction_verdict_partial",
    "QCEC.Props.rounding_factor",
    "QCEC.Props.rounding_bound_attained",
    "QCEC.Props.rounding_false_alarm",
    "QCEC.Props.rounding_borderline",
    "QCEC.Props.rounding_budget_case",
    "QCEC.Props.rounding_borderline_case",
    "QCEC.Props.rounding_alternating_case",
    "QCEC.Props.rounding_false_alarm_case"
   ],
   "note": "Simulation and alternating checks: full (alternating verdict for circuits without common ancillas; the object bound with ancillas). The bound is attained (rounding_bound_attained) and a bound is needed (rounding_false_alarm). Construction: false in a borderline case (rounding_borderline, finding 33): `equals` looks at the product only if neither matrix is found close to the identity. The package's error is an assumption (it is external), stated in Spec/Rounding.lean; with the usual double precision and the default threshold 1e-8, rounding_budget leaves room for about 10^6 multiplications of error 1e-15. The alternating theorems ask (NearSafe) that operations that compare equal do the same behind beginnings that agree within the accumulated error; other circuits are the exception of C02."
  },
  {
   "property": "C74",
   "status": "partial",
   "theorems": [
    "QCEC.Props.partial_answer_means",
    "QCEC.Props.partial_sequential_verdict",
    "QCEC.Props.partial_parallel_verdict",
    "QCEC.Props.partial_conclusive_decides",
    "QCEC.Props.partial_sequential_decides",
    "QCEC.Props.partial_parallel_decides",
    "QCEC.Props.partial_composed_verdict",
    "QCEC.Props.partial_delayed_verdict",
    "QCEC.Props.manager_partial_verdict",
    "QCEC.Props.partial_decided_run_exists",
    "QCEC.Props.partial_equivalent_pair",
    "QCEC.Props.partial_different_pair",
    "QCEC.Props.partial_manager_unsound",
    "QCEC.Props.partial_verdict_depends_on_schedule",
    "QCEC.Props.partial_sequential_definite",
    "QCEC.Props.partial_parallel_definite",
    "QCEC.Props.constructed_same_garbage",
    "QCEC.Props.constructed_one_idle",
    "QCEC.Props.manager_partially_decides",
    "QCEC.Props.VerifyPartialDecidesWitness.partially_decides_both",
    "QCEC.Props.VerifyPartialDecidesWitness.partially_decides_widths",
    "QCEC.Props.RoutingWitness.misled_partial_call"
   ],
   "note": "The full statement is false of the code: with the construction checker enabled the manager reports Equivalent for circuits that are not partially equivalent (partial_manager_unsound, finding 34), and with both complete checkers enabled the verdict of a parallel run depends on which finishes first (partial_verdict_depends_on_schedule). Proved: what each verdict means in terms of the checkers that can have given it (partial_answer_means, partial_sequential_verdict, partial_parallel_verdict, PMeaning in Spec/EndToEndPartial.lean), and with the alternating checker instead of construction (and one circuit idle on every common ancilla) that the verdict decides partial equivalence (partial_conclusive_decides, partial_sequential_decides, partial_parallel_decides). Exact arithmetic; the ZX checker only for circuits without garbage. manager_partial_verdict joins this with the preparation of the circuits (C64), for circuits of any widths with any ancillary qubits whose common qubits are garbage in both or in neither; that the prepared circuits then have matching garbage qubits, and that one of them is idle on the qubits added by the manager, is proved (constructed_same_garbage, constructed_one_idle). manager_partially_decides: an uninterrupted run decides. Both name the exceptions CrossedShortcut and Misled of C81 (misled_partial_call: an uninterrupted call with partial equivalence that is misled)."
  },
  {
   "property": "C75",
   "status": "partial",
   "theorems": [
    "QCEC.Props.rerun_construction",
    "QCEC.Props.rerun_alternating",
    "QCEC.Props.rerun_alternating_undisturbed",
    "QCEC.Props.rerun_alternating_correct",
    "QCEC.Props.RerunWitness.rerun_lookahead_wrong",
    "QCEC.Props.RerunWitness.rerun_alternating_thrice"
   ],
   "note": "False for the lookahead scheme (RerunWitness.rerun_lookahead_wrong, finding 35): the scheme object keeps the cached matrix of an operation of the previous run and applies it in place of the first one, so that the second run about S;S;S and S;Z reports NotEquivalent after the first reported Equivalent. Proved for the construction checker with every scheme and every package, and for the alternating checker with every other scheme. The manager itself never runs a decided checker object again (C70), so this concerns users of the C++ classes."
  },
  {
   "property": "C76",
   "status": "proved",
   "theorems": [
    "QCEC.Props.generated_profile",
    "QCEC.Props.measured_circuits",
    "QCEC.Props.measured_well_formed",
    "QCEC.Props.generated_keys",
    "QCEC.Props.generated_file_read"
   ],
   "note": "generated_profile gives the content entry by entry, generated_file_read what the C++ reader makes of it. Numbers in the continuation are exact (C52)."
  },
  {
   "property": "C77",
   "status": "partial",
   "theorems": [
    "QCEC.Props.generated_nonneg_partial",
    "QCEC.Props.generated_read_exact_partial",
    "QCEC.Props.ProfileGenWitness.generated_negative",
    "QCEC.Props.additive_nonneg",
    "QCEC.Props.quadratic_nonneg",
    "QCEC.Props.ProfileGenWitness.squares_quadratic",
    "QCEC.Props.ProfileGenWitness.squares_plain",
    "QCEC.Props.ProfileGenWitness.squares_nonneg",
    "QCEC.Props.ProfileGenWitness.uneven_additive"
   ],
   "note": "False of the code (ProfileGenWitness.generated_negative, finding 36): measured costs that grow with every control, but ever more slowly, are continued to negative costs by a recurrence of order three, and the reader takes -500 as 2^64-500. Proved when the costs are continued by a factor, by a constant difference, by a recurrence without negative coefficients or by a quadratic function that opens upwards (Plain), which includes the case that no recurrence is found."
  },
  {
   "property": "C78",
   "status": "partial",
   "theorems": [
    "QCEC.Props.session_metadata",
    "QCEC.Props.session_preprocessing_time",
    "QCEC.Props.session_check_time",
    "QCEC.Props.session_counterexample",
    "QCEC.Props.early_iff",
    "QCEC.Props.recorded_configuration_iff",
    "QCEC.Props.SessionWitness.stale_counterexample",
    "QCEC.Props.SessionWitness.stale_time",
    "QCEC.Props.SessionWitness.reset_forgets_preprocessing",
    "QCEC.Props.SessionWitness.recorded_not_used"
   ],
   "note": "Names, sizes and configuration: proved for every history. False of the code for the rest, with the exact behaviour proved (finding 37): the check time is that of the latest run that stored one, and early_iff says which runs do not; reset() sets the preprocessing time to zero for good; a counterexample stays until reset() whatever later runs find; the configuration shown is not the one used if a parallel run switches a checker off (recorded_configuration_iff)."
  },
  {
   "property": "C79",
   "status": "proved",
   "theorems": [
    "QCEC.Props.exhaustive_simulation",
    "QCEC.Props.exhaustive_probably_equivalent",
    "QCEC.Props.exhaustive_reversible",
    "QCEC.Props.reversible_agree_iff",
    "QCEC.Props.agrees_fidelity",
    "QCEC.Props.capped_is_exhaustive",
    "QCEC.Props.exhaustive_run_exists",
    "QCEC.Props.exhaustive_misses_phases",
    "QCEC.Props.exhaustive_finds_difference",
    "QCEC.Props.parallel_exhaustive_simulation",
    "QCEC.Props.parallel_exhaustive_probably_equivalent",
    "QCEC.Props.parallel_exhaustive_reversible",
    "QCEC.Props.parallel_exhaustive_decided"
   ],
   "note": "Sequential flow. exhaustive_run_exists: for every pair of circuits there is such a run. exhaustive_misses_phases: a Z gate and no gate at all pass all simulations."
  },
  {
   "property": "C80",
   "status": "proved",
   "theorems": [
    "QCEC.Props.session_option",
    "QCEC.Props.call_option",
    "QCEC.Props.session_isolated",
    "QCEC.Props.session_used",
    "QCEC.Props.session_fresh",
    "QCEC.Props.session_refused",
    "QCEC.Props.session_circuits_irrelevant",
    "QCEC.Props.compilation_sticks",
    "QCEC.Props.compilation_reaches",
    "QCEC.Props.import_errors",
    "QCEC.Props.manager_created_iff",
    "QCEC.Props.PySessionWitness.program_runs",
    "QCEC.Props.PySessionWitness.calls_are_not_independent",
    "QCEC.Props.PySessionWitness.refused_call_changes",
    "QCEC.Props.import_needs_modules",
    "QCEC.Props.PySessionWitness.qobj_missing",
    "QCEC.Props.created_configuration",
    "QCEC.Props.manager_configuration",
    "QCEC.Props.fetched_configuration",
    "QCEC.Props.PySessionWitness.managed_case"
   ],
   "note": "The property describes the code as it is: calls that share an object are not independent (calls_are_not_independent, refused_call_changes). Conversions of keyword values are a parameter (Typed: a value converted for an option has its type)."
  },
  {
   "property": "C81",
   "status": "partial",
   "theorems": [
    "QCEC.Props.manager_verdict_true",
    "QCEC.Props.verify_verdict_true",
    "QCEC.Props.manager_partial_verdict",
    "QCEC.Props.verify_partial_verdict",
    "QCEC.Props.realises_sound",
    "QCEC.Props.verify_parameterized_not_equivalent",
    "QCEC.Props.verify_parameterized_equivalent",
    "QCEC.Props.output_no_ops",
    "QCEC.Props.VerifyWitness.verify_runs",
    "QCEC.Props.VerifyWitness.verify_refutes",
    "QCEC.Props.VerifyWitness.run_exists",
    "QCEC.Props.VerifyWitness.swap_reported_equivalent",
    "QCEC.Props.VerifyPartialWitness.partial_verify_runs",
    "QCEC.Props.VerifyPartialWitness.partial_verify_refutes",
    "QCEC.Props.VerifyPartialWitness.prun_exists",
    "QCEC.Props.VerifyPartialWitness.construction_reported_equivalent",
    "QCEC.Props.verdict_same_ancillas",
    "QCEC.Props.VerifyMixedWitness.different_ancillas_refuted",
    "QCEC.Props.VerifyMixedWitness.same_operations_refuted",
    "QCEC.Props.not_displaced",
    "QCEC.Props.VerifyDisplacedWitness.displaced_ancilla_refuted",
    "QCEC.Props.partial_verdict_same_ancillas",
    "QCEC.Props.partial_verdict_no_ancillas",
    "QCEC.Props.not_ancillas_on_both_sides",
    "QCEC.Props.constructed_one_idle",
    "QCEC.Props.safe_of_not_misled",
    "QCEC.Props.RoutingWitness.misled_call",
    "QCEC.Props.RoutingWitness.routed_not_misled",
    "QCEC.Props.RoutingWitness.misled_partial_call",
    "QCEC.Props.not_misread",
    "QCEC.Props.settled_of_not_misread",
    "QCEC.Props.accepted_of_made",
    "QCEC.Props.MisreadWitness.misread_call"
   ],
   "note": "With check_partial_equivalence (verify_partial_verdict) the verdicts have their meaning for the outcome probabilities of the measured qubits, except for the cases named in PartialVerdict (circuits whose common qubits are garbage in both or in neither, any widths and ancillary qubits): with the construction checker a positive verdict only speaks about basis states (construction_reported_equivalent), with ancillary qubits used on both sides NotEquivalent may be wrong (C62); the latter needs a qubit declared ancillary in both circuits (not_ancillas_on_both_sides); the two exceptions below apply here too (misled_partial_call). Without it, true except for two cases, which the theorems name. Misled: the alternating checker is enabled and the prepared circuits, after beginnings that do the same up to a phase, continue with the same operation on physical qubits that carry different logical ones (or a compound operation contains SWAPs), or qubits that are ancillary in both circuits are read out elsewhere (Misread: misread_call is an uninterrupted call that reports NotEquivalent for equivalent circuits; not_misread: nothing of the kind if no qubit is ancillary in both); misled_call is an uninterrupted call that then reports NotEquivalent for equivalent circuits, routed_not_misled a pair with a common gate that is not misled. CrossedShortcut: if no operation is left in either circuit after the optimization passes, Equivalent is reported without comparing how inputs are connected to outputs. swap_reported_equivalent: in the default configuration, with passes that preserve what circuits do, a SWAP and an empty circuit are reported equivalent. Trusted: the passes of mqt-core preserve outputs, width and ancillary qubits; exact arithmetic (see C73 for rounding); operations that compare equal with Operation::equals are equal. The exceptions speak about the circuits that the passes of the library used in the run produce (Library). Circuits that declare different qubits as ancillary: a positive verdict speaks about the inputs where all qubits ancillary in one of them are zero, NotEquivalent about those where the common ones are (Verdict; different_ancillas_refuted shows that no more holds), and with the construction checker even identical operations are refuted (ConstructionMixed, same_operations_refuted). Ancillary qubits that are not the last ones of the first circuit: simulation and ZX take the last ones for them, so that NotEquivalent of a simulation may be wrong (Displaced, displaced_ancilla_refuted); the theorems name this case too. For circuits with the same ancillary qubits, which are the last ones, Verdict is VerdictTrue (verdict_same_ancillas)."
  },
  {
   "property": "C82",
   "status": "partial",
   "theorems": [
    "QCEC.Props.manager_decides",
    "QCEC.Props.verify_decides",
    "QCEC.Props.calm_definite",
    "QCEC.Props.mixed_sequential_definite",
    "QCEC.Props.mixed_parallel_definite",
    "QCEC.Props.calm_manager_run",
    "QCEC.Props.parallel_verdict_depends_on_schedule",
    "QCEC.Props.VerifyDecidesWitness.verify_decides_both",
    "QCEC.Props.manager_partially_decides",
    "QCEC.Props.verify_partially_decides",
    "QCEC.Props.partial_sequential_definite",
    "QCEC.Props.partial_parallel_definite",
    "QCEC.Props.calm_partial_definite",
    "QCEC.Props.VerifyPartialDecidesWitness.partially_decides_both",
    "QCEC.Props.VerifyPartialDecidesWitness.partially_decides_widths",
    "QCEC.Props.RoutingWitness.misled_call",
    "QCEC.Props.RoutingWitness.routed_not_misled",
    "QCEC.Props.RoutingWitness.misled_partial_call",
    "QCEC.Props.not_misread",
    "QCEC.Props.MisreadWitness.misread_call"
   ],
   "note": "False in three cases, which the theorem names: circuits that mislead the alternating checker (Misled, RoutingWitness.misled_call, MisreadWitness.misread_call), the shortcut for circuits from which no operation is left (CrossedShortcut, VerifyWitness.swap_reported_equivalent) and, in the parallel flow with simulations and the ZX checker, a run that gives up with NoInformation as soon as all simulations have passed and the ZX checker doubts equivalence, without waiting for the alternating or construction checker (ParallelWithBoth; parallel_verdict_depends_on_schedule shows such a run). With check_partial_equivalence (verify_partially_decides) circuits without declared ancillary qubits, also of different width, are decided in the same sense, except that positive verdicts of the construction checker only speak about basis states (C74); the same three exceptions are named (misled_partial_call). Trusted base as in C81."
  },
  {
   "property": "C83",
   "status": "partial",
   "theorems": [
    "QCEC.Props.tolerance_in_force",
    "QCEC.Props.own_tolerance_partial",
    "QCEC.Props.own_kept",
    "QCEC.Props.made_tolerance",
    "QCEC.Props.step_tolerance",
    "QCEC.Props.ProcessWitness.alone",
    "QCEC.Props.ProcessWitness.other_manager",
    "QCEC.Props.ProcessWitness.failed_manager",
    "QCEC.Props.manager_options_own",
    "QCEC.Props.failed_construction",
    "QCEC.Props.ProcessWitness.options_met",
    "QCEC.Props.concurrent_linearised",
    "QCEC.Props.concurrent_tolerance",
    "QCEC.Props.concurrent_foreign",
    "QCEC.Props.ProcessWitness.threads_interfere",
    "QCEC.Props.ProcessWitness.threads_agree",
    "QCEC.Props.thread_alone",
    "QCEC.Props.managers_not_shared",
    "QCEC.Props.concurrent_tolerance_in_force",
    "QCEC.Props.ProcessWitness.alone_case"
   ],
   "note": "False as stated: the tolerance is a static member of the package, so that the last construction (even one that throws) or set_tolerance() of any manager decides (tolerance_in_force, ProcessWitness.other_manager, ProcessWitness.failed_manager). Proved for a manager since whose construction no other one has been constructed or given a tolerance, which is how verify() uses managers. Threads: concurrent_tolerance (any number of threads, any overlap of their calls) if all ask for the same tolerance; concurrent_foreign: two threads that each construct and run a manager with different tolerances, as two calls of verify() do, can run one with the tolerance of the other, even if no two runs overlap (finding 54)."
  },
  {
   "property": "C84",
   "status": "partial",
   "theorems": [
    "QCEC.Props.same_verdict",
    "QCEC.Props.no_contradiction",
    "QCEC.Props.call_verify",
    "QCEC.Props.verify_call",
    "QCEC.Props.compilation_call",
    "QCEC.Props.call_verdict_true",
    "QCEC.Props.fullyChecked_decides",
    "QCEC.Props.decided_unique",
    "QCEC.Props.asked_iff",
    "QCEC.Props.PythonVerifyWitness.same_verdict_met",
    "QCEC.Props.PythonVerifyWitness.option_changes_verdict"
   ],
   "note": "False in the three cases of C82, which the theorems name (Excused): option_changes_verdict shows that a SWAP and an empty circuit are equivalent with the default options and not equivalent with elide_permutations=False. Proved for circuits with the same ancillary qubits, which are the last ones. Trusted base as in C81."
  },
  {
   "property": "C85",
   "status": "partial",
   "theorems": [
    "QCEC.Props.self_equivalent",
    "QCEC.Props.self_never_refuted",
    "QCEC.Props.exchange_verdict",
    "QCEC.Props.exchange_no_contradiction",
    "QCEC.Props.equivalent_trans",
    "QCEC.Props.equivalent_congr",
    "QCEC.Props.equalUpTo_refl",
    "QCEC.Props.equal_symm",
    "QCEC.Props.equal_trans",
    "QCEC.Props.PythonVerifyWitness.narrow_not_transitive",
    "QCEC.Props.check_self_equivalent",
    "QCEC.Props.check_self_never_refuted",
    "QCEC.Props.manager_self_equivalent",
    "QCEC.Props.manager_self_never_refuted",
    "QCEC.Props.SelfCheckWitness.self_met",
    "QCEC.Props.SelfCheckWitness.self_refuted",
    "QCEC.Props.settled_self"
   ],
   "note": "Reflexivity (check_self_equivalent, check_self_never_refuted) holds for every circuit, whatever its ancillary qubits and whether or not operations could be mistaken for each other, except for lookahead on compound operations with SWAPs, where it is false (self_refuted: verify() reports that a circuit is not equivalent to itself); it assumes in addition that mqt-core finds an operation equal to itself and recognises the identity (SharpManagerRun). Transitivity is false if the middle circuit has fewer qubits than both others (narrow_not_transitive: the qubits a circuit lacks are compared in |0> only); proved if it has at least the qubits both others have, for circuits whose ancillary qubits agree and are the last ones, up to the exceptions of C82 (Excused). Trusted base as in C81."
  },
  {
   "property": "C86",
   "status": "proved",
   "theorems": [
    "QCEC.Props.rounded_sequential_verdict",
    "QCEC.Props.rounded_parallel_verdict",
    "QCEC.Props.rounded_sequential_decides",
    "QCEC.Props.rounded_parallel_decides",
    "QCEC.Props.rounded_verdict_separates",
    "QCEC.Props.rounded_answer_means",
    "QCEC.Props.drift_linear",
    "QCEC.Props.Inexactly.equivalent_pair",
    "QCEC.Props.Inexactly.different_pair",
    "QCEC.Props.Inexactly.run_exists",
    "QCEC.Props.Inexactly.budget",
    "QCEC.Props.Inexactly.pair_safe",
    "QCEC.Props.rounded_composed_verdict",
    "QCEC.Props.rounded_delayed_verdict"
   ],
   "note": "The restriction to runs without the construction checker for negative verdicts is necessary: rounding_borderline (C73). The ZX checker is taken to be exact; ancillas the alternating checker reduces are idle in one of the circuits (canHandle, C36). Safe is only asked if the alternating checker is enabled; circuits that are not safe are the exception of C02 (exact packages are packages with error zero, so its counterexamples apply)."
  },
  {
   "property": "C87",
   "status": "proved",
   "theorems": [
    "QCEC.Props.verify_verdict_rounded",
    "QCEC.Props.manager_verdict_rounded",
    "QCEC.Props.verify_rounded_decides",
    "QCEC.Props.rcalm_definite",
    "QCEC.Props.rcalm_manager_run",
    "QCEC.Props.inexact_constructed",
    "QCEC.Props.construction_not_used",
    "QCEC.Props.VerifyRoundingWitness.rounded_verify_runs",
    "QCEC.Props.VerifyRoundingWitness.rcalm_run_exists",
    "QCEC.Props.VerifyRoundingWitness.rcalm_realises",
    "QCEC.Props.safe_of_not_nearly_misled",
    "QCEC.Props.VerifyRoundingWitness.rounded_not_misled"
   ],
   "note": "Combines C86 with the preparation theorems of C64/C81. The drift is that of the prepared circuits (what the checkers work on); the passes are taken to be exact, as in C81. Hypothesis ConstructionRuns is ruled out from the given circuits by construction_not_used. The exception NearlyMisled is named in the theorems, not assumed away; rounded_not_misled: the example pair is no such case."
  },
  {
   "property": "C88",
   "status": "partial",
   "theorems": [
    "QCEC.Props.compiled_equal",
    "QCEC.Props.compiled_accepted_partial",
    "QCEC.Props.compiled_not_refuted_partial",
    "QCEC.Props.compiled_verdict_partial",
    "QCEC.Props.RoutingWitness.compiled_met",
    "QCEC.Props.RoutingWitness.compiled_rejected",
    "QCEC.Props.RoutingWitness.flip_prepared",
    "QCEC.Props.RoutingWitness.misled_call",
    "QCEC.Props.RoutingWitness.routed_not_misled",
    "QCEC.Props.compiled_wider_accepted",
    "QCEC.Props.compiled_wider_not_refuted",
    "QCEC.Props.shared_ancilla_not_misled",
    "QCEC.Props.RoutingWitness.routed_wider"
   ],
   "note": "The full statement is false of the code: misled_call is an uninterrupted call of verify that rejects a correct compilation, because the alternating checker skips identical gates that act on different logical qubits (finding 49). The theorems name this case (Misled), and the run that gives up (ParallelWithBoth, C82); routed_not_misled: a compilation with a SWAP and another layout that is not misled. If the compiled circuit uses, after the passes, a qubit the original does not have, and the scheme is not lookahead, there is no such case: compiled_wider_accepted, compiled_wider_not_refuted (met: routed_wider)."
  },
  {
   "property": "C89",
   "status": "partial",
   "theorems": [
    "QCEC.Props.partial_is_weaker",
    "QCEC.Props.partial_never_contradicts",
    "QCEC.Props.partial_same_verdict",
    "QCEC.Props.partial_exchange",
    "QCEC.Props.partial_self",
    "QCEC.Props.partial_trans",
    "QCEC.Props.partly_decides",
    "QCEC.Props.partly_refuted",
    "QCEC.Props.partiallyEqual_symm",
    "QCEC.Props.partiallyEqual_trans",
    "QCEC.Props.PartialRelationWitness.weaker_met",
    "QCEC.Props.PartialRelationWitness.contradicts_met",
    "QCEC.Props.PartialRelationWitness.exchange_met",
    "QCEC.Props.PartialRelationWitness.construction_changes_verdict",
    "QCEC.Props.manager_partial_self_never_refuted",
    "QCEC.Props.manager_partial_self",
    "QCEC.Props.check_partial_self_never_refuted",
    "QCEC.Props.check_partial_self",
    "QCEC.Props.SelfCheckPartialWitness.partial_self_met"
   ],
   "note": "That options do not change verdicts is false if the construction checker is used: it compares outcome probabilities on basis states only (construction_changes_verdict: the same two circuits are reported equivalent with it and not equivalent with the alternating checker). The theorems name this case (ConstructionUsed) and those of C82 (Excused: shortcut for circuits without operations, giving up, misled alternating checker). Transitivity for circuits with the same number of qubits. That a circuit is never reported different from itself needs the exception Misled only for lookahead (check_partial_self; for any ancillary qubits manager_partial_self, with the exception of C74 for the alternating checker). Trusted base as in C74; in addition, for check_partial_self, that an operation compares equal to itself and the identity is recognised."
  },
  {
   "property": "C90",
   "status": "partial",
   "theorems": [
    "QCEC.Props.checked_common_true",
    "QCEC.Props.fullyChecked_decides_common",
    "QCEC.Props.same_verdict_common",
    "QCEC.Props.exchange_verdict_common",
    "QCEC.Props.no_contradiction_common",
    "QCEC.Props.alternating_decides_common",
    "QCEC.Props.manager_common_true",
    "QCEC.Props.manager_decides_common",
    "QCEC.Props.not_otherwise_same",
    "QCEC.Props.not_otherwise_alternating",
    "QCEC.Props.VerifyCommonWitness.different_ancillas_decided",
    "QCEC.Props.VerifyCommonWitness.zx_changes_verdict"
   ],
   "note": "False of the code, and excepted by name (OtherwiseTreated), if a checker other than the alternating one is used that treats the ancillary qubits differently: construction if the circuits declare different ones (same_operations_refuted in C81), ZX-calculus in that case (zx_changes_verdict: with it Z on a qubit that only the first circuit declares as ancillary is equivalent to no operation, with the alternating checker it is not), simulation and ZX-calculus if the ancillary qubits are not the last ones of the first circuit. not_otherwise_same, not_otherwise_alternating: when this cannot happen. The other exceptions are those of C82. Trusted base as in C81."
  },
  {
   "property": "C91",
   "status": "proved",
   "theorems": [
    "QCEC.Props.detection_probability",
    "QCEC.Props.detection_bound",
    "QCEC.Props.enough_simulations_detect",
    "QCEC.Props.enough_simulations_decide",
    "QCEC.Props.requests_return_ae",
    "QCEC.Props.stimuli_equally_likely",
    "QCEC.Props.runs_exist",
    "QCEC.Props.numberTape_ideal",
    "QCEC.Props.swap_disagreements",
    "QCEC.Props.swap_missed_rarely",
    "QCEC.Props.swap_never_missed",
    "QCEC.Props.parallel_detection_probability",
    "QCEC.Props.parallel_detection_bound",
    "QCEC.Props.parallel_enough_simulations_detect",
    "QCEC.Props.parallel_enough_simulations_decide",
    "QCEC.Props.stimulated",
    "QCEC.Props.parallel_simulation_run_exists",
    "QCEC.Props.parallel_runs_exist",
    "QCEC.Props.parallel_swap_missed_rarely"
   ],
   "note": "Both flows; in the parallel one for every schedule of the threads (the stimuli of the simulations handled are, in some order, the first ones requested: stimulated). The property is about classical stimuli of up to 63 data qubits. That std::mt19937_64 with std::uniform_int_distribution behaves like independent uniform numbers is an idealisation (it cannot be proved: the engine is deterministic); the last sentence does not need it. What the simulation checker answers is as in C06 and C79, with exact arithmetic."
  },
  {
   "property": "C92",
   "status": "proved",
   "theorems": [
    "QCEC.Props.stimuli_probability",
    "QCEC.Props.stimuli_bound",
    "QCEC.Props.parallel_stimuli_probability",
    "QCEC.Props.parallel_stimuli_bound",
    "QCEC.Props.stimuli_law",
    "QCEC.Props.product_stimuli_complete",
    "QCEC.Props.product_stimuli_detect",
    "QCEC.Props.product_stimuli_agree",
    "QCEC.Props.agreement_lt",
    "QCEC.Props.agreement_one",
    "QCEC.Props.product_simulations_converge",
    "QCEC.Props.blocks_prob",
    "QCEC.Props.kinds_runs_exist",
    "QCEC.Props.ideal_source_exists",
    "QCEC.Props.zSetting_disagreements",
    "QCEC.Props.zSetting_agreement",
    "QCEC.Props.z_missed_rarely",
    "QCEC.Props.product_average",
    "QCEC.Props.product_fidelity_average",
    "QCEC.Props.product_agreement_bound",
    "QCEC.Props.product_simulations_bound",
    "QCEC.Props.processFidelity_le_one",
    "QCEC.Props.processFidelity_one_iff",
    "QCEC.Props.zSetting_fidelity",
    "QCEC.Props.z_bounded",
    "QCEC.Props.quad_sum",
    "QCEC.Props.product_average_ge",
    "QCEC.Props.product_fidelity_average_ge",
    "QCEC.Props.product_disagreement_bound",
    "QCEC.Props.product_simulations_miss",
    "QCEC.Props.mcz_fidelity",
    "QCEC.Props.no_number_suffices"
   ],
   "note": "That std::mt19937_64 with std::uniform_int_distribution behaves like independent uniform numbers is an idealisation (the engine is deterministic). What the random Clifford circuit computes from its seed is a parameter of the setting (mqt-core); the theorem about stabilizer stimuli is about whatever it computes. Classical stimuli of up to 63 qubits are C91. Exact arithmetic (rounding is C86)."
  },
  {
   "property": "C93",
   "status": "partial",
   "theorems": [
    "QCEC.Props.rounded_partial_sequential_verdict",
    "QCEC.Props.rounded_partial_parallel_verdict",
    "QCEC.Props.rounded_partial_sequential_decides",
    "QCEC.Props.rounded_partial_parallel_decides",
    "QCEC.Props.rounded_partial_composed_verdict",
    "QCEC.Props.rounded_partial_delayed_verdict",
    "QCEC.Props.rounded_partial_answer_means",
    "QCEC.Props.rounded_partial_conclusive",
    "QCEC.Props.partially_within_zero",
    "QCEC.Props.rounding_partial_alternating",
    "QCEC.Props.rounding_partial_simulation",
    "QCEC.Props.rounding_partial_never_refutes",
    "QCEC.Props.RoundingPartialCases.alternating_case",
    "QCEC.Props.RoundingPartialCases.alternating_accepts",
    "QCEC.Props.RoundingPartialCases.alternating_refutes",
    "QCEC.Props.RoundingPartialCases.simulation_accepts",
    "QCEC.Props.RoundingPartialCases.unread_run",
    "QCEC.Props.RoundingPartialCases.run_accepts",
    "QCEC.Props.RoundingPartialCases.run_refutes",
    "QCEC.Props.RoundingPartialCases.partially",
    "QCEC.Props.RoundingPartialCases.not_same",
    "QCEC.Props.RoundingPartialCases.told_apart"
   ],
   "note": "Not for verdicts of the construction checker, which is unsound with partial equivalence already in exact arithmetic (C62, C74, partial_manager_unsound): PMeaning and PRMeaning leave them out. As in C74 the negative verdict of the alternating checker needs a circuit that does not act on the common ancillary qubits, and circuits that lead the alternating checker astray (C02) are excepted. That the package's test for the identity up to garbage accepts within theta0 of such an operator is an assumption (RoundedGarbageTest; the test compares weights of nodes, which are relative to the norm of the node, so theta0 can be much smaller than the configured threshold, about its square). partially_within_zero: without errors the meaning is C74's."
  },
  {
   "property": "C94",
   "status": "partial",
   "theorems": [
    "QCEC.Props.verify_verdict_rounded_partial",
    "QCEC.Props.manager_verdict_rounded_partial",
    "QCEC.Props.verify_rounded_partial_decides",
    "QCEC.Props.rpverdict_of_meaning",
    "QCEC.Props.inexact_partial_constructed",
    "QCEC.Props.partiallyNear_zero",
    "QCEC.Props.common_not_used",
    "QCEC.Props.rpcalm_definite",
    "QCEC.Props.rounded_partial_sequential_definite",
    "QCEC.Props.inexact_same_garbage",
    "QCEC.Props.one_idle_of_not_used",
    "QCEC.Props.VerifyRoundingPartialWitness.rounded_partial_verify_runs",
    "QCEC.Props.VerifyRoundingPartialWitness.partial_not_misled",
    "QCEC.Props.VerifyRoundingPartialWitness.far"
   ],
   "note": "Verdicts of the construction checker are excepted (it is unsound with partial equivalence, C62, C74), as are the limits already found in exact arithmetic: the shortcut for circuits without operations (C08), circuits that lead the alternating checker astray (C02, C36), ancillary qubits that are not the last ones together with simulations or ZX (C71), and, for NotEquivalent, common ancillary qubits that both circuits use (none if no qubit is declared ancillary in both: common_not_used). partiallyNear_zero: with drift zero the meaning is partial equivalence. Rounding assumptions as in C93."
  }
 ]
}