{"id": "C01", "title": "Every operation applied exactly once, in order, whatever the application scheme", "statement": "A DD-based check that is not interrupted terminates, and when it does it has applied every operation of both circuits exactly once and in circuit order; the order in which the two circuits are interleaved (sequential, one-to-one, proportional, gate-cost) does not change what each of the two circuits' functionality/state becomes.", "quantifier": "all pairs of circuits of any length, all non-lookahead application schemes (any function returning per-step gate counts), all decision-diagram back-ends", "why_tests_cant": "the interleaving is data dependent (ratios, cost tables, swaps skipped); the state space of gate sequences x schemes is infinite", "anchors": ["include/checker/dd/TaskManager.hpp:advance/finish/applySwapOperations", "src/checker/dd/DDEquivalenceChecker.cpp:execute/finish/run", "include/checker/dd/applicationscheme/*.hpp"]}
{"id": "C02", "title": "Alternating check computes U1\u00b7U2\u2020 for every interleaving", "statement": "Without interruption the alternating check ends with the product of circuit 1 applied from the left and the inverse of circuit 2 applied from the right, independent of the application scheme (including lookahead) and of how often the application scheme returns zero or over-long counts.", "quantifier": "all circuit pairs, all schemes, all sequences of lookahead decisions", "why_tests_cant": "the number of interleavings grows exponentially; equality of the final operator is a semantic statement about unitary products", "anchors": ["src/checker/dd/DDAlternatingChecker.cpp:execute/finish", "src/checker/dd/DDEquivalenceChecker.cpp:run", "include/checker/dd/applicationscheme/LookaheadApplicationScheme.hpp"]}
{"id": "C03", "title": "SWAP and layout tracking yields the true functionality", "statement": "Tracking SWAPs as permutation changes, starting from the circuit's initial layout, and finally correcting to the output permutation yields exactly the circuit's functionality on logical qubits: applying the operator built by the checker to a logical input state equals physically executing every gate (SWAPs included) under the initial layout and reading out according to the output permutation.", "quantifier": "all circuits with controlled/uncontrolled one- and two-qubit gates, swaps, barriers; all initial layouts and output permutations; any number of qubits; any input state", "why_tests_cant": "unbounded qubit numbers and permutations; requires semantic equality of 2^n x 2^n operators", "anchors": ["include/checker/dd/TaskManager.hpp:applyGate/applySwapOperations/changePermutation", "src/checker/dd/DDEquivalenceChecker.cpp:postprocessTask"]}
{"id": "C04", "title": "Alternating verdict is sound and complete in exact arithmetic", "statement": "In exact arithmetic an uninterrupted alternating check answers Equivalent / EquivalentUpToGlobalPhase exactly when the two circuits' functionalities coincide exactly / up to a global phase, and NotEquivalent otherwise.", "quantifier": "all circuit pairs without ancillary/garbage qubits, all schemes, all initial layouts and output permutations", "why_tests_cant": "quantifies over all unitary circuits; the identical-gate shortcut interacts with tracked permutations only on rare inputs", "anchors": ["src/checker/dd/DDAlternatingChecker.cpp:execute/checkEquivalence/gatesAreIdentical", "src/checker/dd/DDEquivalenceChecker.cpp:equals"]}
{"id": "C05", "title": "Construction verdict is sound and complete in exact arithmetic", "statement": "In exact arithmetic an uninterrupted construction check answers Equivalent / EquivalentUpToGlobalPhase exactly when the two circuits' functionalities coincide exactly / up to a global phase, and NotEquivalent otherwise.", "quantifier": "all circuit pairs without ancillary/garbage qubits, all schemes, layouts and output permutations", "why_tests_cant": "quantifies over all unitary circuits", "anchors": ["include/checker/dd/DDConstructionChecker.hpp", "src/checker/dd/DDEquivalenceChecker.cpp:run/equals"]}
{"id": "C06", "title": "Simulation never refutes equal circuits and its counterexample is genuine", "statement": "In exact arithmetic a simulation run reports NotEquivalent only if, for the stimulus used, the two circuits' output states differ by more than a global phase; hence circuits with equal functionality are never refuted, for any stimulus; and every passed simulation really saw equal output states up to phase.", "quantifier": "all circuit pairs, all normalised stimuli, all schemes", "why_tests_cant": "quantifies over a continuum of stimuli and all circuits", "anchors": ["src/checker/dd/DDSimulationChecker.cpp:*", "src/checker/dd/DDEquivalenceChecker.cpp:equals/run"]}
{"id": "C07", "title": "Construction and alternating checkers never contradict each other", "statement": "On the same pair of circuits, uninterrupted construction and alternating checks never return contradicting definitive verdicts, whatever schemes they use.", "quantifier": "all circuit pairs (including arbitrary layouts), all scheme pairs", "why_tests_cant": "relational property over two infinite input spaces", "anchors": ["src/checker/dd/DDAlternatingChecker.cpp", "include/checker/dd/DDConstructionChecker.hpp"]}
{"id": "C08", "title": "Empty-circuit verdict respects the output permutation", "statement": "When both circuits contain no operations run() reports Equivalent only if the two circuits' functionalities are equal - including their layouts and output permutations.", "quantifier": "all layouts/output permutations of operation-free circuits (also those that become operation-free by SWAP elision)", "why_tests_cant": "needs all permutations; the default pipeline elides SWAPs into permutations", "anchors": ["src/EquivalenceCheckingManager.cpp:run", "tests: emptyCircuits"]}
{"id": "C09", "title": "Sequential manager: the verdict is the one of the deciding checker", "statement": "In sequential mode the reported verdict is a function of the configured checkers' verdicts in the documented order (simulation, alternating, construction, ZX): it is never invented, i.e. a reported criterion other than the documented defaults was returned by a configured checker of this run, and the first conclusive one is the one reported.", "quantifier": "all configurations, all possible checker outcomes and all timeout instants", "why_tests_cant": "the product of configurations x outcomes x timeout instants is infinite (unbounded number of simulations)", "anchors": ["src/EquivalenceCheckingManager.cpp:checkSequential"]}
{"id": "C10", "title": "A conclusive verdict is final", "statement": "Once a checker concluded (NotEquivalent from any DD checker/simulation, Equivalent* from alternating, construction or ZX) the sequential flow reports this verdict unchanged: no later checker is started and none overwrites it.", "quantifier": "all configurations and outcomes", "why_tests_cant": "requires reasoning over all continuations of a run", "anchors": ["src/EquivalenceCheckingManager.cpp:checkSequential"]}
{"id": "C11", "title": "Simulation counters are accurate (sequential)", "statement": "In sequential mode the number of performed simulations never exceeds the number of started ones, which never exceeds max_sims; the counters equal the numbers of simulation runs actually made; ProbablyEquivalent is reported only after all configured simulations passed and no other checker settled the question.", "quantifier": "any max_sims, any sequence of simulation outcomes, any timeout instant", "why_tests_cant": "unbounded number of simulations and interleavings with the timeout", "anchors": ["src/EquivalenceCheckingManager.cpp:checkSequential", "include/EquivalenceCheckingManager.hpp:Results"]}
{"id": "C12", "title": "A timeout never crashes the sequential flow", "statement": "With a timeout configured, a sequential run always ends by returning a result (or throwing the checker's exception) - the process is never terminated - no matter when the timeout fires and whatever verdict the checkers return.", "quantifier": "all timeout instants, all checker outcomes including NoInformation, exceptions", "why_tests_cant": "timing dependent; the crash path needs a precise race", "anchors": ["src/EquivalenceCheckingManager.cpp:checkSequential"]}
{"id": "C13", "title": "Parallel manager: the verdict comes from a checker of this run", "statement": "In parallel mode, for every interleaving of checker completions and the timeout, the reported verdict was returned by a checker of this run (or is one of the documented defaults NoInformation / ProbablyEquivalent / ProbablyNotEquivalent), and an Equivalent/NotEquivalent verdict is the verdict of a checker that completed.", "quantifier": "every schedule of an arbitrary number of workers, every outcome", "why_tests_cant": "schedules cannot be enumerated by tests", "anchors": ["src/EquivalenceCheckingManager.cpp:checkParallel", "include/EquivalenceCheckingManager.hpp:asyncRunChecker"]}
{"id": "C14", "title": "Parallel manager never runs more checkers at once than threads configured and stays inside its checker table", "statement": "In parallel mode at most nthreads checkers are active at any time, and every checker is stored in a valid slot of the checker table.", "quantifier": "all configurations, thread counts and schedules", "why_tests_cant": "needs all configurations x thread counts; out-of-bounds writes are undefined behaviour that tests may not show", "anchors": ["src/EquivalenceCheckingManager.cpp:checkParallel"]}
{"id": "C15", "title": "Parallel run always returns", "statement": "A parallel run returns whenever every started checker finishes: the manager never waits for a completion that cannot arrive.", "quantifier": "all configurations and schedules in which every checker finishes", "why_tests_cant": "deadlock freedom over all schedules", "anchors": ["src/EquivalenceCheckingManager.cpp:checkParallel"]}
{"id": "C16", "title": "Inconclusive ZX verdict is reported consistently", "statement": "If no conclusive checker is configured, a ZX verdict ProbablyNotEquivalent together with all simulations passing yields NoInformation and together with incomplete information yields ProbablyNotEquivalent; a definitive checker's verdict always takes precedence over probabilistic evidence, in every schedule.", "quantifier": "all outcomes and schedules", "why_tests_cant": "schedule dependent", "anchors": ["src/EquivalenceCheckingManager.cpp:checkSequential/checkParallel"]}
{"id": "C17", "title": "Sound checkers imply a sound final verdict, sequential and parallel consistent", "statement": "If every conclusive verdict the checkers return is correct for the pair of circuits, then the manager's final conclusive verdict is correct, and no sequential and parallel runs (with any schedules, thread counts) on the same pair report contradicting conclusive verdicts.", "quantifier": "all pairs of executions (sequential x parallel, all schedules) on the same pair of circuits", "why_tests_cant": "hyperproperty over pairs of schedules", "anchors": ["src/EquivalenceCheckingManager.cpp:checkSequential/checkParallel/run"]}
{"id": "C18", "title": "A checker's exception reaches the caller", "statement": "If a checker that the manager consumes failed with an exception, run() throws exactly this exception and not some undefined behaviour; a failed checker never contributes a verdict.", "quantifier": "all checkers, all schedules", "why_tests_cant": "fault injection at every point of every schedule", "anchors": ["src/EquivalenceCheckingManager.cpp:checkParallel/run", "include/EquivalenceCheckingManager.hpp:asyncRunChecker"]}
{"id": "C19", "title": "Parallel timeout verdict", "statement": "If the deadline passes before any conclusive completion is consumed, the parallel run ends, reports ProbablyEquivalent if all configured simulations were performed and passed and otherwise NoInformation (or previously stored probabilistic verdict), and signals every checker to stop.", "quantifier": "all deadlines and schedules", "why_tests_cant": "timing dependent", "anchors": ["src/EquivalenceCheckingManager.cpp:checkParallel"]}
{"id": "C20", "title": "reset() makes a manager reusable", "statement": "After reset() a manager behaves like before its first run: results of earlier runs (verdict, counters, checker outcomes) do not influence a later run.", "quantifier": "all histories of run/reset/setter calls", "why_tests_cant": "all histories", "anchors": ["include/EquivalenceCheckingManager.hpp:reset", "src/EquivalenceCheckingManager.cpp:run"]}
{"id": "C21", "title": "Each completion is consumed once", "statement": "In parallel mode each started checker's completion is handled at most once, simulations counted as performed equal the simulation completions handled, and started - performed is the number of simulations in flight or abandoned.", "quantifier": "every schedule", "why_tests_cant": "schedules cannot be enumerated", "anchors": ["src/EquivalenceCheckingManager.cpp:checkParallel"]}
{"id": "C22", "title": "ThreadSafeQueue is a linearizable FIFO queue", "statement": "For every interleaving of any number of producers and consumers, the values popped are exactly the pushed ones in push order, each at most once; no value is lost or duplicated, and no data race/dangling node access happens.", "quantifier": "any number of threads, any operation history", "why_tests_cant": "all interleavings of lock-protected steps", "anchors": ["include/ThreadSafeQueue.hpp"]}
{"id": "C23", "title": "A waiting consumer is never left asleep while an element is available", "statement": "If a consumer waits on the queue and an element is pushed, the consumer eventually is woken up: no reachable state has a sleeping consumer, a non-empty queue and no pending notification.", "quantifier": "all interleavings", "why_tests_cant": "a lost wake-up needs one precise preemption", "anchors": ["include/ThreadSafeQueue.hpp:push/waitForData"]}
{"id": "C24", "title": "Timed pop returns null only when the queue is empty at the deadline", "statement": "waitAndPopUntil returns null only if the deadline has passed and the queue was empty at the moment of the final check; it never waits beyond the deadline once it can run, and never drops an element.", "quantifier": "all interleavings", "why_tests_cant": "timing dependent", "anchors": ["include/ThreadSafeQueue.hpp:waitAndPopUntil"]}
{"id": "C25", "title": "Computational-basis stimuli are distinct and respect ancillaries", "statement": "Successive computational basis stimuli of one run are pairwise distinct, have the requested number of qubits and leave all ancillary qubits in |0>.", "quantifier": "all qubit numbers up to 63 random qubits, all seeds (random number sequences), all lengths", "why_tests_cant": "all random sequences", "anchors": ["src/checker/dd/simulation/StateGenerator.cpp:generateRandomComputationalBasisState"]}
{"id": "C26", "title": "Generation of stimuli terminates as long as unused basis states remain; cap guarantees it", "statement": "A stimulus request returns as long as fewer than 2^n stimuli were drawn (for every fair random source), and the cap on the number of simulations computed from the circuit guarantees this for every run after construction.", "quantifier": "all numbers of qubits, all configurations, all setter histories", "why_tests_cant": "termination for all random sources and histories", "anchors": ["src/checker/dd/simulation/StateGenerator.cpp", "src/EquivalenceCheckingManager.cpp:EquivalenceCheckingManager ctor", "include/EquivalenceCheckingManager.hpp:setMaxSims"]}
{"id": "C27", "title": "Stimuli for more than 63 qubits stay in bounds", "statement": "For more than 63 random qubits, stimulus generation reads only bits of drawn words (no out-of-range access or oversized shift), sets exactly the first randomQubits bits and leaves ancillaries zero.", "quantifier": "all numbers of qubits > 63, all random words", "why_tests_cant": "arithmetic boundary cases at every multiple of 64", "anchors": ["src/checker/dd/simulation/StateGenerator.cpp:generateRandomComputationalBasisState"]}
{"id": "C28", "title": "Enum string conversions round-trip", "statement": "Every equivalence criterion, application scheme and state type printed by the library is parsed back to the same value, different values print differently, and unknown strings map to the documented default.", "quantifier": "all enum values, all strings", "why_tests_cant": "all strings", "anchors": ["include/EquivalenceCriterion.hpp", "include/checker/dd/applicationscheme/ApplicationScheme.hpp", "include/checker/dd/simulation/StateType.hpp"]}
{"id": "C29", "title": "Numeric aliases denote the enum value", "statement": "Parsing the decimal number of an enumerator yields this enumerator (criterion, application scheme, state type).", "quantifier": "all enum values", "why_tests_cant": "finite but three independent tables; stated for completeness", "anchors": ["include/EquivalenceCriterion.hpp:fromString"]}
{"id": "C30", "title": "Configuration predicates mean what they say", "statement": "anything_to_execute is true iff at least one check would be started; only_single_task is true iff exactly one check would be started; only-ZX / only-simulation predicates hold iff exactly that checker is enabled.", "quantifier": "all configurations (any max_sims)", "why_tests_cant": "max_sims unbounded", "anchors": ["src/Configuration.cpp"]}
{"id": "C31", "title": "Keyword augmentation of configurations", "statement": "verify(..., **kwargs) sets exactly the options named by the keywords, leaves all others unchanged, rejects unknown names, and is independent of keyword order.", "quantifier": "all keyword lists, all configurations", "why_tests_cant": "all combinations of options", "anchors": ["src/mqt/qcec/configuration.py:augment_config_from_kwargs", "src/mqt/qcec/verify.py"]}
{"id": "C32", "title": "The alternating checker is only run on circuits it can handle", "statement": "After construction the configuration never runs the alternating checker on a pair it cannot handle; in that case and only then the construction checker is run instead and every other option is kept.", "quantifier": "all circuit pairs and configurations", "why_tests_cant": "all circuits", "anchors": ["src/EquivalenceCheckingManager.cpp:ctor", "src/checker/dd/DDAlternatingChecker.cpp:canHandle"]}
{"id": "C33", "title": "Cap on number of simulations", "statement": "For computational basis stimuli the number of simulations is min(max_sims, 2^(data qubits)), unchanged for other stimuli types or when more than 63 data qubits exist, and no undefined shift is executed.", "quantifier": "all qubit numbers, ancillary numbers and max_sims", "why_tests_cant": "boundary at 64 bits", "anchors": ["src/EquivalenceCheckingManager.cpp:ctor"]}
{"id": "C34", "title": "Stripping idle qubits removes only idle qubits and keeps the circuits comparable", "statement": "Only qubits without any operation are removed; remaining qubits keep their logical identity order; both circuits end with matching logical data qubits; nothing but idle qubits is removed.", "quantifier": "all circuits and layouts", "why_tests_cant": "all layouts and permutations", "anchors": ["src/EquivalenceCheckingManager.cpp:stripIdleQubits/decrementLogicalQubitsInLayoutAboveIndex"]}
{"id": "C35", "title": "Ancillary/garbage setup gives circuits of equal width", "statement": "After construction both circuits have the same number of qubits, the larger circuit's surplus qubits are ancillary in it and the added qubits of the smaller one are ancillary and garbage.", "quantifier": "all pairs of circuits", "why_tests_cant": "all sizes", "anchors": ["src/EquivalenceCheckingManager.cpp:setupAncillariesAndGarbage"]}
{"id": "C36", "title": "canHandle refuses exactly the pairs with an ancillary qubit acted upon in both circuits", "statement": "The alternating checker refuses a pair (and throws when started on it) iff some logical qubit that is ancillary in both circuits is acted upon in both of them, or has no physical qubit in either; on accepted pairs its verdict is right.", "quantifier": "all pairs of circuits", "why_tests_cant": "all flag vectors", "anchors": ["src/checker/dd/DDAlternatingChecker.cpp:canHandle"]}
{"id": "C37", "title": "Optimization passes: dynamic circuits rejected unless enabled, fixed order, exactly the enabled passes", "statement": "Construction throws for dynamic circuits unless transform_dynamic_circuit is set; otherwise exactly the enabled passes run on both circuits in a fixed order, final measurements are always removed, and symbolic circuits are left untouched.", "quantifier": "all configurations, all (abstract) circuits", "why_tests_cant": "all combinations of options", "anchors": ["src/EquivalenceCheckingManager.cpp:runOptimizationPasses/ctor"]}
{"id": "C38", "title": "ZX permutation utilities", "statement": "Inverting a permutation is an involution, concatenation is composition, and completion extends a partial permutation to a bijection of the whole register without changing given assignments.", "quantifier": "all partial permutations of any size", "why_tests_cant": "all permutations", "anchors": ["src/checker/zx/ZXChecker.cpp:invert/concat/complete/invertPermutations"]}
{"id": "C39", "title": "ZX verdict logic", "statement": "The ZX checker reports an equivalence verdict only if the reduced diagram is bare wiring consistent with the permutations, and such a verdict is true: the circuits produce the same outputs (up to a global phase, as reported). Otherwise it reports ProbablyNotEquivalent (NoInformation with ancillaries or after an abort), and never NotEquivalent.", "quantifier": "all circuits, layouts and reduced diagrams", "why_tests_cant": "all diagrams", "anchors": ["src/checker/zx/ZXChecker.cpp:run"]}
{"id": "C40", "title": "ZX simplification loops preserve semantics and reach a fixpoint", "statement": "If every rewrite rule preserves the diagram's semantics, each simplification pipeline does, whatever the interruption instant; if not interrupted the pipeline ends only when no rule applies, and it terminates if every application decreases a measure.", "quantifier": "all rule sets, all diagrams, all interruption instants", "why_tests_cant": "all diagrams, all interruption instants", "anchors": ["src/checker/zx/ZXChecker.cpp:fullReduce...", "include/checker/zx/ZXChecker.hpp:simplifyVertices/simplifyEdges"]}
{"id": "C41", "title": "Gate costs are positive and match the closed form", "statement": "The default cost function is at least 1 for every gate, is monotone in the number of controls and equals a closed form; no 64-bit wrap-around happens for realistic control counts.", "quantifier": "all gate types, all numbers of controls", "why_tests_cant": "unbounded number of controls", "anchors": ["src/checker/dd/applicationscheme/GateCostApplicationScheme.cpp"]}
{"id": "C42", "title": "Gate-cost scheme uses its profile", "statement": "The cost used for a gate is the first matching profile line's cost (or the cost function), default 1; malformed or comment lines have no influence; profiles written by the generator are read back with the same costs.", "quantifier": "all profile files", "why_tests_cant": "all files", "anchors": ["include/checker/dd/applicationscheme/GateCostApplicationScheme.hpp", "src/mqt/qcec/compilation_flow_profiles.py"]}
{"id": "C43", "title": "Proportional scheme balances both circuits", "statement": "The proportional scheme advances the larger circuit by the rounded ratio of sizes and the smaller one by one, is symmetric, never divides by zero where it is used, and always makes progress.", "quantifier": "all circuit sizes", "why_tests_cant": "all sizes", "anchors": ["include/checker/dd/applicationscheme/ProportionalApplicationScheme.hpp"]}
{"id": "C44", "title": "Parameterized verification verdict", "statement": "check_parameterized reports not_equivalent only if there are parameter values for which the circuits differ, reports not_equivalent whenever an instantiation was found to differ, reports a positive verdict only if the ZX-calculus or the checks of all instantiations support it, and refuses circuits with different parameter sets or given as files that the ZX-calculus does not settle.", "quantifier": "all circuits, all outcomes of instantiated checks, all numbers of additional instantiations", "why_tests_cant": "all outcome sequences", "anchors": ["src/mqt/qcec/parameterized.py"]}
{"id": "C45", "title": "Statistics of parameterized verification", "statement": "Accumulated runtimes, simulation counters and the number of instantiations reported by the parameterised check equal the sums over all manager runs and instantiations performed.", "quantifier": "all outcome sequences", "why_tests_cant": "all outcome sequences", "anchors": ["src/mqt/qcec/parameterized.py"]}
{"id": "C46", "title": "Parameter extraction represents every angle as affine expression", "statement": "For affine expressions extract_params yields equations that reproduce every angle of both circuits for every parameter valuation, so that an instantiation computed from them hits any attainable angles (all zero, or multiples of pi/4).", "quantifier": "all affine expressions and valuations", "why_tests_cant": "all valuations", "anchors": ["src/mqt/qcec/parameterized.py:extract_params"]}
{"id": "C47", "title": "Time budget of parameterized verification", "statement": "The total time of the parameterised check stays within the configured timeout up to the overrun of single checks, a positive remaining budget is never turned into an unlimited one, and without a timeout time is never the reason for a verdict.", "quantifier": "all sequences of check durations", "why_tests_cant": "timing dependent", "anchors": ["src/mqt/qcec/parameterized.py:adjust_timeout/check_parameterized"]}
{"id": "C48", "title": "considered_equivalent and JSON report agree with the verdict", "statement": "considered_equivalent() is true exactly for Equivalent, EquivalentUpToGlobalPhase, EquivalentUpToPhase and ProbablyEquivalent; the JSON report contains the verdict's string and exactly the configured sections.", "quantifier": "all results", "why_tests_cant": "all results", "anchors": ["include/EquivalenceCheckingManager.hpp:consideredEquivalent", "src/EquivalenceCheckingManager.cpp:Results::json", "src/Configuration.cpp:json"]}
{"id": "C49", "title": "Symbolic circuits", "statement": "For circuits with symbolic parameters only the ZX checker may decide; when a gate is not transformable the result is NoInformation; the run always returns cleanly.", "quantifier": "all configurations and outcomes", "why_tests_cant": "all outcomes and timeout instants", "anchors": ["src/EquivalenceCheckingManager.cpp:checkSymbolic/run"]}
{"id": "C50", "title": "Abort semantics of a checker", "statement": "A checker told to stop before finishing never reports a verdict derived from incompletely applied circuits: it reports NoInformation.", "quantifier": "every instant at which the stop signal may arrive, every circuit, first or repeated use of the checker", "why_tests_cant": "every abort instant", "anchors": ["src/checker/dd/DDEquivalenceChecker.cpp:run/execute", "src/checker/dd/DDSimulationChecker.cpp", "src/checker/dd/DDAlternatingChecker.cpp:execute"]}
{"id": "C51", "title": "Optimization setters are idempotent and apply their pass at most once", "statement": "Calling an optimization method of the manager repeatedly has the effect of calling it once, and never re-applies a pass already applied at construction.", "quantifier": "all histories of setter calls", "why_tests_cant": "all histories", "anchors": ["src/EquivalenceCheckingManager.cpp:fuseSingleQubitGates/reconstructSWAPs/reorderOperations/backpropagateOutputPermutation/elidePermutations"]}
{"id": "C52", "title": "Profile recurrence detection extrapolates correctly", "statement": "If the costs of a gate follow a linear recurrence of order at most 3 (that they determine), the generated continuation continues it; otherwise it continues the last difference; existing entries are never changed and reported coefficients fit the whole sequence.", "quantifier": "all sequences", "why_tests_cant": "all sequences", "anchors": ["src/mqt/qcec/compilation_flow_profiles.py:check_recurrence/find_continuation"]}
{"id": "C53", "title": "verify_compilation always uses the compilation-flow profile", "statement": "verify_compilation's configuration has, for every option, the value of its keyword or else of the given configuration, except that all application schemes are gate_cost and the profile is the one of the optimisation level and ancilla mode, whatever keywords are given.", "quantifier": "all configurations and keyword lists", "why_tests_cant": "all combinations", "anchors": ["src/mqt/qcec/verify_compilation_flow.py"]}
{"id": "C54", "title": "Aggregate runs are isolated from the random seed", "statement": "With a fixed seed the stimuli are a function of seed, number of qubits and number of previously drawn stimuli: re-running with the same seed draws the same stimuli in the same order, and clearing allows the states to be drawn again.", "quantifier": "all seeds and histories", "why_tests_cant": "all histories", "anchors": ["src/checker/dd/simulation/StateGenerator.cpp:seedGenerator", "include/checker/dd/simulation/StateGenerator.hpp"]}
{"id": "C55", "title": "Partial-equivalence, garbage and ancillary reductions are applied on both sides before comparing", "statement": "Construction compares the two matrices after ancillary reduction on the input side and garbage reduction on the output side of both circuits; a verdict Equivalent then means that for every logical input with ancillaries in |0> the non-garbage outputs agree as required.", "quantifier": "all circuits with ancillaries/garbage", "why_tests_cant": "all circuits with ancillary/garbage flags", "anchors": ["src/checker/dd/DDEquivalenceChecker.cpp:postprocessTask", "include/checker/dd/DDConstructionChecker.hpp", "include/checker/dd/TaskManager.hpp:reduceAncillae/reduceGarbage"]}
{"id": "C56", "title": "ZX checker fixes exactly the ancillary wires", "statement": "When the circuits have ancillary qubits, the ZX checker plugs |0> into exactly the ancillary inputs and <0| into exactly the outputs on which these qubits end, and keeps every data input and output.", "quantifier": "all layouts, output permutations and numbers of ancillary qubits", "why_tests_cant": "all permutations of the outputs; positions shift while the lists are being changed", "anchors": ["src/checker/zx/ZXChecker.cpp:ZXEquivalenceChecker"]}
{"id": "C57", "title": "Stored counterexamples belong to the refuting simulation", "statement": "If a simulation shows that the circuits differ, the counterexample vectors kept in the results are those of exactly that simulation - the input if store_cex_input is set, the outputs if store_cex_output is set - and in no other case does a run store counterexample vectors.", "quantifier": "all configurations, checker outcomes, timeouts, interleavings and manager histories, sequential and parallel", "why_tests_cant": "Depends on which simulation refutes, on options and on the interleaving of workers with the main thread.", "anchors": ["src/EquivalenceCheckingManager.cpp:467-479 checkSequential", "src/EquivalenceCheckingManager.cpp:731-746 checkParallel", "include/EquivalenceCheckingManager.hpp Results"]}
{"id": "C58", "title": "Choice of the flow", "statement": "run() works in parallel exactly if parallel execution is on, at least two threads may be used, the circuits are not both empty and have no free parameters, and at least two checks are due; circuits with free parameters always take the symbolic flow; otherwise the checks run one after another.", "quantifier": "all configurations and circuits", "why_tests_cant": "Every combination of options and circuit features has to be covered.", "anchors": ["src/EquivalenceCheckingManager.cpp:293-352 run", "src/Configuration.cpp onlySingleTask, anythingToExecute"]}
{"id": "C59", "title": "Every checker that ran is reported once", "statement": "After a run the results contain, in order of creation, one report for every checker that was created in this run, all of them enabled in the configuration and among them every checker that completed.", "quantifier": "all configurations, checker outcomes, timeouts and manager histories", "why_tests_cant": "Ranges over all outcomes of all checkers and over histories of runs on one manager.", "anchors": ["src/EquivalenceCheckingManager.cpp:339-343 run", "src/EquivalenceCheckingManager.cpp:412-584 checkSequential", "src/EquivalenceCheckingManager.cpp:848-895 checkSymbolic"]}
{"id": "C60", "title": "Setters change what they say and nothing else", "statement": "Every configuration setter of the manager sets exactly the options it is documented to set; after any history of calls every option has the value written last, options nobody wrote keep their value, and calls on different options can be reordered. Calling a setter without an argument from Python restores the default.", "quantifier": "all configurations, all setters with all arguments, all histories of calls", "why_tests_cant": "There are infinitely many histories; a setter that disturbs an unrelated option shows up only for particular previous values.", "anchors": ["include/EquivalenceCheckingManager.hpp:119-249 setters", "src/python/bindings.cpp:199-367"]}
{"id": "C61", "title": "The verdict is true of the circuits", "statement": "Put together: if a run on two circuits returns Equivalent, the circuits produce the same output on every input with the ancillary qubits in |0>; EquivalentUpToGlobalPhase means the outputs differ by exactly one global phase; NotEquivalent means no global phase makes them equal. With the alternating or the construction checker enabled and neither timeout nor exception, a run always ends with the right one of these verdicts.", "quantifier": "all pairs of circuits, schemes, stimuli, configurations, instants of the timeout and (parallel flow) schedules", "why_tests_cant": "The answer depends on the composition of generator, schemes, checkers and manager for every circuit; tests compare single circuits.", "anchors": ["src/EquivalenceCheckingManager.cpp:412-846", "src/checker/dd/DDEquivalenceChecker.cpp", "src/checker/dd/DDAlternatingChecker.cpp", "src/checker/zx/ZXChecker.cpp", "src/checker/dd/simulation/StateGenerator.cpp"]}
{"id": "C62", "title": "check_partial_equivalence decides partial equivalence as documented", "statement": "With check_partial_equivalence enabled, a checker's positive verdict means that the two circuits are partially equivalent as documented (for every input state with ancillary qubits in |0>, every measurement outcome of the qubits that are not garbage has the same probability), and partially equivalent circuits are never reported as NotEquivalent.", "quantifier": "all pairs of circuits with any garbage and ancillary qubits, all application schemes, all input states, all outcomes", "why_tests_cant": "quantifies over all input states (a continuum), circuits and interleavings; on basis states alone the property looks true where it is not", "anchors": ["src/checker/dd/DDAlternatingChecker.cpp:checkEquivalence", "src/checker/dd/DDEquivalenceChecker.cpp:postprocessTask", "include/checker/dd/TaskManager.hpp:reduceGarbage", "src/python/bindings.cpp:check_partial_equivalence"]}
{"id": "C63", "title": "Parallel run together with its queue: nothing is lost, nothing is used after the end, and it returns", "statement": "In a parallel run, whose threads use the thread-safe queue concurrently: results, verdict and counters are those of a run with an ideal FIFO queue; the main thread receives every completed id exactly once and in the order of completion; it gives up waiting only after the configured deadline; when the run has returned or thrown, no thread uses the queue any more; and a run all of whose checkers end returns.", "quantifier": "all configurations, checker answers, deadlines and interleavings of the single accesses of all threads to the queue", "why_tests_cant": "data-structure races and a lost wake-up need one precise preemption of one thread between two instructions", "anchors": ["src/EquivalenceCheckingManager.cpp:checkParallel", "include/EquivalenceCheckingManager.hpp:asyncRunChecker", "include/ThreadSafeQueue.hpp"]}
{"id": "C64", "title": "Preparing the circuits does not change what is compared", "statement": "Constructing the manager removes qubits that are idle in both circuits and adds ancillary qubits until both circuits have the same width. The prepared circuits have the same output (exactly, or up to a given factor) on all inputs whose ancillary and surplus qubits are |0> if and only if the two given circuits have; so a verdict that is true of the prepared circuits is true of the circuits the user passed, for sequential and parallel runs.", "quantifier": "all pairs of circuits of any widths, with any layouts, output permutations, ancillary qubits, gates and nesting of SWAPs; all configurations; all runs of the manager", "why_tests_cant": "the claim compares linear maps on registers of different, unbounded width under arbitrary relabellings", "anchors": ["src/EquivalenceCheckingManager.cpp:stripIdleQubits", "src/EquivalenceCheckingManager.cpp:setupAncillariesAndGarbage", "src/EquivalenceCheckingManager.cpp:EquivalenceCheckingManager"]}
{"id": "C65", "title": "The timeout thread changes a run only by the moment at which it ends it", "statement": "A sequential or symbolic run with a timeout, whatever way its main thread and its timeout thread are interleaved, ends as the same run does when the remaining checks are cut off at some single moment; before the deadline, and without a timeout, it ends exactly as a run without timeout. Conversely every such moment occurs for some interleaving.", "quantifier": "all interleavings of the two threads at the granularity of accesses to shared variables, all deadlines, circuits, checker outcomes, configurations, manager states", "why_tests_cant": "thread interleavings and deadlines cannot be enumerated by tests", "anchors": ["src/EquivalenceCheckingManager.cpp: checkSequential (412-584), checkSymbolic (848-895)", "include/EquivalenceCheckingManager.hpp: setAndSignalDone (299-306), done, doneCond, checkers"]}
{"id": "C66", "title": "No data race between a run and its timeout thread", "statement": "The main thread of a sequential or symbolic run with a timeout and the timeout thread never access the list of checkers or the flag done at the same time without synchronisation.", "quantifier": "all interleavings of the two threads, all deadlines, circuits, checker outcomes, configurations, manager states, growth policies of std::vector", "why_tests_cant": "a race needs the timeout to strike in one particular moment", "anchors": ["src/EquivalenceCheckingManager.cpp: checkSequential (412-584), checkSymbolic (848-895)", "include/EquivalenceCheckingManager.hpp: setAndSignalDone (299-306), done, doneCond, checkers"]}
{"id": "C67", "title": "A decided run returns without waiting for its timeout", "statement": "A sequential or symbolic run with a timeout returns as soon as its checkers are done; it does not wait for the deadline.", "quantifier": "all interleavings of the two threads, all deadlines, circuits, checker outcomes, configurations, manager states", "why_tests_cant": "depends on the schedule; a test sees one", "anchors": ["src/EquivalenceCheckingManager.cpp: checkSequential (412-584), checkSymbolic (848-895)", "include/EquivalenceCheckingManager.hpp: setAndSignalDone (299-306), done, doneCond, checkers"]}
{"id": "C68", "title": "The timeout reaches the checker that is running", "statement": "When the timeout has struck and the timeout thread is through, whichever checker is running has been told to stop.", "quantifier": "all interleavings of the two threads, all deadlines, circuits, checker outcomes, configurations, manager states, growth policies", "why_tests_cant": "depends on the schedule; a test sees one", "anchors": ["src/EquivalenceCheckingManager.cpp: checkSequential (412-584), checkSymbolic (848-895)", "include/EquivalenceCheckingManager.hpp: setAndSignalDone (299-306), done, doneCond, checkers"]}
{"id": "C69", "title": "No data race between the threads of a parallel run", "statement": "In a parallel run no two threads are ever about to access the same unprotected variable (the flag done, an entry of the table of checkers, the verdict of a checker), one of them to write it.", "quantifier": "all interleavings, configurations, checker outcomes, timeouts, earlier results", "why_tests_cant": "a race needs a particular interleaving and shows no symptom in most runs", "anchors": ["include/EquivalenceCheckingManager.hpp: setAndSignalDone (299-306), asyncRunChecker (321-349), done, checkers", "src/EquivalenceCheckingManager.cpp: checkParallel (586-846)", "include/checker/EquivalenceChecker.hpp: equivalence"]}
{"id": "C70", "title": "A further parallel run needs no reset()", "statement": "Calling run() again on a manager whose previous parallel run has ended, without reset(), ends in the ways a run of a fresh manager can end: same possible verdicts, counters continuing from the earlier ones.", "quantifier": "all configurations of both runs, checkers left by the earlier run, interleavings, checker outcomes", "why_tests_cant": "needs the state left behind by every possible earlier run and all interleavings of the second one", "anchors": ["src/EquivalenceCheckingManager.cpp: checkParallel (638-675)", "include/EquivalenceCheckingManager.hpp: asyncRunChecker (321-349), reset (104-108)"]}
{"id": "C71", "title": "No decision diagram is used after it was freed, references are balanced", "statement": "Whatever checks are performed with the decision-diagram checkers, no decision diagram is used after the package may have freed it and no reference is given back that is not held; a simulation leaves no reference behind, so that memory does not grow with the number of simulations.", "quantifier": "all circuits, application schemes (lookahead included), numbers of runs, moments of being stopped, results of the package, choices of what each garbage collection frees", "why_tests_cant": "a freed diagram is only overwritten if a collection happens at the wrong moment, which depends on table sizes far beyond test circuits", "anchors": ["include/checker/dd/TaskManager.hpp: applyGate (68-84), incRef/decRef (140-144)", "include/checker/dd/applicationscheme/LookaheadApplicationScheme.hpp: operator() (34-81)", "src/checker/dd/DDSimulationChecker.cpp (18-56)", "src/checker/dd/DDAlternatingChecker.cpp: initialize (21-50)", "include/checker/dd/DDConstructionChecker.hpp (38-46)", "src/checker/dd/simulation/StateGenerator.cpp: generateRandomStabilizerState (131-160)"]}
{"id": "C72", "title": "The parallel flow does not depend on when plain variables become visible", "statement": "Even if a worker sees the flag that the run is over late, or the main thread sees the pointer to a checker late (store buffers, compiler reordering), a parallel run has exactly the outcomes of a run in which everything is seen at once: same results, same ending; it makes finitely many steps; and whoever is still running when the run decides to stop has been told so.", "quantifier": "all interleavings of workers and main thread, all moments at which a read of the flag or of a pointer returns the old value, all behaviours of the checkers, all configurations", "why_tests_cant": "which value a racing read returns depends on machine and compiler; a test on one machine sees a fraction of the orders", "anchors": ["include/EquivalenceCheckingManager.hpp: done, checkers (255-265), setAndSignalDone (299-306), asyncRunChecker (321-349)", "src/EquivalenceCheckingManager.cpp: checkParallel (676-834)"]}
{"id": "C73", "title": "Rounding errors of the decision-diagram package only matter once they reach the thresholds", "statement": "If every multiplication of the decision-diagram package has a relative error of at most eps, the objects compared at the end of a check are within (1+eps)^k - 1 of the true ones, k the number of multiplications; as long as this is small compared to the configured threshold, equivalent circuits are not refuted, a counterexample is real, and a positive verdict bounds the distance of the true outputs. This holds for simulation, alternating and construction checks and for every application scheme.", "quantifier": "all circuits, all packages and roundings with that relative error (including any merging of close numbers within it), all stimuli, all application schemes, all thresholds", "why_tests_cant": "rounding errors depend on the circuit, on the order of multiplications and on the hardware; a test sees one history of rounding", "anchors": ["src/checker/dd/DDEquivalenceChecker.cpp: equals (24-101), run (103-140)", "src/checker/dd/DDAlternatingChecker.cpp: checkEquivalence (97-121)", "src/checker/dd/DDSimulationChecker.cpp", "include/Configuration.hpp: fidelityThreshold, traceThreshold, numericalTolerance"]}
{"id": "C74", "title": "With check_partial_equivalence the verdict of a run means partial equivalence", "statement": "With check_partial_equivalence switched on, a run that reports Equivalent or EquivalentUpToGlobalPhase was given circuits with the same outcome probabilities on the measured qubits for every input with the ancillary qubits at zero, and a run that reports NotEquivalent was given circuits without this property \u2013 for the sequential and the parallel flow, for any enabled checkers and any interleaving.", "quantifier": "all pairs of circuits, all choices of enabled checkers, all schedules of the parallel flow (also with its real queue and with late visibility), all stimuli", "why_tests_cant": "depends on which checkers are enabled and which of them answers first; a pair on which the checkers disagree must be found first", "anchors": ["src/EquivalenceCheckingManager.cpp: checkSequential (412-584), checkParallel (586-846)", "src/checker/dd/DDAlternatingChecker.cpp: checkEquivalence (97-121)", "src/checker/dd/DDConstructionChecker.hpp", "src/checker/dd/DDEquivalenceChecker.cpp: finish, postprocess"]}
{"id": "C75", "title": "Running a checker object again gives the verdict of its first run", "statement": "Calling run() several times on one construction or alternating checker object returns the same verdict each time: the state the object keeps between two runs has no influence on what it computes; a run that is told to stop keeps the earlier verdict.", "quantifier": "all circuits, all application schemes, any number of runs, any moment at which the object is told to stop", "why_tests_cant": "depends on the state left behind by the previous run, which differs with the circuits, the scheme and the moment of a stop", "anchors": ["src/checker/dd/DDEquivalenceChecker.cpp: run (103-140), initialize (142-153)", "include/checker/dd/TaskManager.hpp: reset", "include/checker/dd/applicationscheme/LookaheadApplicationScheme.hpp: op1, cached1, op2, cached2", "include/checker/EquivalenceChecker.hpp"]}
{"id": "C76", "title": "generate_profile writes the measured costs, their continuation and nothing else, and verify_compilation reads exactly these", "statement": "For every cost model of the transpiler, generate_profile succeeds and writes, without repeating a line, the measured cost of every listed gate, of the phase gate and the X gate with up to eleven controls (with the additional qubits of the chosen ancilla mode), their continuation to up to 127 controls without a gap and below one million, for Z, S, Sdg, T and Tdg with more controls the cost of the phase gate, and nothing else; the file has the name verify_compilation looks for with the same level and mode, and reading it gives every gate exactly the written cost, modulo 2^64 (nothing if it does not fit).", "quantifier": "all cost functions of one-gate circuits, all ancilla modes, all optimization levels and directories, all gates and numbers of controls", "why_tests_cant": "the costs come from another program and change with its version; the recurrence, the sorting and the cut-off react to their values", "anchors": ["src/mqt/qcec/compilation_flow_profiles.py: general_gates, create_general_gate, create_multi_controlled_gate, create_gate_profile_data, add_special_case_data, find_continuation, write_profile_data_to_file, generate_profile", "include/checker/dd/applicationscheme/GateCostApplicationScheme.hpp: populateLookupTable", "src/mqt/qcec/verify_compilation_flow.py"]}
{"id": "C77", "title": "Costs in a generated profile are never negative", "statement": "Every cost generate_profile writes is a non-negative number, so that the reader gets exactly the number that was written.", "quantifier": "all cost functions of one-gate circuits, all ancilla modes, all gates and numbers of controls", "why_tests_cant": "the costs come from another program and change with its version; only some sequences of costs lead to a recurrence that turns negative far beyond the measured range", "anchors": ["src/mqt/qcec/compilation_flow_profiles.py: check_recurrence, find_continuation, generate_profile", "include/checker/dd/applicationscheme/GateCostApplicationScheme.hpp: populateLookupTable"]}
{"id": "C78", "title": "The results describe the run that produced them", "statement": "After any history of calls on a manager (setters, optimization methods, reset, runs in any flow, also ones that threw) the results show the names and sizes of the circuits and the configuration of the latest run since the last reset, the time of that run, the time the preprocessing took, and a counterexample only if that run found one.", "quantifier": "all histories of public calls of any length, all configurations, checker behaviours, timeout instants, schedules of parallel runs, measured times", "why_tests_cant": "stale fields show only after particular sequences of calls; histories and schedules are unbounded", "anchors": ["src/EquivalenceCheckingManager.cpp: run, EquivalenceCheckingManager, checkSequential, checkParallel, checkSymbolic", "include/EquivalenceCheckingManager.hpp: Results, reset, setters"]}
{"id": "C79", "title": "Exhaustive simulation decides agreement on all classical inputs", "statement": "If a run without timeout, sequential or parallel with any schedule of the threads, performs as many simulations with classical (computational basis) stimuli as there are classical inputs - the constructor limits the number to exactly that - then ProbablyEquivalent means that the two circuits agree, within the fidelity threshold, on every classical input with ancillary qubits in zero; with no other checker configured the verdict is ProbablyEquivalent exactly if they do and NotEquivalent exactly if they do not. For circuits that map classical inputs to classical outputs this decides equivalence; in general it does not (phases are not seen).", "quantifier": "all pairs of circuits with up to 63 data qubits, all application schemes, random sources and generator states, all thresholds, all configurations, both flows, all schedules of the threads", "why_tests_cant": "the number of inputs is exponential in the unbounded number of qubits, the order of the stimuli is random, and the claim is about all circuits", "anchors": ["src/EquivalenceCheckingManager.cpp: checkSequential, checkParallel, EquivalenceCheckingManager", "src/checker/dd/DDSimulationChecker.cpp: setRandomInitialState", "src/checker/dd/simulation/StateGenerator.cpp: generateRandomComputationalBasisState", "src/checker/dd/DDEquivalenceChecker.cpp: equals"]}
{"id": "C80", "title": "What a sequence of Python calls does to the Configuration objects it shares", "statement": "In any sequence of calls of verify, verify_compilation and the manager constructor and of assignments to options, the value of every option of every Configuration object is the one given by the last assignment, accepted keyword argument or verify_compilation call that wrote it through that object, and its original value if there was none; calls with another object (or none) and managers created earlier are not affected, and what the circuits are makes no difference. A call without an object uses the default configuration with exactly its own keyword arguments, whatever was called before. Keywords of a call that is refused take effect up to the refused one; schemes and profile set by verify_compilation stay for later calls that pass the same object. A circuit that cannot be imported is reported as the first or the second. get_configuration() returns a copy of the manager's configuration, which is, until the manager is run, what its constructor made of the object passed, changed by the setters called on this manager in the order of the calls.", "quantifier": "all sequences of calls, all objects, keyword lists, values and circuits", "why_tests_cant": "histories of calls are unbounded and the effect of a call depends on what earlier calls left in the objects they share", "anchors": ["src/mqt/qcec/verify.py: verify", "src/mqt/qcec/verify_compilation_flow.py: verify_compilation", "src/mqt/qcec/configuration.py: augment_config_from_kwargs", "src/python/bindings.cpp: importCircuit, createManagerFromConfiguration"]}
{"id": "C81", "title": "The verdict of verify() is true of the circuits the user passed", "statement": "Whatever verify returns for two circuits without symbolic parameters is true of those circuits as passed (Equivalent: same outputs for all inputs; EquivalentUpToGlobalPhase, ProbablyEquivalent..., NotEquivalent accordingly), through import, optimization passes, removal of idle qubits, ancillary setup, the checkers in the sequential or parallel flow under every schedule, and whenever a timeout fires. With check_partial_equivalence, a positive verdict means that for every input state every outcome of measuring the qubits that are garbage in neither circuit has the same probability, and NotEquivalent that this is not so. For circuits with symbolic parameters NotEquivalent means that values of the parameters exist for which the circuits (with angles below the tolerance set to 0) differ.", "quantifier": "all circuits, all configurations, all schedules and timeout moments, all random choices", "why_tests_cant": "all circuits of all sizes, all thread schedules and all configurations", "anchors": ["src/mqt/qcec/verify.py: verify", "src/mqt/qcec/parameterized.py: check_parameterized", "src/EquivalenceCheckingManager.cpp: EquivalenceCheckingManager, run, checkSequential, checkParallel"]}
{"id": "C82", "title": "A verify() that nobody interrupts decides equivalence", "statement": "If the alternating or the construction checker is enabled and no timeout, stop or exception interrupts the checkers, verify() on two circuits without symbolic parameters whose ancillary qubits are the same (and their last ones) returns Equivalent exactly if they do the same, EquivalentUpToGlobalPhase exactly if they do the same up to a phase different from one, and NotEquivalent exactly if they differ; never anything weaker.", "quantifier": "all pairs of circuits, configurations with one of the two checkers, schedules of the parallel flow, application schemes, stimuli", "why_tests_cant": "which checker answers first depends on circuits and schedule; that no combination of answers leaves the question open cannot be shown by examples", "anchors": ["src/mqt/qcec/verify.py: verify", "src/EquivalenceCheckingManager.cpp: constructor (354-410), checkSequential (412-584), checkParallel (586-846)"]}
{"id": "C83", "title": "A manager runs with the numerical tolerance its configuration shows", "statement": "run() of a manager uses the numerical tolerance that the manager's configuration shows, i.e. the one given at its construction or by its last set_tolerance(), whatever other managers the program has constructed or configured in between. This also holds for managers used by several threads whose calls overlap.", "quantifier": "all sequences of constructions (also failing ones), setter calls and runs of any number of managers in one process, all tolerances, all numbers of threads and all interleavings of their calls", "why_tests_cant": "the interference is between objects that have nothing to do with each other; tests use one manager at a time", "anchors": ["include/EquivalenceCheckingManager.hpp: setTolerance (119-122)", "src/EquivalenceCheckingManager.cpp: constructor (354-410)", "src/python/bindings.cpp: PYBIND11_MODULE", "src/mqt/qcec/verify.py: verify"]}
{"id": "C84", "title": "Options steer how circuits are checked, not what is found", "statement": "Two calls of verify() or verify_compilation() for the same two circuits (without symbolic parameters and partial equivalence, alternating or construction checker enabled, not interrupted) return the same verdict, whatever keyword arguments, configuration objects, optimization level, ancilla mode, application schemes, profiles, number of threads, seed, number and type of simulations, optimization passes and additional checkers they ask for and however their threads are scheduled; and two calls that may be interrupted never contradict each other.", "quantifier": "all pairs of circuits, all pairs of calls with any keywords and configurations, all schedules and timeouts", "why_tests_cant": "compares two arbitrary executions with different options; tests compare a few configurations on a few circuits", "anchors": ["src/mqt/qcec/verify.py: verify", "src/mqt/qcec/verify_compilation_flow.py: verify_compilation", "src/EquivalenceCheckingManager.cpp: constructor, run"]}
{"id": "C85", "title": "Verdicts behave like an equivalence relation", "statement": "An uninterrupted check of a circuit against itself reports Equivalent (and even an interrupted one never reports a difference); exchanging the two circuits does not change the verdict; if A and B are reported equivalent and B and C are, then A and C are; and a circuit may be replaced by one reported equivalent without changing a verdict.", "quantifier": "all circuits (any widths, layouts, ancillary qubits), all calls of verify and verify_compilation with any options, all schedules", "why_tests_cant": "relates several executions on arbitrary circuits of unbounded width", "anchors": ["src/mqt/qcec/verify.py: verify", "src/EquivalenceCheckingManager.cpp: constructor (stripping and padding), run"]}
{"id": "C86", "title": "What the verdict of a run says although the package rounds", "statement": "If the decision-diagram package computes with a relative error per multiplication and its closeness tests accept within a tolerance, the verdict of a whole run (sequential or parallel, any checkers, interrupted or not) still says something definite about the circuits: with drift d (tolerance of the test plus accumulated error, at most a tenth), Equivalent and EquivalentUpToGlobalPhase mean that on every input with ancillas in |0> the true outputs differ by at most 8 d relative to the input, up to a factor of modulus within 8 d of one (without the construction checker: factor one for Equivalent). With the default checkers (no construction) and errors below what the tests are sure to accept, NotEquivalent is never reported for circuits equivalent up to a global phase and EquivalentUpToGlobalPhase never for equivalent ones; uninterrupted runs decide, so that equivalent circuits are reported Equivalent and circuits further apart than 8 d on some input NotEquivalent. Excepted are circuits that can lead the alternating checker, if it is used, astray (C02): behind beginnings that agree within the drift they have an operation in common whose physical qubits carry different logical ones.", "quantifier": "all packages with a bounded relative error, all circuits, layouts, ancilla declarations, application schemes, stimuli, configurations, schedules and timeouts", "why_tests_cant": "quantifies over all roundings, all circuits and all schedules; a test fixes one package, one machine and a few circuits", "anchors": ["src/checker/dd/DDEquivalenceChecker.cpp: equals, run", "src/checker/dd/DDAlternatingChecker.cpp: checkEquivalence", "src/EquivalenceCheckingManager.cpp: checkSequential, checkParallel", "include/Configuration.hpp: numericalTolerance, traceThreshold, fidelityThreshold"]}
{"id": "C87", "title": "What the verdict of verify() says about the user's circuits although the package rounds", "statement": "If the decision-diagram package computes with a relative error per multiplication and its closeness tests accept within a tolerance, the verdict verify() returns for two circuits (after stripping idle qubits, setting up ancillas, the optimization passes and the choice of checkers; sequential or parallel, timed out or not) still says something definite about the circuits the user passed: with drift d of the prepared circuits (at most a tenth), Equivalent and EquivalentUpToGlobalPhase mean that on every input with ancillas in |0> the outputs of the given circuits differ by at most 8 d relative to the input, up to a factor of modulus within 8 d of one (factor one for Equivalent if the construction checker does not run). With small errors and without the construction checker NotEquivalent is never reported for circuits that are equivalent up to a global phase, and a verify() that nobody interrupts reports equivalent circuits Equivalent and circuits whose outputs are further apart NotEquivalent. Exceptions, named in the theorem: the shortcut for circuits without operations and displaced ancillas (C81). Excepted are circuits that can lead the alternating checker, if it is used, astray (C02): behind beginnings that agree within the drift they have an operation in common whose physical qubits carry different logical ones.", "quantifier": "all packages with a bounded relative error, all pairs of circuits of any widths with any layouts, ancilla and garbage declarations, all configurations without partial equivalence, schedules and timeouts", "why_tests_cant": "quantifies over all roundings, all circuits and all schedules; a test fixes one package, one machine and a few circuits", "anchors": ["src/python/bindings.cpp: createManager", "src/EquivalenceCheckingManager.cpp: EquivalenceCheckingManager, run, checkSequential, checkParallel", "src/checker/dd/DDEquivalenceChecker.cpp: equals, run", "src/mqt/qcec/verify.py: verify"]}
{"id": "C88", "title": "Correctly compiled circuits are accepted", "statement": "If a circuit has been compiled correctly to a device with at least as many qubits - the qubits are placed by an initial layout, SWAPs are inserted anywhere between the operations, operations are replaced by sequences of device operations with the same effect (possibly using the other qubits of the device, which start in |0>), and the compiled circuit reads out the qubits where they are in the end - then verify() and verify_compilation() for the original and the compiled circuit report Equivalent if nobody interrupts them (or give up with NoInformation in the one case of C82), whatever the options and schedules, and never, interrupted or not, report that they differ, not even by a phase. The verdict about a compiled circuit is the right verdict about the circuit that was compiled: if a wrong circuit was compiled, it is rejected.", "quantifier": "all circuits of any width, all devices, all layouts, all insertions of SWAPs and replacements of operations, all configurations without partial equivalence, all schedules", "why_tests_cant": "quantifies over all compilations and all circuits; tests compile a few circuits with one compiler", "anchors": ["src/mqt/qcec/verify_compilation_flow.py: verify_compilation", "src/mqt/qcec/verify.py: verify", "include/checker/dd/TaskManager.hpp: applySwapOperations, changePermutation", "src/checker/dd/DDAlternatingChecker.cpp: execute, gatesAreIdentical", "src/EquivalenceCheckingManager.cpp: EquivalenceCheckingManager, stripIdleQubits, setupAncillariesAndGarbage"]}
{"id": "C89", "title": "Verdicts with partial equivalence fit together, and fit to those without", "statement": "Partial equivalence asks for less than equivalence: if an uninterrupted check reports two circuits equivalent (perhaps up to a global phase), an uninterrupted check with check_partial_equivalence reports them equivalent as well, and no two checks, interrupted or not, say that they are equivalent without and not equivalent with it. With check_partial_equivalence, options and schedules do not change whether circuits are reported equivalent, nor does exchanging the circuits; a circuit is reported equivalent to itself; and if A and B are reported equivalent and B and C are, then so are A and C.", "quantifier": "all circuits without declared ancillary qubits that call the same qubits garbage, all calls of verify and verify_compilation with any options, all schedules", "why_tests_cant": "relates several executions in different modes on arbitrary circuits of unbounded width", "anchors": ["src/mqt/qcec/verify.py: verify", "include/Configuration.hpp: checkPartialEquivalence", "src/checker/dd/DDAlternatingChecker.cpp: checkEquivalence", "src/checker/dd/DDEquivalenceChecker.cpp: equals, postprocessTask", "src/EquivalenceCheckingManager.cpp: run"]}
{"id": "C90", "title": "Verdicts about circuits that declare different qubits as ancillary", "statement": "Whatever qubits two circuits declare as ancillary, also different ones, a check that nobody interrupts decides whether they do the same on all inputs in which the qubits are |0> that are ancillary in both or missing in one of them: Equivalent, EquivalentUpToGlobalPhase and NotEquivalent are reported exactly when they do the same, the same up to a global phase only, or neither. So options, schedules and the order of the circuits do not change the verdict. Checks that are interrupted say nothing false about these inputs.", "quantifier": "all circuits of any widths with any declared ancillary qubits, all calls of verify and verify_compilation without partial equivalence, all options and schedules", "why_tests_cant": "quantifies over all circuits and declarations, all executions of several threads, and relates several calls", "anchors": ["src/mqt/qcec/verify.py: verify", "src/EquivalenceCheckingManager.cpp: setupAncillariesAndGarbage, run", "src/checker/dd/DDAlternatingChecker.cpp: initialize, postprocess, canHandle", "src/checker/zx/ZXChecker.cpp: ZXChecker", "src/checker/dd/DDSimulationChecker.cpp: setRandomInitialState"]}
{"id": "C91", "title": "How likely random simulations are to detect a difference", "statement": "With a random source whose numbers are independent and uniformly distributed, K requests for classical stimuli (K at most 2^m, m data qubits) return almost surely, and every sequence of K different classical inputs is equally likely to be delivered. So if two circuits disagree on D of the 2^m classical inputs, a run of K simulations, sequential or parallel with any schedule of the threads, without timeout and with no other checker reports ProbablyEquivalent with probability (2^m-D)...(2^m-D-K+1) / (2^m...(2^m-K+1)), at most (1-D/2^m)^K, and NotEquivalent otherwise; with other checkers configured this is an upper bound. Whatever the random source is, a run of more than 2^m-D simulations never reports ProbablyEquivalent.", "quantifier": "all circuits with up to 63 data qubits, all D and K, all states of all random sources (with an idealised distribution for the probabilities), all configurations and both flows, all schedules of the threads", "why_tests_cant": "a statement about a probability distribution over all states of the random source and all circuits; a test sees single seeds", "anchors": ["src/checker/dd/simulation/StateGenerator.cpp: generateRandomComputationalBasisState", "src/checker/dd/DDSimulationChecker.cpp: setRandomInitialState", "src/EquivalenceCheckingManager.cpp: checkSequential", "src/EquivalenceCheckingManager.cpp: checkParallel"]}
{"id": "C92", "title": "How likely random simulations with product, stabilizer or very wide classical stimuli are to detect a difference", "statement": "With product states, random stabilizer states, or classical inputs of more than 63 qubits as stimuli, and a random source whose numbers are independent and uniformly distributed, a run of K simulations - sequential, or parallel with any schedule of the threads - without timeout and with no other checker reports ProbablyEquivalent with probability exactly p^K and NotEquivalent otherwise, where p is the fraction of the stimuli (6^m product states, 2^64 seeds of the Clifford circuit, 2^m classical inputs) on which the two circuits agree; with other checkers configured p^K is an upper bound. Product states, unlike classical inputs, expose every difference: two circuits are the same up to a global phase if and only if the outputs have fidelity one for all 6^m product states, so for a small enough fidelity threshold p < 1 for every pair that differs and the probability of missing it tends to zero as K grows. The number of simulations needed does not depend on the number of qubits: if the circuits' operators on the data qubits have process fidelity phi = |tr(U^dagger V)/2^m|^2 (one exactly for circuits that are the same up to a global phase), then the outputs' fidelity averaged over all product stimuli is at most (1 + 2 phi)/3, so that p <= (1 + 2 phi)/(3 (1 - 2 delta)) for the fidelity threshold delta, and K simulations miss the difference with probability at most the K-th power of that. Conversely they miss it with probability at least 1 - K (1 - phi)/delta if no other checker is used. No number of simulations is enough for all circuits: for every threshold, K and epsilon there are two circuits that are not the same up to a global phase (a Z gate with sufficiently many controls, and no gate) that K simulations take for equivalent with probability at least 1 - epsilon.", "quantifier": "all circuits, all m and K, all kinds of stimuli, all seeds and states of all random sources (with an idealised distribution), all configurations, both flows, all schedules of the threads", "why_tests_cant": "a statement about a probability distribution over all states of the random source and about all circuits; a test sees single seeds", "anchors": ["src/checker/dd/simulation/StateGenerator.cpp: generateRandom1QBasisState, generateRandomStabilizerState, generateRandomComputationalBasisState", "src/checker/dd/DDSimulationChecker.cpp: setRandomInitialState", "src/EquivalenceCheckingManager.cpp: checkSequential, checkParallel"]}
{"id": "C93", "title": "What verdicts with partial equivalence say although the package rounds", "statement": "With check_partial_equivalence and a decision-diagram package that has a relative error per multiplication and per garbage reduction and closeness tests with a tolerance, Equivalent and EquivalentUpToGlobalPhase mean that for every input with the ancillary qubits in |0> no event that can be seen on the measured qubits differs in its probability by more than four times the drift (tolerance plus accumulated error), and NotEquivalent, if the errors are below what the tests are sure to accept, that the circuits are not partially equivalent - for sequential and parallel runs, interrupted or not, and any checkers. With the default checkers an uninterrupted run decides: partially equivalent circuits are not refuted, and circuits of which some visible event differs in its probability by more than four drifts are reported NotEquivalent.", "quantifier": "all circuits of any width, all sets of garbage and ancillary qubits, all error bounds, all packages that round within them, all configurations, both flows, all schedules of the threads", "why_tests_cant": "a statement about all rounding behaviours of the package, all circuits, input states, events and schedules; a test sees one rounding of one circuit", "anchors": ["src/checker/dd/DDAlternatingChecker.cpp: checkEquivalence, postprocess", "include/checker/dd/TaskManager.hpp: reduceGarbage", "src/checker/dd/DDEquivalenceChecker.cpp: equals, postprocess", "src/EquivalenceCheckingManager.cpp: checkSequential, checkParallel"]}
{"id": "C94", "title": "What the verdict of verify() with partial equivalence says about the user's circuits although the package rounds", "statement": "With check_partial_equivalence, a decision-diagram package that rounds, and circuits whose garbage qubits match, a verdict of verify() (and of a manager after any setter calls) Equivalent or EquivalentUpToGlobalPhase means, about the circuits the user passed - of any widths, with any layouts and ancillary qubits - that for every input in which the ancillary and missing qubits are |0> no event that can be seen on the measured qubits differs in its probability by more than four times the drift; NotEquivalent means, if the errors are small, that the circuits are not partially equivalent. EquivalentUpToPhase is not reported. With the alternating checker enabled and nobody interrupting, verify() decides: partially equivalent circuits are not refuted, and circuits of which some visible event differs in its probability by more than four drifts are reported NotEquivalent.", "quantifier": "all runnable circuits of any width, layout, ancillary and garbage declaration, all configurations and setter calls, both flows, all schedules and timeouts, all packages that round within the error bounds", "why_tests_cant": "a statement about all pairs of circuits, input states, events, schedules and rounding behaviours; a test sees one rounding of one pair", "anchors": ["src/EquivalenceCheckingManager.cpp: constructor, stripIdleQubits, setupAncillariesAndGarbage, run, checkSequential, checkParallel", "src/checker/dd/DDAlternatingChecker.cpp: checkEquivalence, postprocess", "src/checker/dd/DDEquivalenceChecker.cpp: equals, postprocess", "src/mqt/qcec/verify.py: verify"]}
