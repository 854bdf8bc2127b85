# Formal model of mqt-qcec in Lean 4 — design

The first version of this file was the plan written before the proofs (see the git history). This version describes what exists.

## 1. Method

* Every function of QCEC that matters for a property is a Lean definition whose comment cites the file and lines it models
  (`lean/Verif/Model/*`). Sequential code is an executable function or a fold, loops that may diverge are inductive relations or
  functions with fuel, concurrent code is a transition system.
* An execution can end in several ways, and these are different values in the model: a result, an exception that reaches the caller,
  `std::terminate`, undefined behaviour, an endless wait. Nothing is hidden behind "assume it works".
* What the English property says is a small specification (`lean/Verif/Spec/*`) or is spelled out in the theorem's statement; the
  theorems are in `lean/Verif/Props/*`, auxiliary lemmas in `lean/Verif/Lemmas/*`.
* Beside the theorems, `Props/*Witness.lean` and `example`s show that hypotheses are met by concrete, non-trivial cases. Where a
  property is **false of the code**, the negation is proved with a concrete witness, and the strongest part that does hold is proved
  as `..._partial`; section 6 lists these findings.
* Theorems are tested against wrong programs (section 7, `seeded/LOG.jsonl`).

## 2. Trusted base

* Lean 4.33.0's kernel. No `native_decide`, no `bv_decide`, no own axioms, nothing admitted.
* Axioms: only `propext`, `Classical.choice` and `Quot.sound`. `AXIOMS.md` (generated by `tools/axioms.py`) lists for every theorem in
  `MANIFEST.json` which of them it uses.
* The reading of `/repo` into the definitions of `lean/Verif/Model` (nothing was compiled or run), including the C++ and Python
  semantics used: 64-bit `size_t` with wrap-around where the code computes with it (`Cost`, `Profile`, `Parallel.subWrap`), `double` as
  exact rationals or reals, memory allocation never fails.
* The assumptions on code outside `/repo` in section 4.

## 3. What is modelled

| Lean module (`Verif/Model/`) | Code |
|---|---|
| `Enums` | `EquivalenceCriterion.hpp`, enum part of `ApplicationScheme.hpp`, `StateType.hpp` (to/from string, `operator>>`) |
| `Cost` | `GateCostApplicationScheme.cpp` (`legacyCostFunction`) with 64-bit arithmetic |
| `Profile` | look-up tables and profile reader of `GateCostApplicationScheme.hpp`; writer, `add_special_case_data` of `compilation_flow_profiles.py` |
| `Config` | `Configuration.hpp/.cpp` (fields, defaults, predicates, JSON), configuration setters of the manager |
| `Setters` | the configuration setters as calls, default arguments in `bindings.cpp:199-367` |
| `Process` | several managers in one process and the static tolerance of the package they share |
| `PythonVerify` | whole calls of `verify` and `verify_compilation`: keywords merged, then the circuits checked |
| `Report` | `Results::json`, `EquivalenceCheckingManager.cpp:937-980` and the checkers' JSON |
| `DD` | `TaskManager.hpp`, `DDEquivalenceChecker.cpp`, `DDAlternatingChecker.cpp`, `DDConstructionChecker.hpp`, `DDSimulationChecker.cpp`, all application schemes, over an abstract decision-diagram package (`Backend`) |
| `Sem` | the package and `qc::Operation` in exact arithmetic (matrices over ℂ), i.e. the external assumptions as definitions |
| `Garbage` | `reduceGarbage` of the package, called in `TaskManager.hpp:126-138`, in exact arithmetic |
| `Manager` | `EquivalenceCheckingManager::run`, `checkSequential`, `checkSymbolic`, `reset`, stored counterexamples, checker reports |
| `Timeout` | `checkSequential`, `checkSymbolic` and their timeout thread, access by access to `done`, `doneCond` and the vector `checkers` |
| `Parallel` | `checkParallel`, `asyncRunChecker`, `setAndSignalDone` as a transition system: main thread, worker threads, timeouts, exceptions |
| `Rerun` | checker objects run repeatedly: the fields that survive a `run()` |
| `Memory` | reference counting in `TaskManager.hpp`, the three decision-diagram checkers, the lookahead scheme and the stabilizer stimuli |
| `Queue` | `ThreadSafeQueue.hpp` at the level of single accesses to shared variables (heap, mutexes, condition variable) |
| `ParallelRelaxed` | the same with late visibility of `done` and `checkers` |
| `ParallelQueue` | the parallel flow whose threads use `ThreadSafeQueue.hpp` access by access (product of `Parallel` and `Queue`) |
| `Session` | the manager object between public calls: every public call as a transition; names, sizes, recorded configuration and times in `Results` |
| `StateGen` | `StateGenerator.cpp/.hpp` |
| `Prepare` | constructor, `stripIdleQubits`, `setupAncillariesAndGarbage`, `runOptimizationPasses`, optimization setters, `canHandle` |
| `ZX` | `ZXChecker.cpp/.hpp`: permutations, ancillaries, verdict, simplification loops |
| `Python` | `configuration.py`, `verify.py`, `verify_compilation_flow.py`, attribute names of `bindings.cpp` |
| `PythonSession` | sequences of calls of the Python functions on shared `Configuration` objects; `importCircuit`, `createManagerFromConfiguration` of `bindings.cpp` |
| `Parameterized` | `parameterized.py`, route chosen by `verify.py` |
| `Recurrence` | `check_recurrence`, `find_continuation` of `compilation_flow_profiles.py` |
| `ProfileGen` | the rest of `compilation_flow_profiles.py`: gate lists, one-gate circuits, `generate_profile`; the transpiler's cost is an arbitrary function |

Deliberate simplifications inside modelled code are stated at the definitions. The most important ones:

* `Parallel` uses an atomic FIFO queue. `ParallelQueue` replaces it by the real one; C63 transfers the safety theorems (C13-C21, C61) to
  it. The lost wake-up (C23) blocks the parallel manager without timeout in addition to what C15 says; C15's theorems are relative to a
  queue that delivers.
* `Manager` and `Parallel` see a checker as an oracle (its answer may depend on its number and on when it is told to stop); what the
  oracles really answer is the subject of `DD`, `Sem` and `ZX`. `C17` joins the two: sound checkers give a sound verdict.
* Numerical tolerances are zero in `Sem` (exact arithmetic).  Rounding is treated separately (C73, `Spec/Rounding.lean`): every package with a
  relative error ε per multiplication, with bounds on how far verdicts can be from the exact ones; C86 carries the bounds to the verdict of a whole run, C87 to the verdict of `verify` about the given circuits, C93 is C86 with partial equivalence, C94 is C87 with partial equivalence.

### Not modelled

`qc::QuantumComputation` parsing/printing (QASM, Qiskit import: `qiskit` plug-in and `load` functions), the decision-diagram, ZX and
circuit-optimizer algorithms of mqt-core themselves, floating-point formats (rounding enters only as a relative error per multiplication, C73), memory consumption, wall-clock times other than as arbitrary
numbers, console output (`std::cerr`, `std::clog`, warnings), pybind11 glue except names and assignment of options, the `Qiskit` transpiler
called by `compilation_flow_profiles.py`, the C++ memory model below sequential consistency (justified for the queue by `queue_no_race`; not justified for `done` and `checkers`, finding 27; late visibility of those plain variables in the parallel flow is modelled by `Model/ParallelRelaxed.lean`, C72).
Calls from several Python threads on one manager object: with the global interpreter lock every bound call runs to its end before another starts (no binding
releases the lock; `run` keeps it while its worker threads work, which never call back into Python because `costFunction` has no binding), so such programs are the
call sequences of C80. The module also declares itself safe without the lock (bindings.cpp 74, pyproject.toml 291); the manager's own members are unsynchronised
there, and only the shared tolerance (C83) is modelled for threads with separate managers.

## 4. Assumptions on external code

* **`dd::getDD`/`getInverseDD`** map targets and controls through the tracked permutation; an uncontrolled SWAP only exchanges two entries
  of the permutation; barriers are the identity; compound operations multiply their parts, threading the permutation.
  **`dd::changePermutation`** as in `Sem.changePerm`; **`reduceAncillae`** sets the columns (rows) of ancillary inputs |1⟩ to zero;
  **`reduceGarbage`** (with `normalizeWeights`) replaces entries by magnitudes and combines those that differ in a garbage qubit by
  `sqrt(|a|²+|b|²)` (`Verif/Model/Garbage.lean`); **`isCloseToIdentity`** with garbage flags accepts exactly the matrices whose non-zero
  entries connect basis states that agree on the other qubits (`Spec.GarbageTest`); **`Operation::equals`** holds only for equal operations
  (`hop` in `ManagerRun`; if it compared sets of targets without their order, asymmetric two-target gates with exchanged targets would be further
  exceptions like `Misled`);
  **`isIdentity`** is exact up to a global phase.  Only for the reflexivity of verdicts (C85, `SharpManagerRun`) it is also assumed to recognise the identity
  itself, and `Operation::equals` to find an operation that occurs in both circuits equal to itself.
* **Memory of the package**: `multiply`, `getDD`, `makeDDNode` never free anything; `garbageCollect` frees only what has no reference;
  `changePermutation`, `reduceAncillae`, `reduceGarbage` and `simulate` hand over the reference as stated in `Model/Memory.lean`.
* **`qc::QuantumComputation`** `removeQubit`, `addAncillaryRegister`, `addAncillaryQubit`, `setLogicalQubitGarbage`, `isIdleQubit`,
  `containsLogicalQubit` as in `Model/Prepare.lean`; the optimization passes are arbitrary functions.
* **ZX**: rewrite rules are arbitrary functions that keep the meaning up to the tracked factor (hypothesis of the theorems that need it);
  `makeAncilla` erases list positions; wires are labelled by the initial layout.
* **C++ library**: `std::mt19937_64`, `uniform_int_distribution`: any deterministic source with results in range; `std::condition_variable`
  with spurious wake-ups; destroying a joinable `std::thread` calls `std::terminate`; `opTypeFromString` throws on unknown names.
* **Python**: pybind11 conversions are a parameter; Qiskit's `assign_parameters` is strict; `numpy.linalg.pinv` solves solvable systems
  (hypothesis of C46); exact arithmetic in `check_recurrence`.

## 5. Properties: what is modelled and how it is proved

`P` = proved, `p` = partial (the missing part is stated in `MANIFEST.json` and, where the code violates the property, by a witness).

| | Property | Model | Proof |
|---|---|---|---|
| C01 P | Every operation applied exactly once, in order, whatever the application scheme | `DD.runTask…`/schemes with an arbitrary package that records what is applied | induction on the operations left; all five schemes and an arbitrary choice sequence of the lookahead scheme |
| C02 p | Alternating check computes U1·U2† for every interleaving | `DD` over `Sem.exactMatrix` | loop invariant: the object equals the product of the applied operations; guard for skipped identities and compound SWAPs, witnesses show the guard is needed |
| C03 P | SWAP and layout tracking yields the true functionality | `Sem` (permutation tracking) | invariant relating tracked permutation and physical operator, induction over operations; `changePerm` by induction over its target list |
| C04 p | Alternating verdict is sound and complete in exact arithmetic | alternating checker over `Sem` | C02 + C03 + characterisation of identity up to a phase |
| C05 p | Construction verdict is sound and complete in exact arithmetic | construction checker over `Sem` | C01 + C03; different ancillary flags: one direction and a witness |
| C06 P | Simulation never refutes equal circuits and its counterexample is genuine | simulation checker over `Sem.exactVector` | C01 + C03; fidelity as inner product, unitary invariance, distance estimate for passed runs |
| C07 p | Construction and alternating checkers never contradict each other | both checkers | from C04 and C05 |
| C08 p | Empty-circuit verdict respects the output permutation | `Manager.run`'s shortcut | case analysis; witness with a SWAP layout |
| C09 P | Sequential manager: the verdict is the one of the deciding checker | `Mgr.checkSequential` with arbitrary checkers | characterisation of every ending by case analysis on phases, induction on the simulation loop |
| C10 P | A conclusive verdict is final | same | same |
| C11 P | Simulation counters are accurate (sequential) | same | invariant of the simulation loop |
| C12 p | A timeout never crashes the sequential flow | same, with the state of the timeout thread | exhaustive endings; witness for `std::terminate` |
| C13 P | Parallel manager: the verdict comes from a checker of this run | `Par` transition system | inductive invariant: the verdict has a cause among the completions consumed |
| C14 p | Parallel manager never runs more checkers at once than threads configured and stays inside its checker table | same | slot invariant; exact arithmetic condition for the overflow |
| C15 p | Parallel run always returns | same | lexicographic measure decreases with every step; stuck states classified; witness for the endless wait |
| C16 P | Inconclusive ZX verdict is reported consistently | both flows | from the characterisations of C09 and the invariant of C13 |
| C17 P | Sound checkers imply a sound final verdict, sequential and parallel consistent | both flows with an arbitrary truth | invariants with a truth parameter |
| C18 p | A checker's exception reaches the caller | both flows with throwing checkers | invariant on stored exceptions; witness for the null slot |
| C19 P | Parallel timeout verdict | `Par` timeout step | invariant |
| C20 P | reset() makes a manager reusable | `Mgr.reset`, repeated runs | equality of states up to irrelevant fields; witnesses without reset |
| C21 P | Each completion is consumed once | `Par` with ghost counters | counting invariant |
| C22 P | ThreadSafeQueue is a linearizable FIFO queue | `Queue` | representation invariant (linked list = values between head and tail), history of linearisation points, real-time order |
| C23 p | A waiting consumer is never left asleep while an element is available | `Queue` | invariant on pending notifications; witness schedule for the lost wake-up |
| C24 P | Timed pop returns null only when the queue is empty at the deadline | `Queue` | invariant on null results with deadline and time |
| C25 P | Computational-basis stimuli are distinct and respect ancillaries | `Gen` over any random source | induction over histories; bit-level lemmas |
| C26 p | Generation of stimuli terminates as long as unused basis states remain; cap guarantees it | `Gen.Draw` relation | existence of a draw iff an unused value is produced eventually; counting argument |
| C27 P | Stimuli for more than 63 qubits stay in bounds | `Gen` wide branch | index bounds |
| C28 P | Enum string conversions round-trip | `Enums` | case analysis over the enumerators, all strings; stream reader by list lemmas |
| C29 p | Numeric aliases denote the enum value | `Enums` | case analysis, witness |
| C30 p | Configuration predicates mean what they say | `Config` | Boolean case analysis against a list of tasks |
| C31 P | Keyword augmentation of configurations | `Py.augment` | induction over the keyword list; every option compared field by field (`config_ext`) |
| C32 P | The alternating checker is only run on circuits it can handle | `Prep.construct` | case analysis of the constructor; witnesses for the setters |
| C33 p | Cap on number of simulations | `Prep.capSims` | arithmetic; undefined shift is an outcome |
| C34 P | Stripping idle qubits removes only idle qubits and keeps the circuits comparable | `Prep.stripIdleQubits` | loop invariant over the layout of the larger circuit |
| C35 P | Ancillary/garbage setup gives circuits of equal width | `Prep.setupAncillaries` | invariants of the two loops |
| C36 p | canHandle refuses exactly the pairs with an ancillary qubit acted upon in both circuits | `Prep.canHandle` | list lemmas; link to C04's hypotheses; witness |
| C37 P | Optimization passes: dynamic circuits rejected unless enabled, fixed order, exactly the enabled passes | `Prep.Passes` | log of passes; case analysis |
| C38 p | ZX permutation utilities | `ZX` layouts | sorted association lists as partial maps, bijections |
| C39 p | ZX verdict logic | `ZX.finish` | case analysis + semantics of a diagram of bare wires |
| C40 P | ZX simplification loops preserve semantics and reach a fixpoint | `ZX.fullReduceApproximate` over an arbitrary engine | invariants through nested loops, termination by a measure, fixpoint at the end |
| C41 P | Gate costs are positive and match the closed form | `Cost` | closed form by arithmetic, with wrap-around |
| C42 P | Gate-cost scheme uses its profile | `Profile` | reader/writer round trip by induction; maps as association lists |
| C43 P | Proportional scheme balances both circuits | `DD.gateRatio` | rounding lemmas over ℚ |
| C44 p | Parameterized verification verdict | `Param.checkParameterized` | induction over the loop of instantiations with an event log |
| C45 p | Statistics of parameterized verification | same | same |
| C46 P | Parameter extraction represents every angle as affine expression | `Param.extractParams` | affine expressions over ℝ, linear algebra |
| C47 p | Time budget of parameterized verification | same, with the clock | invariant of the remaining budget |
| C48 P | considered_equivalent and JSON report agree with the verdict | `Config.json`, `Report` | field by field |
| C49 p | Symbolic circuits | `Mgr.checkSymbolic` | case analysis; witness |
| C50 p | Abort semantics of a checker | `DD` with a stop signal per poll, `Mgr` | induction over polls; witness for the reused checker |
| C51 P | Optimization setters are idempotent and apply their pass at most once | `Prep.optimize` | histories of calls |
| C52 P | Profile recurrence detection extrapolates correctly | `Recurrence` | linear algebra over ℚ (nonsingular Hankel matrix), induction over the extension loop |
| C53 P | verify_compilation always uses the compilation-flow profile | `Py.compilationConfig` | computation; injectivity of names |
| C54 P | Aggregate runs are isolated from the random seed | `Gen` | functional relation; histories |
| C55 p | Partial-equivalence, garbage and ancillary reductions are applied on both sides before comparing | `DD` postprocessing over `Sem` | rewriting |
| C56 p | ZX checker fixes exactly the ancillary wires | `ZX.fixAncillae`, `ZX.construct` | invariant on erased positions; converse by comparing sums of positions; witnesses |
| C57 P | Stored counterexamples belong to the refuting simulation | `Mgr`, `Par` counterexample fields | invariants of both flows |
| C58 P | Choice of the flow | `Mgr.mode` | case analysis |
| C59 p | Every checker that ran is reported once | `Mgr` reports | characterisation of the list of checkers of a run; repeated runs |
| C60 p | Setters change what they say and nothing else | `Setter` calls on `Configuration`, options read by `Spec.Py.read` | case analysis per setter, induction over the history |
| C61 p | The verdict is true of the circuits | composition of `DD`, `Sem`, `StateGen`, `ZX` with `Mgr` and `Par` (`Spec/EndToEnd`) | answers of the checkers mean what they say; the manager's verdict is a conclusive answer or a default |
| C62 p | check_partial_equivalence decides partial equivalence as documented | `DD` with `partialEq`, `Garbage` (the package's garbage reduction) over `Sem` | outcome probabilities as quadratic forms of projectors; two projectors that agree below an idle circuit's projector; Cauchy–Schwarz for magnitudes; two witnesses |
| C63 p | Parallel run together with its queue: nothing is lost, nothing is used after the end, and it returns | `ParQ`: product of `Par` and `Queue` | simulation in both directions, invariant on roles of threads in the queue, lexicographic measure, classification of stuck states, constructed hanging schedule |
| C64 P | Preparing the circuits does not change what is compared | `Prepare` with operations that act on a register of unlimited width (`Spec/Wide`) | wires not named keep their value; labels of stripped and kept qubits; padded qubits pass through; bridge to the `n`-qubit semantics of the checkers by counting physical qubits |
| C65 P | The timeout thread changes a run only by the moment at which it ends it | two-thread transition system (main thread as a resumption over its shared accesses, timeout thread with condition variable and deadline) | simulation invariant relating every reachable state to the one-thread function; completeness by explicit schedules |
| C66 p | No data race between a run and its timeout thread | same transition system; the vector has a buffer identity and a capacity | invariant for the positive part; explicit schedules for the races |
| C67 p | A decided run returns without waiting for its timeout | same transition system with a clock | invariant on done, the sleeping timeout thread and lost notifications; explicit schedules |
| C68 P | The timeout reaches the checker that is running | same transition system | invariant: nothing is added to the list between the strike and a running check, which was started after reading done as false |
| C69 p | No data race between the threads of a parallel run | access sets of the steps of the parallel transition system | invariant (ids in the queue belong to finished workers) for the positive part, explicit schedules for the races |
| C70 p | A further parallel run needs no reset() | launchAgain: launch into the table left by an earlier run | forward simulation by runs of a fresh manager; invariant for the stop flags |
| C71 p | No decision diagram is used after it was freed, references are balanced | checkers' control flow over a package memory with reference counts and adversarial garbage collection | ownership invariant (references = base + diagrams held) carried through all loops by induction |
| C72 p | The parallel flow does not depend on when plain variables become visible | parallel flow with additional steps in which the worker reads an old `done` or the main thread an old null pointer | simulation relation to the sequentially consistent flow, by induction over the run; measure for finiteness; explicit run for the missed signal |
| C73 p | Rounding errors of the decision-diagram package only matter once they reach the thresholds | arbitrary package `b` with a valuation `val` into exact vectors/matrices and relative error eps per call; the checkers are the generic ones of Model/DD.lean | error accumulation by induction over the operations (forward for vectors, an invariant of the completed object for the alternating check), Cauchy-Schwarz for overlaps, unitary invariance |
| C74 p | With check_partial_equivalence the verdict of a run means partial equivalence | the flows of C09/C13/C63/C72 with the checkers of C62 as their oracles (Spec/EndToEndPartial.lean) | provenance of the verdict (C09/C13) composed with what each checker decides (C62, C39); refinement for the queue and visibility versions |
| C75 p | Running a checker object again gives the verdict of its first run | checker objects with the fields that survive a run (Model/Rerun.lean) | induction over the number of runs; the count-based schemes never fill the caches (invariant of the loop) |
| C76 P | generate_profile writes the measured costs, their continuation and nothing else, and verify_compilation reads exactly these | generate_profile with the transpiler as an arbitrary cost function (Model/ProfileGen.lean); the measured circuits are written out in Spec/ProfileGen.lean | look-up lemmas for the dictionary operations; the concrete gate lists are compared by the kernel, independently of the costs; induction over the continuation loop and over the written lines |
| C77 p | Costs in a generated profile are never negative | as C76 | the sequence stays sorted and non-negative (induction over the continuation) |
| C78 p | The results describe the run that produced them | Model/Session: the object between public calls, every public call as a transition; runs are those of Model/Manager and Model/Parallel (launchAgain) | induction over the history; per run: invariants of the simulation loop, the stages and every parallel execution |
| C79 P | Exhaustive simulation decides agreement on all classical inputs | Spec/Exhaustive on top of Model/StateGen, Model/DD, Model/Sem, Model/Manager | the stimuli of 2^m requests are all basis states (C25), each simulation compares the true outputs (C06), the run logs every simulation (C11); linearity of the output for reversible circuits |
| C80 P | What a sequence of Python calls does to the Configuration objects it shares | Model/PythonSession on top of Model/Python, Model/Parameterized; Spec/PythonSession (who writes what) | case analysis over the calls, induction over the sequence (last writer) |
| C81 p | The verdict of verify() is true of the circuits the user passed | Spec/VerifyEndToEnd joins Model/Parameterized, Model/Prepare, Model/Manager, Model/Parallel, Model/DD, Model/Sem, Model/ZX | C44/C58 choose the flow, C64 carries verdicts on prepared circuits back to the originals, C61 gives the verdicts on prepared circuits; circuits without operations are permutations of wires |
| C82 p | A verify() that nobody interrupts decides equivalence | Model: as C81; Spec/VerifyDecides.lean describes runs in which no checker is interrupted before the main thread has decided. | The three definitive verdicts exclude each other and cover all cases, so that a definitive verdict that is true (C81) decides; that the verdict is definitive follows from the flows asking the alternating or construction checker unless another conclusive answer came first. |
| C83 p | A manager runs with the numerical tolerance its configuration shows | Model/Process: constructor (on top of Model/Prepare), setters and run() of any number of managers, with the static tolerance of the package; Spec/Process.; Model/ProcessThreads: threads of one process, each with its own managers | induction over the calls; case analysis over the setters; threads: invariant that all managers ask for the tolerance in force; explicit execution for the converse |
| C84 p | Options steer how circuits are checked, not what is found | Model/PythonVerify: whole calls of `verify` and `verify_compilation`, on top of C31/C53 (keywords) and C81/C82 (circuits); Spec/PythonVerify | both verdicts are decided by the circuits (C82), or true of them (C81) |
| C85 p | Verdicts behave like an equivalence relation | as C84 | the relations of Spec/Wide are reflexive, symmetric and, under the condition on widths, transitive; the verdicts decide them (C82) |
| C86 P | What the verdict of a run says although the package rounds | Spec/EndToEndRounding: the checkers of Model/DD with an arbitrary rounding package inside the manager models of C09/C13 | error accumulation of C73 with stop requests; an operator close to a multiple of a diagonal 0/1 matrix acts like a factor wherever it keeps lengths (Lemmas/RoundingProj); then as C61 |
| C87 P | What the verdict of verify() says about the user's circuits although the package rounds | Spec/VerifyRounding: managers constructed for the given circuits, run with the inexact package of C86 | distances between outputs are preserved by stripping, ancilla setup, numbering and the passes (Lemmas/WideRounding); then C86 and the flow theorems |
| C88 p | Correctly compiled circuits are accepted | Spec/Routing: an inductive definition of correct compilation (placement, inserted SWAPs, replaced blocks), independent of preparation and checkers | a compiled circuit has the same logical outputs (simulation argument over the compilation steps and over the labels of the physical qubits), then C82/C81 |
| C89 p | Verdicts with partial equivalence fit together, and fit to those without | Spec/PartialRelation: calls of verify/verify_compilation with partial equivalence (the managers of C74) | the verdicts decide the relation of Spec/WidePartial (C82), which is symmetric, transitive and implied by equivalence |
| C90 p | Verdicts about circuits that declare different qubits as ancillary | Spec/VerifyCommon: equality on the inputs in which the commonly fixed qubits are zero; which checkers treat ancillary qubits otherwise | case distinction over the conclusive answers of the checkers (C61), preservation of that relation by the preparation (C64), and the calls of C84 |
| C91 P | How likely random simulations are to detect a difference | Spec/FirstDistinct: the first distinct values of a sequence, independent uniform random variables (Mathlib); Spec/Detection: ideal source, the number of classical inputs on which two circuits disagree, a run whose stimuli come from a given generator; Spec/ParallelStimuli: executions of the parallel flow with the numbers of the stimuli | the stimuli are the first distinct numbers of the source (induction on the requests); all lists of distinct numbers are equally likely, because permuting the numbers preserves the product measure and every list can be permuted into every other; almost sure termination by continuity from above; counting; the verdict of the run as in C79; parallel: invariant that the stimuli handled are different and that all stimuli requested are handled or under way |
| C92 P | How likely random simulations with product, stabilizer or very wide classical stimuli are to detect a difference | Spec/DetectionStimuli: the numbers of a die and the words of an engine, the number of stimuli of each kind on which two circuits disagree | the k-th stimulus is a function of the k-th block of the source's numbers, and what holds of disjoint blocks of independent variables is independent (Props/IndependentBlocks, on Mathlib's measure theory); the verdict of a run in terms of its stimuli for any deterministic supply of stimuli; the six states of a qubit span its operators, so by induction over the qubits all product states determine a circuit up to a phase; the bound by the process fidelity: the six states of a qubit are a 2-design, so averaging one qubit at a time (Lemmas/ProductAverage, by induction over the qubits) gives a bound by the Frobenius norm and the trace of the matrix of overlaps; Bessel's inequality bounds the former |
| C93 p | What verdicts with partial equivalence say although the package rounds | Spec/RoundingPartial, Spec/EndToEndRoundingPartial: the checkers of Model/DD with garbage and an arbitrary rounding package, inside the manager models of C09/C13 | error accumulation of C73 with the garbage reductions; an operator close to a block matrix changes the probabilities of visible events by little; then as C74 and C86 |
| C94 p | What the verdict of verify() with partial equivalence says about the user's circuits although the package rounds | Spec/VerifyRoundingPartial: events on the unlimited register of Spec/Wide; the manager of Spec/VerifyEndToEndPartial with the rounding package of C93 | probabilities of visible events are carried through the passes, idle-qubit stripping and padding (Lemmas/WideRoundingPartial); then C93 and C64 |

## 6. Findings: where the code violates a property

Each is a theorem about the model (names in parentheses; all in `QCEC.Props`).

1. Sequential and symbolic runs with a timeout terminate the process when they return early: the timeout thread is still joinable
   (`sequential_timeout_crash`, `symbolic_timeout_crash`).
2. A reused simulation checker that is stopped reports its previous verdict (`reused_checker_stale_verdict`).
3. The parallel run waits forever with only simulation and ZX checkers when the ZX checker gives up last (`parallel_can_wait_forever`).
4. Two threads and the alternating, construction and ZX checkers together overflow the checker table (`parallel_too_few_threads`).
5. The parallel verdict depends on the schedule (`parallel_verdict_depends_on_schedule`).
6. A throwing checker constructor leaves a null slot that is dereferenced (`parallel_null_checker`); the exception reaches the caller only
   after the other checkers have finished (`parallel_exception_waits`).
7. Without `reset()` a second run loses the verdict or never ends, keeps the old counterexample and reports earlier checkers again
   (`rerun_without_reset_loses_verdict`, `rerun_smaller_max_diverges`, `rerun_smaller_max_hangs`, `rerun_reports_twice`).
8. `ThreadSafeQueue`: a notification can fall between test and wait (`queue_lost_wakeup`).
9. Alternating checker: skipping an identical pair of gates while the tracked permutations differ gives wrong verdicts
   (`identity_skip_wrong`); lookahead ignores SWAPs inside compound operations (`lookahead_compound_wrong`).
10. Two empty circuits are equivalent whatever their output permutations (`empty_shortcut_wrong`).
11. Numeric aliases of the equivalence criterion denote other enumerators (`criterion_numeric_alias_false`, `..._confusion`).
12. `1ULL << nq` is undefined from 64 data qubits on (`cap_undefined`); `setMaxSims` after construction bypasses the cap and the generator
    never returns (`raised_max_never_returns`); a stabilizer state on zero qubits is undefined (`other_requests_return` has the guard).
13. ZX: layouts with gaps make `noexcept` code throw (`gap_loses_qubit`), garbage is looked up by wire index (`zx_garbage_index`) and skipped
    even without partial equivalence (`zx_skips_garbage`), post-selection hides an ancillary qubit's action (`zx_rotated_ancilla`), positions
    shift when ancillaries are erased (`ancilla_wrong_output`, `ancilla_out_of_range`).
14. Padding the smaller circuit can collide with physical qubits in use (`PrepareWitness.padding_without_physical_qubit`), without effect on
    what the decision-diagram checkers compare (`setup_preserves`); a surplus qubit read
    out elsewhere becomes garbage (`PrepareWitness.surplus_output_marked_garbage`); `canHandle` ignores output permutations
    (`canHandle_ignores_output`, finding 53).
15. Falling back to the construction checker throws with the lookahead scheme (`PrepareWitness.fallback_may_throw`); a setter re-enables the
    alternating checker (`PrepareWitness.setter_reenables_throwing_checker`); optimizations of symbolic circuits can never be applied
    (`PrepareWitness.symbolic_optimisation_unreachable`).
16. Different ancillary flags make construction and alternating checker contradict each other (`construction_flags_incomplete`).
17. `onlySingleTask` is wrong for zero simulations (`onlySingleTask_not_exact`).
18. Parameterised circuits: a refutation is dropped when the budget runs out (`refutation_dropped`), an exactly used up budget means no limit
    (`exact_budget_is_unlimited`), the first check is not charged (`first_check_not_charged`), rounding with a tolerance refutes equivalent
    circuits (`rounding_refutes`), non-affine expressions are misrepresented (`extract_nonaffine`), a positive answer rests on samples
    (`positive_is_sampled`).
19. `verify_compilation` ignores scheme and profile keywords (`compilation_ignores_scheme`); a rejected keyword leaves earlier ones set in the
    caller's configuration (`augment_leaves_partial_changes`).
20. Extrapolated gate costs can be negative and are then read as about 2^64 (`continuation_negative`).
21. `reset()` does not reseed the generator (`reset_continues_sequence`), `setSeed` keeps the used states (`setSeed_keeps_used_states`).
22. A parallel re-run without `reset()` reuses the signalled checkers of the first run and loses the verdict (`parallel_rerun_loses_verdict`).
23. `setMaxSims(0)` disables simulations and no later `setMaxSims(n)` re-enables them (`maxSims_not_last_call`, `maxSims_last_call_iff`); the default argument of Python's `set_max_sims` wraps around to over four billion on a machine that reports fewer than two hardware threads (`maxSims_default_wraps`, `maxSims_default_iff`).
24. With `check_partial_equivalence` the construction checker compares outcome probabilities on basis states only; it accepts circuits that are
    not partially equivalent and that the alternating checker refutes (`construction_partial_unsound`, `construction_partial_exact`).
25. The alternating checker refutes partially equivalent circuits whose common ancillary qubits are idle in different circuits
    (`alternating_partial_incomplete`).
26. Every parallel run without a timeout can hang: the notification of a worker is lost if the main thread has just found the queue empty
    and is not asleep yet (`composed_can_hang`, `composed_hangs_iff`).
27. The timeout thread iterates over `checkers` while the main thread adds to it: every sequential run with a timeout that constructs a
    checker can have undefined behaviour, including a use after free (`every_timed_run_can_race`, `use_after_free`); the plain `bool done`
    is accessed by both threads without synchronisation (`write_can_race`, `read_can_race`).
28. A run with a timeout whose checkers come to no decision returns only at the deadline (`undecided_run_waits`); a decided one may, because
    the notification is sent without holding the mutex (`notification_can_be_lost`).
29. Parallel runs have exactly two kinds of data races: on `done`, and on the pointer of a checker that is being created while the main
    thread signals all checkers (`race_iff`, `parallel_can_race`).
30. A parallel re-run without `reset()` after a change of the configuration can dereference a null pointer: a simulation is launched into a
    slot that still holds another kind of checker (`rerun_crashes_iff`, `rerun_crash_example`).
31. A stopped simulation keeps the references to its two decision diagrams (`MemoryWitness.stopped_simulation_keeps`).
32. A worker stores its pointer and reads `done`, the main thread stores `done` and reads the pointers, all without synchronisation: with
    store buffers (x86 included) a checker may start after the decision and not be told to stop (`delayed_stop_missed`), so that a run with a
    timeout waits for it to end by itself.  The verdict is not affected (`delayed_same_outcomes`).
33. `equals` compares two matrices by their product only if neither is found close to the identity; if rounding makes the package find one of
    two (equal up to rounding) matrices close to the identity and the other not, the construction check answers `NotEquivalent` although the
    product is found close to the identity (`rounding_borderline`).
34. With `check_partial_equivalence` and the construction checker, the manager reports `Equivalent` for circuits that are not partially
    equivalent (`partial_manager_unsound`), and a parallel run with both complete checkers reports whatever finishes first
    (`partial_verdict_depends_on_schedule`).
35. `LookaheadApplicationScheme` keeps its cached operations when a run ends.  A second `run()` of the same alternating checker applies the
    stale matrix in place of the first operation and can refute equal circuits (`RerunWitness.rerun_lookahead_wrong`).
36. `generate_profile` continues measured costs by a recurrence without checking the sign.  Costs that grow with every control, but ever more
    slowly, end in negative costs, which the C++ reader takes as numbers near 2^64 (`ProfileGenWitness.generated_negative`).
37. Fields of the results survive from earlier runs: a counterexample is still shown after a later run has found the circuits equivalent
    (`SessionWitness.stale_counterexample`), the check time of an earlier run after a run that executed nothing
    (`SessionWitness.stale_time`); `reset()` loses the preprocessing time (`SessionWitness.reset_forgets_preprocessing`); the recorded
    configuration can differ from the one used (`SessionWitness.recorded_not_used`).
38. In the default configuration `verify` reports a circuit that only permutes qubits (one SWAP) and an empty circuit as equivalent, provided
    mqt-core's `elidePermutations` moves the SWAP into the output permutation: both circuits are then empty and the shortcut in `run` does not
    compare layouts and output permutations (`VerifyWitness.swap_reported_equivalent`, cf. finding on C08).
39. `verify` and `verify_compilation` change the caller's `Configuration` object: keyword arguments – also those before a refused one – and the
    schemes and profile of `verify_compilation` stay in force for later calls with the same object (`PySessionWitness.calls_are_not_independent`,
    `PySessionWitness.refused_call_changes`, `compilation_sticks`).
40. (not modelled) `verify_compilation` calls `verify` after leaving `with resources.as_file(ref)`; for a package that is not unpacked in the
    file system the profile no longer exists then. An object that is neither a string nor a circuit raises `AttributeError` in
    `__is_parameterized` before the manager could report that it cannot be imported.
41. If the circuits declare different qubits as ancillary, no single notion of equivalence is decided: the alternating checker fixes the qubits
    ancillary in both, simulation and ZX those of circuit 1 (also in circuit 2), the construction checker each circuit's own ones. So circuits that
    agree whenever all declared ancillaries are `|0⟩` are reported `NotEquivalent` (`VerifyMixedWitness.different_ancillas_refuted`), and the
    construction checker reports a circuit and itself with a qubit declared ancillary as `NotEquivalent`
    (`VerifyMixedWitness.same_operations_refuted`). What still holds is `Verdict` in `Spec/VerifyEndToEnd.lean`.
42. Ancillary qubits need not be the last ones (`set_circuit_qubit_ancillary`/`setLogicalQubitAncillary` of mqt-core take any index), but the simulation
    checker only counts them and keeps the *last* qubits at `|0⟩` (`DDSimulationChecker.cpp:42-48`), and the ZX checker fixes the last ones
    (`ZXChecker.cpp:42-50`). Two circuits that agree whenever their common ancillary qubit 0 is `|0⟩` are reported `NotEquivalent`
    (`VerifyDisplacedWitness.displaced_ancilla_refuted`).
43. After `set_gate_cost_profile`, `set_gate_cost_function` is silently ignored: the scheme looks at the cost function only if no profile is set
    (`DDEquivalenceChecker.cpp:248-259`, `cost_function_ignored`), and there is no setter that removes the profile except setting it to `""`. The profile
    is shared by all checkers although it is set per checker (`profile_shared`).
44. After a parallel run that a throwing checker constructor has ended, the table of checkers keeps a null entry (`null_after_exception`); a sequential
    run without `reset()` in between dereferences it when it collects the reports (`EquivalenceCheckingManager.cpp:337-341`,
    `SessionWitness.exception_then_undefined`).
45. The numerical tolerance is shared by the whole process (`EquivalenceCheckingManager.hpp:119-122` writes a static member of the package): constructing
    or configuring another manager, even if the construction throws, changes the tolerance with which existing managers run, while their configuration
    still shows the old one (`ProcessWitness.other_manager`, `ProcessWitness.failed_manager`).
46. Being reported equivalent is not transitive: `X(0) Z(1)` on two qubits is equivalent to `X(0)` on one qubit, this to `X(0)` on two qubits, but the
    first is not equivalent to the last (`narrow_not_transitive`); qubits a circuit lacks are compared in `|0⟩` only.
47. `elide_permutations` changes verdicts: a SWAP and an empty circuit are equivalent with the default options, not equivalent without this pass
    (`option_changes_verdict`; see finding on the shortcut for empty circuits, C08).
48. The names *local_random* and *global_random* under which the Python documentation refers to the state types are not understood by
    `stateTypeFromString` (it knows *local_quantum*, *global_quantum*); they silently select computational basis states (`stateType_documented_names`).
49. The alternating checker rejects some correct compilations: gates at the same position that are textually identical are skipped although the
    circuits' layouts put different qubits there, and the remaining operations then differ (`RoutingWitness.compiled_rejected`, at the level of
    `verify()` `RoutingWitness.misled_call`; the converse error is `identity_skip_wrong`).  The theorems about `verify()` name the case (`Misled`).
    It cannot happen if a qubit is ancillary in both prepared circuits, e.g. when the compiled circuit uses more qubits than the original
    (`compiled_wider_accepted`): the diagram is singular from the start and `isIdentity()` never holds.
50. With lookahead, `verify()` reports that a circuit is not equivalent to itself if it contains a SWAP inside a compound operation: the SWAP is tracked
    when the matrices of both copies are computed and once more when the waiting copy is finally applied (`SelfCheckWitness.self_refuted`;
    `LookaheadApplicationScheme.hpp:38-49`).  With every other option a circuit is equivalent to itself (`check_self_equivalent`).
51. With `check_partial_equivalence`, a qubit that is garbage in one of the circuits only is left out by the alternating checker in neither and by the
    construction and simulation checkers in that one: X against X, the qubit being garbage in the first, is `Equivalent` for the alternating and `NotEquivalent`
    for the construction checker (`one_sided_garbage_contradiction`).
52. Circuits that declare different qubits as ancillary: the ZX checker fixes as many of the last qubits of both circuits as the first has ancillary ones, the
    alternating checker only those ancillary in both. Z on a qubit that only the first circuit declares as ancillary, against no operation, is `Equivalent` for
    the one and `NotEquivalent` for the other (`zx_changes_verdict`).
53. Because `canHandle` ignores output permutations, `verify()` rejects equivalent circuits: two qubits are ancillary in both, each is idle in one of the
    circuits, and the first circuit reads them out exchanged (`MisreadWitness.misread_call`).  The theorems about `verify()` name the case (`Misled`, third
    alternative `Misread`); it needs a qubit that is ancillary in both circuits (`not_misread`), one of which neither circuit leaves alone and reads out under its
    own name.

54. The bindings declare that they do not need Python's global lock (`src/python/bindings.cpp:74`), but the constructor assigns an unprotected static member of
    the package, the numerical tolerance.  Two threads that call `verify()` with different tolerances can run with each other's, even if no two runs overlap:
    the second construction comes between the first construction and its run (`concurrent_foreign`, `ProcessWitness.threads_interfere`).
55. `importCircuit` imports the modules `qiskit` and `qiskit.qobj` (`src/python/bindings.cpp:31-34`) before it looks at its argument, and then does not use the
    class it takes from the latter. Where the module is missing (`pyproject.toml` allows every `qiskit>=1.0.0`, and releases from 2.0 on no longer have it) nothing
    can be verified, not even two QASM files: `import_needs_modules`, `qobj_missing`.

## 7. Testing the theorems

`seeded/LOG.jsonl` has one line per wrong program: the definition, the edit, the claim it breaks, the lemmas and theorems that no longer
compile (`failed`: first failing declarations; `claims_failed`: theorems of `MANIFEST.json` depending on them) and the theorems that were
tightened or added because of it. Edits that no theorem caught are kept in the log with the reason (equivalent programs) or the
theorem added.
