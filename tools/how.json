{
"C01": [
"`DD.runTask\u2026`/schemes with an arbitrary package that records what is applied",
"induction on the operations left; all five schemes and an arbitrary choice sequence of the lookahead scheme"
],
"C02": [
"`DD` over `Sem.exactMatrix`",
"loop invariant: the object equals the product of the applied operations; guard for skipped identities and compound SWAPs, witnesses show the guard is needed"
],
"C03": [
"`Sem` (permutation tracking)",
"invariant relating tracked permutation and physical operator, induction over operations; `changePerm` by induction over its target list"
],
"C04": [
"alternating checker over `Sem`",
"C02 + C03 + characterisation of identity up to a phase"
],
"C05": [
"construction checker over `Sem`",
"C01 + C03; different ancillary flags: one direction and a witness"
],
"C06": [
"simulation checker over `Sem.exactVector`",
"C01 + C03; fidelity as inner product, unitary invariance, distance estimate for passed runs"
],
"C07": [
"both checkers",
"from C04 and C05"
],
"C08": [
"`Manager.run`'s shortcut",
"case analysis; witness with a SWAP layout"
],
"C09": [
"`Mgr.checkSequential` with arbitrary checkers",
"characterisation of every ending by case analysis on phases, induction on the simulation loop"
],
"C10": [
"same",
"same"
],
"C11": [
"same",
"invariant of the simulation loop"
],
"C12": [
"same, with the state of the timeout thread",
"exhaustive endings; witness for `std::terminate`"
],
"C13": [
"`Par` transition system",
"inductive invariant: the verdict has a cause among the completions consumed"
],
"C14": [
"same",
"slot invariant; exact arithmetic condition for the overflow"
],
"C15": [
"same",
"lexicographic measure decreases with every step; stuck states classified; witness for the endless wait"
],
"C16": [
"both flows",
"from the characterisations of C09 and the invariant of C13"
],
"C17": [
"both flows with an arbitrary truth",
"invariants with a truth parameter"
],
"C18": [
"both flows with throwing checkers",
"invariant on stored exceptions; witness for the null slot"
],
"C19": [
"`Par` timeout step",
"invariant"
],
"C20": [
"`Mgr.reset`, repeated runs",
"equality of states up to irrelevant fields; witnesses without reset"
],
"C21": [
"`Par` with ghost counters",
"counting invariant"
],
"C22": [
"`Queue`",
"representation invariant (linked list = values between head and tail), history of linearisation points, real-time order"
],
"C23": [
"`Queue`",
"invariant on pending notifications; witness schedule for the lost wake-up"
],
"C24": [
"`Queue`",
"invariant on null results with deadline and time"
],
"C25": [
"`Gen` over any random source",
"induction over histories; bit-level lemmas"
],
"C26": [
"`Gen.Draw` relation",
"existence of a draw iff an unused value is produced eventually; counting argument"
],
"C27": [
"`Gen` wide branch",
"index bounds"
],
"C28": [
"`Enums`",
"case analysis over the enumerators, all strings; stream reader by list lemmas"
],
"C29": [
"`Enums`",
"case analysis, witness"
],
"C30": [
"`Config`",
"Boolean case analysis against a list of tasks"
],
"C31": [
"`Py.augment`",
"induction over the keyword list; every option compared field by field (`config_ext`)"
],
"C32": [
"`Prep.construct`",
"case analysis of the constructor; witnesses for the setters"
],
"C33": [
"`Prep.capSims`",
"arithmetic; undefined shift is an outcome"
],
"C34": [
"`Prep.stripIdleQubits`",
"loop invariant over the layout of the larger circuit"
],
"C35": [
"`Prep.setupAncillaries`",
"invariants of the two loops"
],
"C36": [
"`Prep.canHandle`",
"list lemmas; link to C04's hypotheses; witness"
],
"C37": [
"`Prep.Passes`",
"log of passes; case analysis"
],
"C38": [
"`ZX` layouts",
"sorted association lists as partial maps, bijections"
],
"C39": [
"`ZX.finish`",
"case analysis + semantics of a diagram of bare wires"
],
"C40": [
"`ZX.fullReduceApproximate` over an arbitrary engine",
"invariants through nested loops, termination by a measure, fixpoint at the end"
],
"C41": [
"`Cost`",
"closed form by arithmetic, with wrap-around"
],
"C42": [
"`Profile`",
"reader/writer round trip by induction; maps as association lists"
],
"C43": [
"`DD.gateRatio`",
"rounding lemmas over \u211a"
],
"C44": [
"`Param.checkParameterized`",
"induction over the loop of instantiations with an event log"
],
"C45": [
"same",
"same"
],
"C46": [
"`Param.extractParams`",
"affine expressions over \u211d, linear algebra"
],
"C47": [
"same, with the clock",
"invariant of the remaining budget"
],
"C48": [
"`Config.json`, `Report`",
"field by field"
],
"C49": [
"`Mgr.checkSymbolic`",
"case analysis; witness"
],
"C50": [
"`DD` with a stop signal per poll, `Mgr`",
"induction over polls; witness for the reused checker"
],
"C51": [
"`Prep.optimize`",
"histories of calls"
],
"C52": [
"`Recurrence`",
"linear algebra over \u211a (nonsingular Hankel matrix), induction over the extension loop"
],
"C53": [
"`Py.compilationConfig`",
"computation; injectivity of names"
],
"C54": [
"`Gen`",
"functional relation; histories"
],
"C55": [
"`DD` postprocessing over `Sem`",
"rewriting"
],
"C56": [
"`ZX.fixAncillae`, `ZX.construct`",
"invariant on erased positions; converse by comparing sums of positions; witnesses"
],
"C57": [
"`Mgr`, `Par` counterexample fields",
"invariants of both flows"
],
"C58": [
"`Mgr.mode`",
"case analysis"
],
"C59": [
"`Mgr` reports",
"characterisation of the list of checkers of a run; repeated runs"
],
"C60": [
"`Setter` calls on `Configuration`, options read by `Spec.Py.read`",
"case analysis per setter, induction over the history"
],
"C61": [
"composition of `DD`, `Sem`, `StateGen`, `ZX` with `Mgr` and `Par` (`Spec/EndToEnd`)",
"answers of the checkers mean what they say; the manager's verdict is a conclusive answer or a default"
],
"C62": [
"`DD` with `partialEq`, `Garbage` (the package's garbage reduction) over `Sem`",
"outcome probabilities as quadratic forms of projectors; two projectors that agree below an idle circuit's projector; Cauchy\u2013Schwarz for magnitudes; two witnesses"
],
"C63": [
"`ParQ`: product of `Par` and `Queue`",
"simulation in both directions, invariant on roles of threads in the queue, lexicographic measure, classification of stuck states, constructed hanging schedule"
],
"C64": [
"`Prepare` with operations that act on a register of unlimited width (`Spec/Wide`)",
"wires not named keep their value; labels of stripped and kept qubits; padded qubits pass through; bridge to the `n`-qubit semantics of the checkers by counting physical qubits"
],
"C65": [
"two-thread transition system (main thread as a resumption over its shared accesses, timeout thread with condition variable and deadline)",
"simulation invariant relating every reachable state to the one-thread function; completeness by explicit schedules"
],
"C66": [
"same transition system; the vector has a buffer identity and a capacity",
"invariant for the positive part; explicit schedules for the races"
],
"C67": [
"same transition system with a clock",
"invariant on done, the sleeping timeout thread and lost notifications; explicit schedules"
],
"C68": [
"same transition system",
"invariant: nothing is added to the list between the strike and a running check, which was started after reading done as false"
],
"C69": [
"access sets of the steps of the parallel transition system",
"invariant (ids in the queue belong to finished workers) for the positive part, explicit schedules for the races"
],
"C70": [
"launchAgain: launch into the table left by an earlier run",
"forward simulation by runs of a fresh manager; invariant for the stop flags"
],
"C71": [
"checkers' control flow over a package memory with reference counts and adversarial garbage collection",
"ownership invariant (references = base + diagrams held) carried through all loops by induction"
],
"C72": [
"parallel flow with additional steps in which the worker reads an old `done` or the main thread an old null pointer",
"simulation relation to the sequentially consistent flow, by induction over the run; measure for finiteness; explicit run for the missed signal"
],
"C73": [
"arbitrary package `b` with a valuation `val` into exact vectors/matrices and relative error eps per call; the checkers are the generic ones of Model/DD.lean",
"error accumulation by induction over the operations (forward for vectors, an invariant of the completed object for the alternating check), Cauchy-Schwarz for overlaps, unitary invariance"
],
"C74": [
"the flows of C09/C13/C63/C72 with the checkers of C62 as their oracles (Spec/EndToEndPartial.lean)",
"provenance of the verdict (C09/C13) composed with what each checker decides (C62, C39); refinement for the queue and visibility versions"
],
"C75": [
"checker objects with the fields that survive a run (Model/Rerun.lean)",
"induction over the number of runs; the count-based schemes never fill the caches (invariant of the loop)"
],
"C76": [
"generate_profile with the transpiler as an arbitrary cost function (Model/ProfileGen.lean); the measured circuits are written out in Spec/ProfileGen.lean",
"look-up lemmas for the dictionary operations; the concrete gate lists are compared by the kernel, independently of the costs; induction over the continuation loop and over the written lines"
],
"C77": [
"as C76",
"the sequence stays sorted and non-negative (induction over the continuation)"
],
"C78": [
"Model/Session: the object between public calls, every public call as a transition; runs are those of Model/Manager and Model/Parallel (launchAgain)",
"induction over the history; per run: invariants of the simulation loop, the stages and every parallel execution"
],
"C79": [
"Spec/Exhaustive on top of Model/StateGen, Model/DD, Model/Sem, Model/Manager",
"the stimuli of 2^m requests are all basis states (C25), each simulation compares the true outputs (C06), the run logs every simulation (C11); linearity of the output for reversible circuits"
],
"C80": [
"Model/PythonSession on top of Model/Python, Model/Parameterized; Spec/PythonSession (who writes what)",
"case analysis over the calls, induction over the sequence (last writer)"
],
"C81": [
"Spec/VerifyEndToEnd joins Model/Parameterized, Model/Prepare, Model/Manager, Model/Parallel, Model/DD, Model/Sem, Model/ZX",
"C44/C58 choose the flow, C64 carries verdicts on prepared circuits back to the originals, C61 gives the verdicts on prepared circuits; circuits without operations are permutations of wires"
],
"C82": [
"Model: as C81; Spec/VerifyDecides.lean describes runs in which no checker is interrupted before the main thread has decided.",
"The three definitive verdicts exclude each other and cover all cases, so that a definitive verdict that is true (C81) decides; that the verdict is definitive follows from the flows asking the alternating or construction checker unless another conclusive answer came first."
],
"C83": [
"Model/Process: constructor (on top of Model/Prepare), setters and run() of any number of managers, with the static tolerance of the package; Spec/Process.; Model/ProcessThreads: threads of one process, each with its own managers",
"induction over the calls; case analysis over the setters; threads: invariant that all managers ask for the tolerance in force; explicit execution for the converse"
],
"C84": [
"Model/PythonVerify: whole calls of `verify` and `verify_compilation`, on top of C31/C53 (keywords) and C81/C82 (circuits); Spec/PythonVerify",
"both verdicts are decided by the circuits (C82), or true of them (C81)"
],
"C85": [
"as C84",
"the relations of Spec/Wide are reflexive, symmetric and, under the condition on widths, transitive; the verdicts decide them (C82)"
],
"C86": [
"Spec/EndToEndRounding: the checkers of Model/DD with an arbitrary rounding package inside the manager models of C09/C13",
"error accumulation of C73 with stop requests; an operator close to a multiple of a diagonal 0/1 matrix acts like a factor wherever it keeps lengths (Lemmas/RoundingProj); then as C61"
],
"C87": [
"Spec/VerifyRounding: managers constructed for the given circuits, run with the inexact package of C86",
"distances between outputs are preserved by stripping, ancilla setup, numbering and the passes (Lemmas/WideRounding); then C86 and the flow theorems"
],
"C88": [
"Spec/Routing: an inductive definition of correct compilation (placement, inserted SWAPs, replaced blocks), independent of preparation and checkers",
"a compiled circuit has the same logical outputs (simulation argument over the compilation steps and over the labels of the physical qubits), then C82/C81"
],
"C89": [
"Spec/PartialRelation: calls of verify/verify_compilation with partial equivalence (the managers of C74)",
"the verdicts decide the relation of Spec/WidePartial (C82), which is symmetric, transitive and implied by equivalence"
],
"C90": [
"Spec/VerifyCommon: equality on the inputs in which the commonly fixed qubits are zero; which checkers treat ancillary qubits otherwise",
"case distinction over the conclusive answers of the checkers (C61), preservation of that relation by the preparation (C64), and the calls of C84"
],
"C91": [
"Spec/FirstDistinct: the first distinct values of a sequence, independent uniform random variables (Mathlib); Spec/Detection: ideal source, the number of classical inputs on which two circuits disagree, a run whose stimuli come from a given generator; Spec/ParallelStimuli: executions of the parallel flow with the numbers of the stimuli",
"the stimuli are the first distinct numbers of the source (induction on the requests); all lists of distinct numbers are equally likely, because permuting the numbers preserves the product measure and every list can be permuted into every other; almost sure termination by continuity from above; counting; the verdict of the run as in C79; parallel: invariant that the stimuli handled are different and that all stimuli requested are handled or under way"
],
"C92": [
"Spec/DetectionStimuli: the numbers of a die and the words of an engine, the number of stimuli of each kind on which two circuits disagree",
"the k-th stimulus is a function of the k-th block of the source's numbers, and what holds of disjoint blocks of independent variables is independent (Props/IndependentBlocks, on Mathlib's measure theory); the verdict of a run in terms of its stimuli for any deterministic supply of stimuli; the six states of a qubit span its operators, so by induction over the qubits all product states determine a circuit up to a phase; the bound by the process fidelity: the six states of a qubit are a 2-design, so averaging one qubit at a time (Lemmas/ProductAverage, by induction over the qubits) gives a bound by the Frobenius norm and the trace of the matrix of overlaps; Bessel's inequality bounds the former"
],
"C93": [
"Spec/RoundingPartial, Spec/EndToEndRoundingPartial: the checkers of Model/DD with garbage and an arbitrary rounding package, inside the manager models of C09/C13",
"error accumulation of C73 with the garbage reductions; an operator close to a block matrix changes the probabilities of visible events by little; then as C74 and C86"
],
"C94": [
"Spec/VerifyRoundingPartial: events on the unlimited register of Spec/Wide; the manager of Spec/VerifyEndToEndPartial with the rounding package of C93",
"probabilities of visible events are carried through the passes, idle-qubit stripping and padding (Lemmas/WideRoundingPartial); then C93 and C64"
]
}