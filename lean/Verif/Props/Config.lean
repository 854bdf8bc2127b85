import Verif.Model.Config
/-!
# C30 (configuration predicates), C48 (verdict and configuration report)
-/
namespace QCEC.Props
open QCEC

/-! ## Specification -/

/-- A unit of work a run may start. -/
inductive Task
  | simulation (i : Nat) | alternating | construction | zx
  deriving DecidableEq, Repr

/-- The units of work a configuration asks for (independently of the circuits): `max_sims` simulations if simulation is
enabled, and one check per enabled functional checker. -/
def tasksOf (c : Configuration) : List Task :=
  (if c.execution.runSimulationChecker then (List.range c.simulation.maxSims).map .simulation else []) ++
  (if c.execution.runAlternatingChecker then [.alternating] else []) ++
  (if c.execution.runConstructionChecker then [.construction] else []) ++
  (if c.execution.runZXChecker then [.zx] else [])

theorem tasksOf_length (c : Configuration) : (tasksOf c).length =
    (if c.execution.runSimulationChecker then c.simulation.maxSims else 0) +
    (if c.execution.runAlternatingChecker then 1 else 0) +
    (if c.execution.runConstructionChecker then 1 else 0) + (if c.execution.runZXChecker then 1 else 0) := by
  unfold tasksOf
  repeat' split
  all_goals simp

/-! ## C30 -/

/-- C30: something is executed iff the configuration asks for at least one unit of work. -/
theorem anythingToExecute_iff (c : Configuration) : c.anythingToExecute = true ↔ tasksOf c ≠ [] := by
  rw [← List.length_pos_iff, tasksOf_length]
  unfold Configuration.anythingToExecute
  cases c.execution.runSimulationChecker <;> cases c.execution.runAlternatingChecker <;>
    cases c.execution.runConstructionChecker <;> cases c.execution.runZXChecker <;> simp

/-- C30 as a user would state it: `only_single_task` iff exactly one unit of work. -/
def OnlySingleTaskExact : Prop := ∀ c : Configuration, c.onlySingleTask = true ↔ (tasksOf c).length = 1

/-- C30: whenever the code says "single task" there is exactly one unit of work. -/
theorem onlySingleTask_sound (c : Configuration) (h : c.onlySingleTask = true) : (tasksOf c).length = 1 := by
  rw [tasksOf_length]
  revert h
  rcases c with ⟨⟨_, _, _, _, rc, rs, ra, rz⟩, _, _, _, ⟨_, ms, _, _, _, _⟩, _⟩
  cases rc <;> cases rs <;> cases ra <;> cases rz <;> simp [Configuration.onlySingleTask]

/-- The literal statement is false: simulation enabled with `max_sims = 0` plus one functional checker is a single unit
of work, but `onlySingleTask` says no (so a parallel run is set up for one task). -/
theorem onlySingleTask_not_exact : ¬ OnlySingleTaskExact := by
  intro h
  have := (h { execution := { numericalTolerance := 0, nthreads := 2, runZXChecker := false }, simulation := { maxSims := 0 } }).2
    (by decide)
  exact absurd this (by decide)

/-- C30 (exact, away from the corner case simulation enabled with `max_sims = 0`). -/
theorem onlySingleTask_exact_partial (c : Configuration)
    (hc : c.execution.runSimulationChecker = true → 0 < c.simulation.maxSims) :
    c.onlySingleTask = true ↔ (tasksOf c).length = 1 := by
  refine ⟨onlySingleTask_sound c, ?_⟩
  rw [tasksOf_length]
  revert hc
  rcases c with ⟨⟨_, _, _, _, rc, rs, ra, rz⟩, _, _, _, ⟨_, ms, _, _, _, _⟩, _⟩
  cases rc <;> cases rs <;> cases ra <;> cases rz <;> simp [Configuration.onlySingleTask] <;> omega

/-- C30: only-ZX means: every unit of work asked for is the ZX check, and it is asked for; stated on the flags so that
`max_sims = 0` does not matter. -/
theorem onlyZX_iff (c : Configuration) : c.onlyZXCheckerConfigured = true ↔
    (c.execution.runZXChecker = true ∧ c.execution.runSimulationChecker = false ∧
     c.execution.runAlternatingChecker = false ∧ c.execution.runConstructionChecker = false) := by
  unfold Configuration.onlyZXCheckerConfigured
  cases c.execution.runSimulationChecker <;> cases c.execution.runAlternatingChecker <;>
    cases c.execution.runConstructionChecker <;> cases c.execution.runZXChecker <;> simp

theorem onlyZX_tasks (c : Configuration) (h : c.onlyZXCheckerConfigured = true) : tasksOf c = [.zx] := by
  obtain ⟨h1, h2, h3, h4⟩ := (onlyZX_iff c).1 h
  simp [tasksOf, h1, h2, h3, h4]

theorem onlySimulation_iff (c : Configuration) : c.onlySimulationCheckerConfigured = true ↔
    (c.execution.runSimulationChecker = true ∧ c.execution.runZXChecker = false ∧
     c.execution.runAlternatingChecker = false ∧ c.execution.runConstructionChecker = false) := by
  unfold Configuration.onlySimulationCheckerConfigured
  cases c.execution.runSimulationChecker <;> cases c.execution.runAlternatingChecker <;>
    cases c.execution.runConstructionChecker <;> cases c.execution.runZXChecker <;> simp

theorem onlySimulation_tasks (c : Configuration) (h : c.onlySimulationCheckerConfigured = true) :
    ∀ t ∈ tasksOf c, ∃ i, i < c.simulation.maxSims ∧ t = .simulation i := by
  obtain ⟨h1, h2, h3, h4⟩ := (onlySimulation_iff c).1 h
  simp only [tasksOf, h1, h2, h3, h4]
  intro t ht
  simp at ht
  obtain ⟨i, hi, rfl⟩ := ht
  exact ⟨i, hi, rfl⟩

/-- C30: the default number of simulations is never below 16 and grows with the threads left over by the other two
default checkers. -/
theorem computeMaxSims_eq (hw : Nat) : computeMaxSims hw = max 16 (hw - 2) := by
  unfold computeMaxSims; split <;> omega

/-- C30: the default configuration runs exactly the simulation, alternating and ZX checkers, with at least two threads. -/
theorem default_tasks (hw : Nat) (eps : Rat) :
    tasksOf (Configuration.default hw eps) =
      (List.range (max 16 (hw - 2))).map .simulation ++ [.alternating, .zx] ∧
    2 ≤ (Configuration.default hw eps).execution.nthreads := by
  constructor
  · simp [tasksOf, Configuration.default, computeMaxSims_eq]
  · simp [Configuration.default]; omega

-- non-vacuity
example : (tasksOf (Configuration.default 4 0)).length = 18 := by decide
example : ∃ c : Configuration, c.onlySingleTask = true ∧ c.execution.runSimulationChecker = true :=
  ⟨{ execution := { numericalTolerance := 0, nthreads := 2, runZXChecker := false, runAlternatingChecker := false },
     simulation := { maxSims := 1 } }, by decide⟩

/-- C30: `setMaxSims` – zero disables simulation, a positive number never re-enables it, nothing else changes. -/
theorem setMaxSims_spec (c : Configuration) (n : Nat) :
    (c.setMaxSims n).simulation.maxSims = n ∧
    ((c.setMaxSims n).execution.runSimulationChecker = true ↔ n ≠ 0 ∧ c.execution.runSimulationChecker = true) ∧
    (c.setMaxSims n).application = c.application ∧ (c.setMaxSims n).optimizations = c.optimizations ∧
    (c.setMaxSims n).functionality = c.functionality ∧ (c.setMaxSims n).parameterized = c.parameterized ∧
    (c.setMaxSims n).execution.runAlternatingChecker = c.execution.runAlternatingChecker ∧
    (c.setMaxSims n).execution.runConstructionChecker = c.execution.runConstructionChecker ∧
    (c.setMaxSims n).execution.runZXChecker = c.execution.runZXChecker ∧
    (c.setMaxSims n).simulation.stateType = c.simulation.stateType ∧
    (c.setMaxSims n).simulation.seed = c.simulation.seed := by
  by_cases h : n = 0 <;> simp [Configuration.setMaxSims, h]

/-- C30: after `disableAllCheckers` nothing is executed, whatever `max_sims` says. -/
theorem disableAll_nothing (c : Configuration) : (c.disableAllCheckers).anythingToExecute = false := by
  simp [Configuration.disableAllCheckers, Configuration.anythingToExecute]

/-! ## C48: verdict classification and configuration report -/

/-- C48: exactly the four positive criteria count as "considered equivalent". -/
theorem consideredEquivalent_iff (c : Criterion) : c.consideredEquivalent = true ↔
    c ∈ [Criterion.equivalent, .equivalentUpToGlobalPhase, .equivalentUpToPhase, .probablyEquivalent] := by
  cases c <;> decide

/-- C48: the report always carries these sections. -/
theorem json_sections (c : Configuration) (k : String) : (c.json.get? k).isSome = true ↔
    (k ∈ ["execution", "optimizations", "application", "parameterized"] ∨
     (k = "functionality" ∧ (c.execution.runConstructionChecker = true ∨ c.execution.runAlternatingChecker = true)) ∨
     (k = "simulation" ∧ c.execution.runSimulationChecker = true)) := by
  unfold Configuration.json Configuration.jsonFunctionality Configuration.jsonSimulation Json.get?
  cases c.execution.runSimulationChecker <;> cases c.execution.runAlternatingChecker <;>
    cases c.execution.runConstructionChecker <;>
    simp [List.find?_isSome] <;> grind

/-- C48: the `execution` section reports the actual flags and the effective number of threads; a timeout appears iff one
is configured. -/
theorem json_execution (c : Configuration) :
    c.jsonExecution.get? "nthreads" = some (.nat (if c.execution.parallel then c.execution.nthreads else 1)) ∧
    c.jsonExecution.get? "run_construction_checker" = some (.bool c.execution.runConstructionChecker) ∧
    c.jsonExecution.get? "run_simulation_checker" = some (.bool c.execution.runSimulationChecker) ∧
    c.jsonExecution.get? "run_alternating_checker" = some (.bool c.execution.runAlternatingChecker) ∧
    c.jsonExecution.get? "run_zx_checker" = some (.bool c.execution.runZXChecker) ∧
    c.jsonExecution.get? "parallel" = some (.bool c.execution.parallel) ∧
    c.jsonExecution.get? "tolerance" = some (.num c.execution.numericalTolerance) ∧
    c.jsonExecution.get? "timeout" = (if c.execution.timeout > 0 then some (.num c.execution.timeout) else none) := by
  refine ⟨?_, ?_, ?_, ?_, ?_, ?_, ?_, ?_⟩ <;> simp [Configuration.jsonExecution, Json.get?, List.find?]
  split <;> simp [List.find?]

theorem get?_null_or_obj (l : List (String × Json)) (k : String) :
    (if l.isEmpty then Json.null else Json.obj l).get? k = (l.find? (fun p => p.1 == k)).map (·.2) := by
  cases l <;> simp [Json.get?]

/-- C48: scheme names in the report parse back to the configured schemes. -/
theorem json_application (c : Configuration) :
    (c.jsonApplication.get? "construction" =
      if c.execution.runConstructionChecker then some (.str c.application.constructionScheme.toStr) else none) ∧
    (c.jsonApplication.get? "simulation" =
      if c.execution.runSimulationChecker then some (.str c.application.simulationScheme.toStr) else none) ∧
    (c.jsonApplication.get? "alternating" =
      if c.execution.runAlternatingChecker then some (.str c.application.alternatingScheme.toStr) else none) := by
  rcases c with ⟨⟨_, _, _, _, rc, rs, ra, rz⟩, _, ⟨_, _, _, _, _⟩, _, _, _⟩
  simp only [Configuration.jsonApplication, get?_null_or_obj]
  cases rc <;> cases rs <;> cases ra <;> simp [List.find?] <;> split <;> simp_all [List.find?]

/-- C48: the profile entry is present iff some scheme – also of a *disabled* checker – is gate cost. -/
theorem json_profile (c : Configuration) :
    c.jsonApplication.get? "profile" =
      if c.application.constructionScheme = .gateCost ∨ c.application.simulationScheme = .gateCost ∨
        c.application.alternatingScheme = .gateCost
      then some (.str (if c.application.profile ≠ "" then c.application.profile else "cost_function")) else none := by
  rcases c with ⟨⟨_, _, _, _, rc, rs, ra, rz⟩, _, ⟨_, _, _, _, _⟩, _, _, _⟩
  simp only [Configuration.jsonApplication, get?_null_or_obj]
  cases rc <;> cases rs <;> cases ra <;> simp [List.find?] <;> split <;> simp_all [List.find?]

/-- **C48**: the `optimizations` section reports every flag under its own name. -/
theorem json_optimizations (c : Configuration) :
    (c.json.get? "optimizations").bind (·.get? "fuse_consecutive_single_qubit_gates") =
      some (.bool c.optimizations.fuseSingleQubitGates) ∧
    (c.json.get? "optimizations").bind (·.get? "reconstruct_swaps") = some (.bool c.optimizations.reconstructSWAPs) ∧
    (c.json.get? "optimizations").bind (·.get? "remove_diagonal_gates_before_measure") =
      some (.bool c.optimizations.removeDiagonalGatesBeforeMeasure) ∧
    (c.json.get? "optimizations").bind (·.get? "transform_dynamic_circuit") = some (.bool c.optimizations.transformDynamicCircuit) ∧
    (c.json.get? "optimizations").bind (·.get? "reorder_operations") = some (.bool c.optimizations.reorderOperations) ∧
    (c.json.get? "optimizations").bind (·.get? "backpropagate_output_permutation") =
      some (.bool c.optimizations.backpropagateOutputPermutation) ∧
    (c.json.get? "optimizations").bind (·.get? "elide_permutations") = some (.bool c.optimizations.elidePermutations) :=
  ⟨rfl, rfl, rfl, rfl, rfl, rfl, rfl⟩

/-- **C48**: the `simulation` section, present exactly if simulations are enabled, reports every option under its own name. -/
theorem json_simulation (c : Configuration) (h : c.execution.runSimulationChecker = true) :
    (c.json.get? "simulation").bind (·.get? "fidelity_threshold") = some (.num c.simulation.fidelityThreshold) ∧
    (c.json.get? "simulation").bind (·.get? "max_sims") = some (.nat c.simulation.maxSims) ∧
    (c.json.get? "simulation").bind (·.get? "state_type") = some (.str c.simulation.stateType.toStr) ∧
    (c.json.get? "simulation").bind (·.get? "seed") = some (.nat c.simulation.seed) ∧
    (c.json.get? "simulation").bind (·.get? "store_counterexample_input") = some (.bool c.simulation.storeCEXinput) ∧
    (c.json.get? "simulation").bind (·.get? "store_counterexample_output") = some (.bool c.simulation.storeCEXoutput) := by
  refine ⟨?_, ?_, ?_, ?_, ?_, ?_⟩ <;>
    (unfold Configuration.json Configuration.jsonFunctionality Configuration.jsonSimulation
     rw [if_pos h]
     split <;> rfl)

/-- **C48**: the `functionality` and `parameterized` sections report every option under its own name. -/
theorem json_functionality (c : Configuration)
    (h : c.execution.runConstructionChecker = true ∨ c.execution.runAlternatingChecker = true) :
    (c.json.get? "functionality").bind (·.get? "trace_threshold") = some (.num c.functionality.traceThreshold) ∧
    (c.json.get? "functionality").bind (·.get? "check_partial_equivalence") = some (.bool c.functionality.checkPartialEquivalence) ∧
    (c.json.get? "parameterized").bind (·.get? "tolerance") = some (.num c.parameterized.parameterizedTol) ∧
    (c.json.get? "parameterized").bind (·.get? "additional_instantiations") =
      some (.nat c.parameterized.nAdditionalInstantiations) := by
  have h' : (c.execution.runConstructionChecker || c.execution.runAlternatingChecker) = true := by simpa using h
  refine ⟨?_, ?_, rfl, rfl⟩ <;>
    (unfold Configuration.json Configuration.jsonFunctionality
     rw [if_pos h']
     rfl)

/-- **C48**: the `execution` section of the whole report is the one described by `json_execution`, and the `application` section the
one described by `json_application` and `json_profile`. -/
theorem json_parts (c : Configuration) : c.json.get? "execution" = some c.jsonExecution ∧
    c.json.get? "application" = some c.jsonApplication := ⟨rfl, rfl⟩

end QCEC.Props
