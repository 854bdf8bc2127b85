import Verif.Model.Enums
import Verif.Model.Cost
/-!
# Configuration

Models `include/Configuration.hpp`, `src/Configuration.cpp` and the configuration setters of
`include/EquivalenceCheckingManager.hpp:119-249`.

Simplifications: `double` values are rationals (no NaN/infinity); `std::size_t` values are naturals.
-/
namespace QCEC

/-- `Configuration::Execution`, `include/Configuration.hpp:25-36`.  The default of `nthreads`
(`max(2, hardware_concurrency())`) is a parameter of the environment, see `Configuration.default`. -/
structure Execution where
  numericalTolerance : Rat
  parallel : Bool := true
  nthreads : Nat
  timeout : Rat := 0
  runConstructionChecker : Bool := false
  runSimulationChecker : Bool := true
  runAlternatingChecker : Bool := true
  runZXChecker : Bool := true
  deriving DecidableEq

/-- `Configuration::Optimizations`, `include/Configuration.hpp:39-47`. -/
structure Optimizations where
  fuseSingleQubitGates : Bool := true
  reconstructSWAPs : Bool := true
  removeDiagonalGatesBeforeMeasure : Bool := false
  transformDynamicCircuit : Bool := false
  reorderOperations : Bool := true
  backpropagateOutputPermutation : Bool := false
  elidePermutations : Bool := true
  deriving DecidableEq

/-- `Configuration::Application`, `include/Configuration.hpp:50-61`. -/
structure Application where
  constructionScheme : SchemeType := .proportional
  simulationScheme : SchemeType := .proportional
  alternatingScheme : SchemeType := .proportional
  profile : String := ""
  costFunction : CostKey → Nat := legacyCost

/-- `Configuration::Functionality`, `include/Configuration.hpp:63-66`. -/
structure Functionality where
  traceThreshold : Rat := 1 / 100000000
  checkPartialEquivalence : Bool := false
  deriving DecidableEq

/-- `Configuration::Simulation::computeMaxSims`, `include/Configuration.hpp:78-90`; the argument is
`std::thread::hardware_concurrency()`. -/
def computeMaxSims (systemThreads : Nat) : Nat :=
  if systemThreads < 2 then 16 else max 16 (systemThreads - 2)

/-- `Configuration::Simulation`, `include/Configuration.hpp:69-76`. -/
structure Simulation where
  fidelityThreshold : Rat := 1 / 100000000
  maxSims : Nat
  stateType : StateType := .computationalBasis
  seed : Nat := 0
  storeCEXinput : Bool := false
  storeCEXoutput : Bool := false
  deriving DecidableEq

/-- `Configuration::Parameterized`, `include/Configuration.hpp:93-96`. -/
structure Parameterized where
  parameterizedTol : Rat := 1 / 1000000000000
  nAdditionalInstantiations : Nat := 0
  deriving DecidableEq

/-- `class Configuration`, `include/Configuration.hpp:98-103`. -/
structure Configuration where
  execution : Execution
  optimizations : Optimizations := {}
  application : Application := {}
  functionality : Functionality := {}
  simulation : Simulation
  parameterized : Parameterized := {}

/-- Default-constructed configuration on a machine with `hw` hardware threads and mqt-core's default tolerance `eps`;
`include/Configuration.hpp:23-103`. -/
def Configuration.default (hw : Nat) (eps : Rat) : Configuration where
  execution := { numericalTolerance := eps, nthreads := max 2 hw }
  simulation := { maxSims := computeMaxSims hw }

namespace Configuration

/-- `src/Configuration.cpp:15-19`. -/
def anythingToExecute (c : Configuration) : Bool :=
  (c.execution.runSimulationChecker && decide (c.simulation.maxSims > 0)) ||
    c.execution.runAlternatingChecker || c.execution.runConstructionChecker || c.execution.runZXChecker

/-- `src/Configuration.cpp:21-41`. -/
def onlySingleTask (c : Configuration) : Bool :=
  let e := c.execution
  if e.runSimulationChecker && decide (c.simulation.maxSims = 1) && !e.runAlternatingChecker &&
      !e.runConstructionChecker && !e.runZXChecker then true
  else if !e.runSimulationChecker &&
      ((e.runAlternatingChecker && !e.runConstructionChecker && !e.runZXChecker) ||
       (!e.runAlternatingChecker && e.runConstructionChecker && !e.runZXChecker) ||
       (!e.runAlternatingChecker && !e.runConstructionChecker && e.runZXChecker)) then true
  else false

/-- `src/Configuration.cpp:43-46`. -/
def onlyZXCheckerConfigured (c : Configuration) : Bool :=
  !c.execution.runConstructionChecker && !c.execution.runSimulationChecker &&
    !c.execution.runAlternatingChecker && c.execution.runZXChecker

/-- `src/Configuration.cpp:48-51`. -/
def onlySimulationCheckerConfigured (c : Configuration) : Bool :=
  !c.execution.runConstructionChecker && c.execution.runSimulationChecker &&
    !c.execution.runAlternatingChecker && !c.execution.runZXChecker

end Configuration

/-- A JSON value (`nlohmann::json`), as far as used here; objects are association lists (built in `src/Configuration.cpp:53-124`, `src/EquivalenceCheckingManager.cpp:937-980`). -/
inductive Json
  | null
  | bool (b : Bool)
  | nat (n : Nat)
  | num (r : Rat)
  | str (s : String)
  | arr (l : List Json)
  | obj (l : List (String × Json))

/-- `j[key]` for reading (keys written in `src/Configuration.cpp:53-124`). -/
def Json.get? : Json → String → Option Json
  | .obj l, k => (l.find? (fun p => p.1 == k)).map (·.2)
  | _, _ => none

/-- Section `execution` of the report; `src/Configuration.cpp:55-71`. -/
def Configuration.jsonExecution (c : Configuration) : Json :=
  let e := c.execution
  .obj ([("tolerance", .num e.numericalTolerance), ("parallel", .bool e.parallel),
    ("nthreads", .nat (if e.parallel then e.nthreads else 1)),
    ("run_construction_checker", .bool e.runConstructionChecker),
    ("run_simulation_checker", .bool e.runSimulationChecker),
    ("run_alternating_checker", .bool e.runAlternatingChecker),
    ("run_zx_checker", .bool e.runZXChecker)] ++
    (if e.timeout > 0 then [("timeout", .num e.timeout)] else []))

/-- Section `optimizations`; `src/Configuration.cpp:72-83`. -/
def Configuration.jsonOptimizations (c : Configuration) : Json :=
  let o := c.optimizations
  .obj [("fuse_consecutive_single_qubit_gates", .bool o.fuseSingleQubitGates),
    ("reconstruct_swaps", .bool o.reconstructSWAPs),
    ("remove_diagonal_gates_before_measure", .bool o.removeDiagonalGatesBeforeMeasure),
    ("transform_dynamic_circuit", .bool o.transformDynamicCircuit),
    ("reorder_operations", .bool o.reorderOperations),
    ("backpropagate_output_permutation", .bool o.backpropagateOutputPermutation),
    ("elide_permutations", .bool o.elidePermutations)]

/-- Section `application`; `src/Configuration.cpp:85-103`.  An untouched `config["application"]` is `null`. -/
def Configuration.jsonApplication (c : Configuration) : Json :=
  let e := c.execution
  let a := c.application
  let l : List (String × Json) :=
    (if e.runConstructionChecker then [("construction", .str a.constructionScheme.toStr)] else []) ++
    (if e.runSimulationChecker then [("simulation", .str a.simulationScheme.toStr)] else []) ++
    (if e.runAlternatingChecker then [("alternating", .str a.alternatingScheme.toStr)] else []) ++
    (if a.constructionScheme = .gateCost ∨ a.simulationScheme = .gateCost ∨ a.alternatingScheme = .gateCost then
      [("profile", .str (if a.profile ≠ "" then a.profile else "cost_function"))] else [])
  if l.isEmpty then .null else .obj l

/-- Section `functionality` (only present when used); `src/Configuration.cpp:109-113`. -/
def Configuration.jsonFunctionality (c : Configuration) : List (String × Json) :=
  if c.execution.runConstructionChecker || c.execution.runAlternatingChecker then
    [("functionality", .obj [("trace_threshold", .num c.functionality.traceThreshold),
      ("check_partial_equivalence", .bool c.functionality.checkPartialEquivalence)])] else []

/-- Section `simulation` (only present when used); `src/Configuration.cpp:115-123`. -/
def Configuration.jsonSimulation (c : Configuration) : List (String × Json) :=
  let s := c.simulation
  if c.execution.runSimulationChecker then
    [("simulation", .obj [("fidelity_threshold", .num s.fidelityThreshold), ("max_sims", .nat s.maxSims),
      ("state_type", .str s.stateType.toStr), ("seed", .nat s.seed),
      ("store_counterexample_input", .bool s.storeCEXinput),
      ("store_counterexample_output", .bool s.storeCEXoutput)])] else []

/-- `Configuration::json`, `src/Configuration.cpp:53-126`. -/
def Configuration.json (c : Configuration) : Json :=
  .obj ([("execution", c.jsonExecution), ("optimizations", c.jsonOptimizations),
    ("application", c.jsonApplication),
    ("parameterized", .obj [("tolerance", .num c.parameterized.parameterizedTol),
      ("additional_instantiations", .nat c.parameterized.nAdditionalInstantiations)])] ++
    c.jsonFunctionality ++ c.jsonSimulation)

/-! ## Setters of the manager that only touch the configuration -/

namespace Configuration

/-- `setTolerance`, `include/EquivalenceCheckingManager.hpp:119-122` (the process-wide tolerance of the DD package, which it
also writes, is modelled in `Verif/Model/Process.lean`). -/
def setTolerance (c : Configuration) (t : Rat) : Configuration :=
  { c with execution := { c.execution with numericalTolerance := t } }
/-- `setParallel`, `EquivalenceCheckingManager.hpp:123-125`. -/
def setParallel (c : Configuration) (b : Bool) : Configuration :=
  { c with execution := { c.execution with parallel := b } }
/-- `setNThreads`, `EquivalenceCheckingManager.hpp:126-128`. -/
def setNThreads (c : Configuration) (n : Nat) : Configuration :=
  { c with execution := { c.execution with nthreads := n } }
/-- `setTimeout`, `EquivalenceCheckingManager.hpp:129-131`. -/
def setTimeout (c : Configuration) (t : Rat) : Configuration :=
  { c with execution := { c.execution with timeout := t } }
/-- `setConstructionChecker`, `EquivalenceCheckingManager.hpp:132-134`. -/
def setConstructionChecker (c : Configuration) (b : Bool) : Configuration :=
  { c with execution := { c.execution with runConstructionChecker := b } }
/-- `setSimulationChecker`, `EquivalenceCheckingManager.hpp:135-137`. -/
def setSimulationChecker (c : Configuration) (b : Bool) : Configuration :=
  { c with execution := { c.execution with runSimulationChecker := b } }
/-- `setAlternatingChecker`, `EquivalenceCheckingManager.hpp:138-140`. -/
def setAlternatingChecker (c : Configuration) (b : Bool) : Configuration :=
  { c with execution := { c.execution with runAlternatingChecker := b } }
/-- `setZXChecker`, `EquivalenceCheckingManager.hpp:141`. -/
def setZXChecker (c : Configuration) (b : Bool) : Configuration :=
  { c with execution := { c.execution with runZXChecker := b } }
/-- `disableAllCheckers`, `EquivalenceCheckingManager.hpp:143-148`. -/
def disableAllCheckers (c : Configuration) : Configuration :=
  { c with execution := { c.execution with
      runConstructionChecker := false, runZXChecker := false,
      runSimulationChecker := false, runAlternatingChecker := false } }
/-- `setMaxSims`, `EquivalenceCheckingManager.hpp:231-236`. -/
def setMaxSims (c : Configuration) (n : Nat) : Configuration :=
  { c with
    execution := { c.execution with
      runSimulationChecker := if n = 0 then false else c.execution.runSimulationChecker },
    simulation := { c.simulation with maxSims := n } }
/-- `setConstructionApplicationScheme`, `EquivalenceCheckingManager.hpp:161-164`. -/
def setConstructionScheme (c : Configuration) (s : SchemeType) : Configuration :=
  { c with application := { c.application with constructionScheme := s } }
/-- `setSimulationApplicationScheme`, `EquivalenceCheckingManager.hpp:165-168`. -/
def setSimulationScheme (c : Configuration) (s : SchemeType) : Configuration :=
  { c with application := { c.application with simulationScheme := s } }
/-- `setAlternatingApplicationScheme`, `EquivalenceCheckingManager.hpp:169-172`. -/
def setAlternatingScheme (c : Configuration) (s : SchemeType) : Configuration :=
  { c with application := { c.application with alternatingScheme := s } }
/-- `setConstructionGateCostProfile`, `EquivalenceCheckingManager.hpp:178-182`. -/
def setConstructionProfile (c : Configuration) (p : String) : Configuration :=
  { c with application := { c.application with constructionScheme := .gateCost, profile := p } }
/-- `setSimulationGateCostProfile`, `EquivalenceCheckingManager.hpp:183-187`. -/
def setSimulationProfile (c : Configuration) (p : String) : Configuration :=
  { c with application := { c.application with simulationScheme := .gateCost, profile := p } }
/-- `setAlternatingGateCostProfile`, `EquivalenceCheckingManager.hpp:188-192`. -/
def setAlternatingProfile (c : Configuration) (p : String) : Configuration :=
  { c with application := { c.application with alternatingScheme := .gateCost, profile := p } }
/-- `setConstructionGateCostFunction`, `EquivalenceCheckingManager.hpp:198-202`. -/
def setConstructionCost (c : Configuration) (f : CostKey → Nat) : Configuration :=
  { c with application := { c.application with constructionScheme := .gateCost, costFunction := f } }
/-- `setSimulationGateCostFunction`, `EquivalenceCheckingManager.hpp:203-207`. -/
def setSimulationCost (c : Configuration) (f : CostKey → Nat) : Configuration :=
  { c with application := { c.application with simulationScheme := .gateCost, costFunction := f } }
/-- `setAlternatingGateCostFunction`, `EquivalenceCheckingManager.hpp:208-212`. -/
def setAlternatingCost (c : Configuration) (f : CostKey → Nat) : Configuration :=
  { c with application := { c.application with alternatingScheme := .gateCost, costFunction := f } }
/-- `setApplicationScheme`, `EquivalenceCheckingManager.hpp:173-177`. -/
def setApplicationScheme (c : Configuration) (s : SchemeType) : Configuration :=
  ((c.setConstructionScheme s).setSimulationScheme s).setAlternatingScheme s
/-- `setGateCostProfile`, `EquivalenceCheckingManager.hpp:193-197`. -/
def setGateCostProfile (c : Configuration) (p : String) : Configuration :=
  ((c.setConstructionProfile p).setSimulationProfile p).setAlternatingProfile p
/-- `setGateCostFunction`, `EquivalenceCheckingManager.hpp:213-217`. -/
def setGateCostFunction (c : Configuration) (f : CostKey → Nat) : Configuration :=
  ((c.setConstructionCost f).setSimulationCost f).setAlternatingCost f
/-- `setTraceThreshold`, `EquivalenceCheckingManager.hpp:220-222`. -/
def setTraceThreshold (c : Configuration) (t : Rat) : Configuration :=
  { c with functionality := { c.functionality with traceThreshold := t } }
/-- `setCheckPartialEquivalence`, `EquivalenceCheckingManager.hpp:223-225`. -/
def setCheckPartialEquivalence (c : Configuration) (b : Bool) : Configuration :=
  { c with functionality := { c.functionality with checkPartialEquivalence := b } }
/-- `setFidelityThreshold`, `EquivalenceCheckingManager.hpp:229-231`. -/
def setFidelityThreshold (c : Configuration) (t : Rat) : Configuration :=
  { c with simulation := { c.simulation with fidelityThreshold := t } }
/-- `storeCEXinput`, `EquivalenceCheckingManager.hpp:244-246`. -/
def storeCEXinput (c : Configuration) (b : Bool) : Configuration :=
  { c with simulation := { c.simulation with storeCEXinput := b } }
/-- `storeCEXoutput`, `EquivalenceCheckingManager.hpp:247-249`. -/
def storeCEXoutput (c : Configuration) (b : Bool) : Configuration :=
  { c with simulation := { c.simulation with storeCEXoutput := b } }
/-- `setStateType`, `EquivalenceCheckingManager.hpp:237-239`. -/
def setStateType (c : Configuration) (t : StateType) : Configuration :=
  { c with simulation := { c.simulation with stateType := t } }
/-- configuration part of `setSeed`, `EquivalenceCheckingManager.hpp:240-243`. -/
def setSeed (c : Configuration) (s : Nat) : Configuration :=
  { c with simulation := { c.simulation with seed := s } }

end Configuration

/-- `Results::consideredEquivalent`, `include/EquivalenceCheckingManager.hpp:70-80`. -/
def Criterion.consideredEquivalent : Criterion → Bool
  | .equivalent | .probablyEquivalent | .equivalentUpToGlobalPhase | .equivalentUpToPhase => true
  | _ => false

end QCEC
