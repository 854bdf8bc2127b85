import Verif.Model.Config
/-!
# Python front end: keyword arguments, `verify`, `verify_compilation`

Models `src/mqt/qcec/configuration.py:56-78`, `src/mqt/qcec/verify.py:18-62`, `src/mqt/qcec/verify_compilation_flow.py:42-98` and the names
under which `src/python/bindings.cpp:505-740` exposes the fields of `Configuration`.

Simplifications: attributes every Python object has (`__doc__`, ...) are not keywords here; pybind11's conversion of a Python value to the
type of a field is the parameter `conv`; warnings about missing measurements (`verify_compilation_flow.py:82-86`) have no effect on the result.
-/
namespace QCEC.Py
open QCEC

/-- Sections of the configuration in the order in which they are searched, `configuration.py:64-75`. -/
inductive Section
  | application | execution | functionality | optimizations | parameterized | simulation
  deriving DecidableEq, Repr

/-- Types of options (`src/mqt/qcec/configuration.py:19-53`). -/
inductive Kind
  | bool | nat | rat | str | scheme | state
  deriving DecidableEq, Repr

/-- Values of options (`src/mqt/qcec/configuration.py:19-53`). -/
inductive FieldVal
  | bool (b : Bool)
  | nat (n : Nat)
  | rat (r : Rat)
  | str (s : String)
  | scheme (s : SchemeType)
  | state (s : StateType)
  deriving DecidableEq

/-- Type of a value (`src/mqt/qcec/configuration.py:19-53`). -/
def FieldVal.kind : FieldVal → Kind
  | .bool _ => .bool
  | .nat _ => .nat
  | .rat _ => .rat
  | .str _ => .str
  | .scheme _ => .scheme
  | .state _ => .state

/-- The options, `bindings.cpp:505-740`. -/
inductive Opt
  | parallel | nthreads | timeout | runConstruction | runSimulation | runAlternating | runZX | numericalTolerance
  | fuseSingleQubitGates | reconstructSwaps | removeDiagonal | transformDynamic | reorder | backpropagate | elide
  | constructionScheme | simulationScheme | alternatingScheme | profile
  | traceThreshold | partialEquivalence
  | fidelityThreshold | maxSims | stateType | seed | storeCexInput | storeCexOutput
  | parameterizedTolerance | additionalInstantiations
  deriving DecidableEq, Repr

/-- Attributes of the sections, `bindings.cpp:505-740`. -/
def Section.attrs : Section → List (String × Opt)
  | .execution => [("parallel", .parallel), ("nthreads", .nthreads), ("timeout", .timeout), ("run_construction_checker", .runConstruction),
      ("run_simulation_checker", .runSimulation), ("run_alternating_checker", .runAlternating), ("run_zx_checker", .runZX),
      ("numerical_tolerance", .numericalTolerance)]
  | .optimizations => [("fuse_single_qubit_gates", .fuseSingleQubitGates), ("reconstruct_swaps", .reconstructSwaps),
      ("remove_diagonal_gates_before_measure", .removeDiagonal), ("transform_dynamic_circuit", .transformDynamic),
      ("reorder_operations", .reorder), ("backpropagate_output_permutation", .backpropagate), ("elide_permutations", .elide)]
  | .application => [("construction_scheme", .constructionScheme), ("simulation_scheme", .simulationScheme),
      ("alternating_scheme", .alternatingScheme), ("profile", .profile)]
  | .functionality => [("trace_threshold", .traceThreshold), ("check_partial_equivalence", .partialEquivalence)]
  | .simulation => [("fidelity_threshold", .fidelityThreshold), ("max_sims", .maxSims), ("state_type", .stateType), ("seed", .seed),
      ("store_cex_input", .storeCexInput), ("store_cex_output", .storeCexOutput)]
  | .parameterized => [("parameterized_tolerance", .parameterizedTolerance), ("additional_instantiations", .additionalInstantiations)]

/-- Type of the field behind an option, `include/Configuration.hpp:23-103`. -/
def Opt.kind : Opt → Kind
  | .nthreads | .maxSims | .seed | .additionalInstantiations => .nat
  | .timeout | .numericalTolerance | .traceThreshold | .fidelityThreshold | .parameterizedTolerance => .rat
  | .constructionScheme | .simulationScheme | .alternatingScheme => .scheme
  | .profile => .str
  | .stateType => .state
  | _ => .bool

/-- `def_readwrite`: assignment to the field behind an option, `bindings.cpp:505-740`; `none` for a value of another type. -/
def setField (c : Configuration) : Opt → FieldVal → Option Configuration
  | .parallel, .bool b => some { c with execution.parallel := b }
  | .nthreads, .nat n => some { c with execution.nthreads := n }
  | .timeout, .rat r => some { c with execution.timeout := r }
  | .runConstruction, .bool b => some { c with execution.runConstructionChecker := b }
  | .runSimulation, .bool b => some { c with execution.runSimulationChecker := b }
  | .runAlternating, .bool b => some { c with execution.runAlternatingChecker := b }
  | .runZX, .bool b => some { c with execution.runZXChecker := b }
  | .numericalTolerance, .rat r => some { c with execution.numericalTolerance := r }
  | .fuseSingleQubitGates, .bool b => some { c with optimizations.fuseSingleQubitGates := b }
  | .reconstructSwaps, .bool b => some { c with optimizations.reconstructSWAPs := b }
  | .removeDiagonal, .bool b => some { c with optimizations.removeDiagonalGatesBeforeMeasure := b }
  | .transformDynamic, .bool b => some { c with optimizations.transformDynamicCircuit := b }
  | .reorder, .bool b => some { c with optimizations.reorderOperations := b }
  | .backpropagate, .bool b => some { c with optimizations.backpropagateOutputPermutation := b }
  | .elide, .bool b => some { c with optimizations.elidePermutations := b }
  | .constructionScheme, .scheme s => some { c with application.constructionScheme := s }
  | .simulationScheme, .scheme s => some { c with application.simulationScheme := s }
  | .alternatingScheme, .scheme s => some { c with application.alternatingScheme := s }
  | .profile, .str s => some { c with application.profile := s }
  | .traceThreshold, .rat r => some { c with functionality.traceThreshold := r }
  | .partialEquivalence, .bool b => some { c with functionality.checkPartialEquivalence := b }
  | .fidelityThreshold, .rat r => some { c with simulation.fidelityThreshold := r }
  | .maxSims, .nat n => some { c with simulation.maxSims := n }
  | .stateType, .state s => some { c with simulation.stateType := s }
  | .seed, .nat n => some { c with simulation.seed := n }
  | .storeCexInput, .bool b => some { c with simulation.storeCEXinput := b }
  | .storeCexOutput, .bool b => some { c with simulation.storeCEXoutput := b }
  | .parameterizedTolerance, .rat r => some { c with parameterized.parameterizedTol := r }
  | .additionalInstantiations, .nat n => some { c with parameterized.nAdditionalInstantiations := n }
  | _, _ => none

/-- Exceptions, with the keyword (`src/mqt/qcec/configuration.py:63-78`). -/
inductive Err
  | valueError (key : String)
  | typeError (key : String)
  deriving DecidableEq, Repr

/-- The chain of `hasattr`, `configuration.py:64-75`: the first section that has the attribute. -/
def findAttr (key : String) : Option Opt :=
  [Section.application, .execution, .functionality, .optimizations, .parameterized, .simulation].findSome?
    fun s => (s.attrs.find? fun a => a.1 == key).map (·.2)

variable {V : Type}

/-- `setattr`: pybind11 converts the value (`conv`), then the field is assigned (`src/mqt/qcec/configuration.py:65-75`, attributes in `src/python/bindings.cpp:467-740`). -/
def setAttr (conv : Kind → V → Option FieldVal) (c : Configuration) (o : Opt) (v : V) : Option Configuration :=
  (conv o.kind v).bind (setField c o)

/-- `augment_config_from_kwargs`, `configuration.py:56-78`: the configuration is changed in place, so it is part of the outcome also if an
exception is raised. -/
def augment (conv : Kind → V → Option FieldVal) : Configuration → List (String × V) → Configuration × Option Err
  | c, [] => (c, none)
  | c, (k, v) :: r =>
    match findAttr k with
    | none => (c, some (.valueError k))
    | some o =>
      match setAttr conv c o v with
      | none => (c, some (.typeError k))
      | some c' => augment conv c' r

/-- The configuration `verify` works with, `verify.py:43-47`: the given one (changed in place) or a new default one. -/
def verifyConfig (conv : Kind → V → Option FieldVal) (default : Configuration) (given : Option Configuration) (kwargs : List (String × V)) :
    Configuration × Option Err :=
  augment conv (given.getD default) kwargs

/-- `AncillaMode`, `compilation_flow_profiles.py:17-23`. -/
inductive AncillaMode
  | noAncilla | recursion | vChain
  deriving DecidableEq, Repr

/-- `str(mode)`, `compilation_flow_profiles.py:20-22,37-39`. -/
def AncillaMode.str : AncillaMode → String
  | .noAncilla => "noancilla"
  | .recursion => "recursion"
  | .vChain => "v-chain"

/-- `generate_profile_name`, `compilation_flow_profiles.py:295-297`; `level` is `str(optimization_level)`. -/
def profileName (level : String) (mode : AncillaMode) : String := "qiskit_O" ++ level ++ "_" ++ mode.str ++ ".profile"

/-- The configuration `verify_compilation` hands to `verify` (without keywords), `verify_compilation_flow.py:76-98`; `dir` is the directory
of the profiles including the separator. -/
def compilationConfig (conv : Kind → V → Option FieldVal) (default : Configuration) (given : Option Configuration) (kwargs : List (String × V))
    (dir level : String) (mode : AncillaMode) : Configuration × Option Err :=
  match augment conv (given.getD default) kwargs with
  | (c, some e) => (c, some e)
  | (c, none) =>
    let c := { c with application.constructionScheme := .gateCost }
    let c := { c with application.simulationScheme := .gateCost }
    let c := { c with application.alternatingScheme := .gateCost }
    let c := { c with application.profile := dir ++ profileName level mode }
    verifyConfig conv default (some c) []

end QCEC.Py
