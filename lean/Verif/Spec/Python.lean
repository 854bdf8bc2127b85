import Verif.Model.Python
/-!
# Specification: the keyword options of `verify`
-/
namespace QCEC.Spec.Py
open QCEC QCEC.Py

/-- What an option means: the field of the configuration. -/
def read (c : Configuration) : Opt → FieldVal
  | .parallel => .bool c.execution.parallel
  | .nthreads => .nat c.execution.nthreads
  | .timeout => .rat c.execution.timeout
  | .runConstruction => .bool c.execution.runConstructionChecker
  | .runSimulation => .bool c.execution.runSimulationChecker
  | .runAlternating => .bool c.execution.runAlternatingChecker
  | .runZX => .bool c.execution.runZXChecker
  | .numericalTolerance => .rat c.execution.numericalTolerance
  | .fuseSingleQubitGates => .bool c.optimizations.fuseSingleQubitGates
  | .reconstructSwaps => .bool c.optimizations.reconstructSWAPs
  | .removeDiagonal => .bool c.optimizations.removeDiagonalGatesBeforeMeasure
  | .transformDynamic => .bool c.optimizations.transformDynamicCircuit
  | .reorder => .bool c.optimizations.reorderOperations
  | .backpropagate => .bool c.optimizations.backpropagateOutputPermutation
  | .elide => .bool c.optimizations.elidePermutations
  | .constructionScheme => .scheme c.application.constructionScheme
  | .simulationScheme => .scheme c.application.simulationScheme
  | .alternatingScheme => .scheme c.application.alternatingScheme
  | .profile => .str c.application.profile
  | .traceThreshold => .rat c.functionality.traceThreshold
  | .partialEquivalence => .bool c.functionality.checkPartialEquivalence
  | .fidelityThreshold => .rat c.simulation.fidelityThreshold
  | .maxSims => .nat c.simulation.maxSims
  | .stateType => .state c.simulation.stateType
  | .seed => .nat c.simulation.seed
  | .storeCexInput => .bool c.simulation.storeCEXinput
  | .storeCexOutput => .bool c.simulation.storeCEXoutput
  | .parameterizedTolerance => .rat c.parameterized.parameterizedTol
  | .additionalInstantiations => .nat c.parameterized.nAdditionalInstantiations

/-- The documented keywords, `src/mqt/qcec/configuration.py:20-53` (the typed dictionary `ConfigurationOptions`). -/
def documented : List (String × Opt) :=
  [("alternating_scheme", .alternatingScheme), ("construction_scheme", .constructionScheme), ("profile", .profile),
   ("simulation_scheme", .simulationScheme), ("nthreads", .nthreads), ("numerical_tolerance", .numericalTolerance), ("parallel", .parallel),
   ("run_alternating_checker", .runAlternating), ("run_construction_checker", .runConstruction), ("run_simulation_checker", .runSimulation),
   ("run_zx_checker", .runZX), ("timeout", .timeout), ("trace_threshold", .traceThreshold), ("check_partial_equivalence", .partialEquivalence),
   ("backpropagate_output_permutation", .backpropagate), ("elide_permutations", .elide), ("fuse_single_qubit_gates", .fuseSingleQubitGates),
   ("reconstruct_swaps", .reconstructSwaps), ("remove_diagonal_gates_before_measure", .removeDiagonal), ("reorder_operations", .reorder),
   ("transform_dynamic_circuit", .transformDynamic), ("additional_instantiations", .additionalInstantiations),
   ("parameterized_tolerance", .parameterizedTolerance), ("fidelity_threshold", .fidelityThreshold), ("max_sims", .maxSims), ("seed", .seed),
   ("state_type", .stateType), ("store_cex_input", .storeCexInput), ("store_cex_output", .storeCexOutput)]

/-- The conversions of pybind11 produce values of the right type. -/
def Typed {V : Type} (conv : Kind → V → Option FieldVal) : Prop := ∀ k v f, conv k v = some f → f.kind = k

end QCEC.Spec.Py
