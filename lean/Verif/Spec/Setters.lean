import Verif.Spec.Python
import Verif.Model.Setters
/-!
# Specification: what a call of a setter is documented to change

`writes s` lists the options a call sets, and the values.  Options are read off a configuration by `Spec.Py.read`.
-/
namespace QCEC.Spec
open QCEC QCEC.Py

/-- The options a call writes, with the value written (header `include/EquivalenceCheckingManager.hpp:115-249`, docstrings in
`src/python/bindings.cpp:199-367`). -/
def writes : Setter → List (Opt × FieldVal)
  | .tolerance t => [(.numericalTolerance, .rat t)]
  | .parallel b => [(.parallel, .bool b)]
  | .nthreads n => [(.nthreads, .nat n)]
  | .timeout t => [(.timeout, .rat t)]
  | .constructionChecker b => [(.runConstruction, .bool b)]
  | .simulationChecker b => [(.runSimulation, .bool b)]
  | .alternatingChecker b => [(.runAlternating, .bool b)]
  | .zxChecker b => [(.runZX, .bool b)]
  | .disableAll => [(.runConstruction, .bool false), (.runSimulation, .bool false), (.runAlternating, .bool false), (.runZX, .bool false)]
  | .scheme s => [(.constructionScheme, .scheme s), (.simulationScheme, .scheme s), (.alternatingScheme, .scheme s)]
  | .constructionScheme s => [(.constructionScheme, .scheme s)]
  | .simulationScheme s => [(.simulationScheme, .scheme s)]
  | .alternatingScheme s => [(.alternatingScheme, .scheme s)]
  | .profile p => [(.constructionScheme, .scheme .gateCost), (.simulationScheme, .scheme .gateCost), (.alternatingScheme, .scheme .gateCost),
      (.profile, .str p)]
  | .constructionProfile p => [(.constructionScheme, .scheme .gateCost), (.profile, .str p)]
  | .simulationProfile p => [(.simulationScheme, .scheme .gateCost), (.profile, .str p)]
  | .alternatingProfile p => [(.alternatingScheme, .scheme .gateCost), (.profile, .str p)]
  | .cost _ => [(.constructionScheme, .scheme .gateCost), (.simulationScheme, .scheme .gateCost), (.alternatingScheme, .scheme .gateCost)]
  | .constructionCost _ => [(.constructionScheme, .scheme .gateCost)]
  | .simulationCost _ => [(.simulationScheme, .scheme .gateCost)]
  | .alternatingCost _ => [(.alternatingScheme, .scheme .gateCost)]
  | .traceThreshold t => [(.traceThreshold, .rat t)]
  | .partialEquivalence b => [(.partialEquivalence, .bool b)]
  | .fidelityThreshold t => [(.fidelityThreshold, .rat t)]
  | .maxSims 0 => [(.maxSims, .nat 0), (.runSimulation, .bool false)]
  | .maxSims n => [(.maxSims, .nat n)]
  | .stateType t => [(.stateType, .state t)]
  | .seed n => [(.seed, .nat n)]
  | .storeCexInput b => [(.storeCexInput, .bool b)]
  | .storeCexOutput b => [(.storeCexOutput, .bool b)]

/-- The cost function a call installs. -/
def writesCost : Setter → Option (CostKey → Nat)
  | .cost f | .constructionCost f | .simulationCost f | .alternatingCost f => some f
  | _ => none

/-- The last value a history of calls writes to an option, if any. -/
def lastWrite (o : Opt) (l : List Setter) : Option FieldVal :=
  (((l.flatMap writes).reverse).find? fun w => w.1 = o).map (·.2)

end QCEC.Spec
