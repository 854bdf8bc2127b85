import Verif.Model.Config
/-!
# The setters of the manager

`include/EquivalenceCheckingManager.hpp:119-249`, exposed to Python by `src/python/bindings.cpp:199-367`. A call of a setter is a value of
`Setter`, so that histories of calls can be spoken about.  The calls that rewrite the circuits (`fuseSingleQubitGates`, ...) are modelled in
`Model/Prepare.lean`.
-/
namespace QCEC

/-- The calls `EquivalenceCheckingManager.hpp:119-249` (Python: `bindings.cpp:199-367`; the three cost *function* setters are not exposed to
Python). -/
inductive Setter
  | tolerance (t : Rat) | parallel (b : Bool) | nthreads (n : Nat) | timeout (t : Rat)
  | constructionChecker (b : Bool) | simulationChecker (b : Bool) | alternatingChecker (b : Bool) | zxChecker (b : Bool)
  | disableAll
  | scheme (s : SchemeType) | constructionScheme (s : SchemeType) | simulationScheme (s : SchemeType) | alternatingScheme (s : SchemeType)
  | profile (p : String) | constructionProfile (p : String) | simulationProfile (p : String) | alternatingProfile (p : String)
  | cost (f : CostKey → Nat) | constructionCost (f : CostKey → Nat) | simulationCost (f : CostKey → Nat) | alternatingCost (f : CostKey → Nat)
  | traceThreshold (t : Rat) | partialEquivalence (b : Bool) | fidelityThreshold (t : Rat) | maxSims (n : Nat)
  | stateType (t : StateType) | seed (n : Nat) | storeCexInput (b : Bool) | storeCexOutput (b : Bool)

/-- The effect of a call on the configuration, `EquivalenceCheckingManager.hpp:119-249`. -/
def Setter.apply (c : Configuration) : Setter → Configuration
  | .tolerance t => c.setTolerance t
  | .parallel b => c.setParallel b
  | .nthreads n => c.setNThreads n
  | .timeout t => c.setTimeout t
  | .constructionChecker b => c.setConstructionChecker b
  | .simulationChecker b => c.setSimulationChecker b
  | .alternatingChecker b => c.setAlternatingChecker b
  | .zxChecker b => c.setZXChecker b
  | .disableAll => c.disableAllCheckers
  | .scheme s => c.setApplicationScheme s
  | .constructionScheme s => c.setConstructionScheme s
  | .simulationScheme s => c.setSimulationScheme s
  | .alternatingScheme s => c.setAlternatingScheme s
  | .profile p => c.setGateCostProfile p
  | .constructionProfile p => c.setConstructionProfile p
  | .simulationProfile p => c.setSimulationProfile p
  | .alternatingProfile p => c.setAlternatingProfile p
  | .cost f => c.setGateCostFunction f
  | .constructionCost f => c.setConstructionCost f
  | .simulationCost f => c.setSimulationCost f
  | .alternatingCost f => c.setAlternatingCost f
  | .traceThreshold t => c.setTraceThreshold t
  | .partialEquivalence b => c.setCheckPartialEquivalence b
  | .fidelityThreshold t => c.setFidelityThreshold t
  | .maxSims n => c.setMaxSims n
  | .stateType t => c.setStateType t
  | .seed n => c.setSeed n
  | .storeCexInput b => c.storeCEXinput b
  | .storeCexOutput b => c.storeCEXoutput b

/-- A history of calls, first call first (calls of `include/EquivalenceCheckingManager.hpp:119-249`). -/
def applyAll (c : Configuration) (l : List Setter) : Configuration := l.foldl Setter.apply c

/-- The default argument of Python's `set_max_sims`, `bindings.cpp:341-343`: `std::max(16U, std::thread::hardware_concurrency() - 2U)`, in
32 bit unsigned arithmetic. -/
def pythonDefaultMaxSims (hw : Nat) : Nat := max 16 ((hw + 2 ^ 32 - 2) % 2 ^ 32)

end QCEC
