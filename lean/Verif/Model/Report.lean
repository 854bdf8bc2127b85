import Verif.Model.Manager
/-!
# The JSON report of a run

Models `Results::json` (`src/EquivalenceCheckingManager.cpp:937-980`), `Results::toJson`
(`include/EquivalenceCheckingManager.hpp:84-89`), the fields of `Results` recorded by `run()`
(`src/EquivalenceCheckingManager.cpp:296-308`) and the `json` methods of the checkers.

Simplifications: numbers (times, amplitudes) are rationals instead of doubles; the order of the keys is the order of insertion
(nlohmann's `json` sorts them; nothing below depends on the order); rendering the object as text (`dump`) is not modelled.
-/
namespace QCEC.Report
open QCEC QCEC.Mgr

/-- What `run()` records of a circuit, `EquivalenceCheckingManager.cpp:296-305` (measured qubits and ancillae are recorded too but
are not part of the JSON report). -/
structure Circuit where
  name : String
  numQubits : Nat
  numGates : Nat
  deriving DecidableEq

/-- `EquivalenceCheckingManager::Results`, `EquivalenceCheckingManager.hpp:38-68`. -/
structure Results where
  circuit1 : Circuit
  circuit2 : Circuit
  configuration : Configuration
  preprocessingTime : Rat
  checkTime : Rat
  equivalence : Criterion
  startedSimulations : Nat
  performedSimulations : Nat
  cexInput : List (Rat × Rat)
  cexOutput1 : List (Rat × Rat)
  cexOutput2 : List (Rat × Rat)
  performedInstantiations : Nat
  checkerResults : List Json

/-- `toJson`, `EquivalenceCheckingManager.hpp:84-89`: an array of pairs of real and imaginary part. -/
def vectorJson (v : List (Rat × Rat)) : Json := .arr (v.map fun a => .arr [.num a.1, .num a.2])

/-- The entry of one circuit, `EquivalenceCheckingManager.cpp:940-948`. -/
def Circuit.json (c : Circuit) : Json :=
  .obj [("name", .str c.name), ("num_qubits", .nat c.numQubits), ("num_gates", .nat c.numGates)]

/-- One vector of the counterexample: written only if it is not empty, `EquivalenceCheckingManager.cpp:963-971`. -/
def vectorEntry (key : String) (v : List (Rat × Rat)) : List (String × Json) :=
  if v.isEmpty then [] else [(key, vectorJson v)]

/-- `sim["verification_cex"]`, `EquivalenceCheckingManager.cpp:961-972`. -/
def Results.cexEntry (r : Results) : List (String × Json) :=
  if !r.cexInput.isEmpty || !r.cexOutput1.isEmpty || !r.cexOutput2.isEmpty then
    [("verification_cex", .obj (vectorEntry "input" r.cexInput ++ vectorEntry "output1" r.cexOutput1 ++
      vectorEntry "output2" r.cexOutput2))]
  else []

/-- `res["simulations"]`, `EquivalenceCheckingManager.cpp:956-973`. -/
def Results.simulationEntry (r : Results) : List (String × Json) :=
  if r.startedSimulations > 0 then
    [("simulations", .obj ([("started", .nat r.startedSimulations), ("performed", .nat r.performedSimulations)] ++ r.cexEntry))]
  else []

/-- `Results::json`, `EquivalenceCheckingManager.cpp:937-980`. -/
def Results.json (r : Results) : Json :=
  .obj ([("circuit1", r.circuit1.json), ("circuit2", r.circuit2.json), ("configuration", r.configuration.json),
    ("preprocessing_time", .num r.preprocessingTime), ("check_time", .num r.checkTime),
    ("equivalence", .str r.equivalence.toStr)] ++ r.simulationEntry ++
    [("parameterized", .obj [("performed_instantiations", .nat r.performedInstantiations)]),
     ("checkers", .arr r.checkerResults)])

/-- The name a checker reports: `DDSimulationChecker.cpp:55`, `DDAlternatingChecker.cpp:167`, `DDConstructionChecker.cpp:17`,
`ZXChecker.hpp:31`. -/
def checkerName : Kind → String
  | .simulation => "decision_diagram_simulation"
  | .alternating => "decision_diagram_alternating"
  | .construction => "decision_diagram_construction"
  | .zx => "zx"

/-- What a checker knows when it is asked for its report: its verdict (`EquivalenceChecker.hpp:50`, initially no information), its
runtime and, for the decision diagram checkers, the largest number of active nodes. -/
structure Checker where
  kind : Kind
  equivalence : Criterion
  runtime : Rat
  maxActiveNodes : Nat

/-- `json` of the four checkers: `EquivalenceChecker.cpp:15-18`, `DDEquivalenceChecker.cpp:272-276` and the places given at
`checkerName`. -/
def Checker.json (c : Checker) : Json :=
  .obj ([("equivalence", .str c.equivalence.toStr), ("runtime", .num c.runtime)] ++
    (if c.kind = .zx then [] else [("max_nodes", .nat c.maxActiveNodes)]) ++ [("checker", .str (checkerName c.kind))])

/-- The state vectors of the `i`-th simulation run (input, output of circuit 1, output of circuit 2); the model of the manager only
keeps the number `i` (`src/EquivalenceCheckingManager.cpp:468-475`). -/
structure Vectors where
  input : Nat → List (Rat × Rat)
  output1 : Nat → List (Rat × Rat)
  output2 : Nat → List (Rat × Rat)

/-- The vector with the given number, or the empty vector a fresh `Results` starts with (`include/EquivalenceCheckingManager.hpp:63-65`). -/
def pick (f : Nat → List (Rat × Rat)) : Option Nat → List (Rat × Rat)
  | some i => f i
  | none => []

/-- The `Results` of a manager in state `s` whose last `run()` was started with configuration `cfg` (`run()` records it before it
starts any checker, `EquivalenceCheckingManager.cpp:307`).  `details` gives verdict, runtime and nodes of the checkers reported. -/
def ofState (c1 c2 : Circuit) (cfg : Configuration) (tp tc : Rat) (vec : Vectors) (details : List Checker) (s : State) : Results where
  circuit1 := c1
  circuit2 := c2
  configuration := cfg
  preprocessingTime := tp
  checkTime := tc
  equivalence := s.results.equivalence
  startedSimulations := s.results.startedSimulations
  performedSimulations := s.results.performedSimulations
  cexInput := pick vec.input s.results.cexInput
  cexOutput1 := pick vec.output1 s.results.cexOutput
  cexOutput2 := pick vec.output2 s.results.cexOutput
  performedInstantiations := 0
  checkerResults := details.map Checker.json

end QCEC.Report
