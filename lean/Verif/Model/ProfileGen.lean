import Verif.Model.Recurrence
import Verif.Model.Profile
import Verif.Model.Python
/-!
# Generation of compilation-flow profiles

Models `generate_profile` and the functions it calls, `src/mqt/qcec/compilation_flow_profiles.py:42-425`. Qiskit is outside the model: `compute_cost`
(transpilation and counting) is a function of the one-gate circuit, and a one-gate circuit is described by the call that creates it.
-/
namespace QCEC.ProfileGen
open QCEC.Recurrence QCEC.Py

/-- A circuit with one gate: the number of its qubits and the call of the method `getattr(qc, method)`. For a multi-controlled gate the operands are the
controls followed by the target (`src/mqt/qcec/compilation_flow_profiles.py:166,199-207`). -/
structure GateCall where
  width : Nat
  method : String
  params : Nat
  operands : List Nat
  ancillas : List Nat
  mode : Option AncillaMode
  deriving DecidableEq, Repr

/-- `create_general_gate`, `compilation_flow_profiles.py:157-167`. -/
def createGeneralGate (qubits params controls : Nat) (identifier : String) : GateCall :=
  let required := qubits + controls
  { width := required, method := String.ofList (List.replicate controls 'c') ++ identifier, params, operands := List.range required, ancillas := [], mode := none }

/-- `create_multi_controlled_gate`, `compilation_flow_profiles.py:170-208`; `ancilla_qubits = None` is `none`. -/
def createMultiControlledGate (qubits params controls : Nat) (mode : Option AncillaMode) (ancillaQubits : Option Nat) (identifier : String) : GateCall :=
  let ancillaQubits := ancillaQubits.getD (controls - 2)
  let ancillaQubits := if mode = some .recursion ∧ controls < 5 then 0 else ancillaQubits
  { width := qubits + controls + ancillaQubits, method := "mc" ++ identifier, params, operands := List.range controls ++ [controls],
    ancillas := if mode.isSome then List.range' (controls + 1) ancillaQubits else [], mode }

/-- One of the dictionaries of `compilation_flow_profiles.py:42-136`; a single number of controls is packed into a list as in lines 247-249. -/
structure GateSet where
  qubits : Nat
  params : Nat
  controls : List Nat
  gates : List String
  mode : Option AncillaMode := none
  ancillaQubits : Option Nat := some 0

/-- `general_gates`, `compilation_flow_profiles.py:42-101,138-149`. -/
def generalGates : List GateSet :=
  [{ qubits := 1, params := 0, controls := [0], gates := ["x", "y", "z", "h", "s", "sdg", "t", "tdg", "sx", "sxdg"] },
   { qubits := 1, params := 1, controls := [0], gates := ["p", "rx", "ry", "rz"] },
   { qubits := 1, params := 3, controls := [0], gates := ["u"] },
   { qubits := 2, params := 0, controls := [0], gates := ["swap", "iswap", "dcx", "ecr"] },
   { qubits := 2, params := 1, controls := [0], gates := ["rxx", "ryy", "rzz", "rzx"] },
   { qubits := 1, params := 0, controls := [1], gates := ["x", "y", "z", "h", "sx"] },
   { qubits := 1, params := 1, controls := [1], gates := ["p", "rx", "ry", "rz"] },
   { qubits := 1, params := 4, controls := [1], gates := ["u"] },
   { qubits := 2, params := 0, controls := [1], gates := ["swap"] },
   { qubits := 1, params := 0, controls := [2], gates := ["x"] }]

/-- `max_controls`, `compilation_flow_profiles.py:103`. -/
def maxControls : Nat := 11

/-- `control_range`, `compilation_flow_profiles.py:104`. -/
def controlRange : List Nat := List.range' 2 (maxControls + 1 - 2)

/-- `multi_controlled_gates`, `compilation_flow_profiles.py:129-136,151`. -/
def multiControlledGates : List GateSet := [{ qubits := 1, params := 1, controls := controlRange, mode := none, ancillaQubits := some 0, gates := ["p"] }]

/-- `gate_collection_for_mode`, `compilation_flow_profiles.py:105-128,152-154,367-371`. -/
def gateCollectionForMode : AncillaMode → List GateSet
  | .noAncilla => [{ qubits := 1, params := 0, controls := controlRange, mode := some .noAncilla, ancillaQubits := some 0, gates := ["x"] }]
  | .recursion => [{ qubits := 1, params := 0, controls := controlRange, mode := some .recursion, ancillaQubits := some 1, gates := ["x"] }]
  | .vChain => [{ qubits := 1, params := 0, controls := controlRange, mode := some .vChain, ancillaQubits := none, gates := ["x"] }]

/-- `GateType`, `compilation_flow_profiles.py:224-228`. -/
inductive GateType
  | general | multiControlled

/-- The circuit built in the loop, `compilation_flow_profiles.py:253-266`. -/
def GateSet.call (t : GateType) (s : GateSet) (control : Nat) (gate : String) : GateCall :=
  match t with
  | .general => createGeneralGate s.qubits s.params control gate
  | .multiControlled => createMultiControlledGate s.qubits s.params control s.mode s.ancillaQubits gate

/-- `create_gate_profile_data`, `compilation_flow_profiles.py:231-272`; `cost` is `compute_cost` with the given basis gates and optimization level,
`compilation_flow_profiles.py:211-221`. -/
def createGateProfileData (cost : GateCall → Nat) (t : GateType) (collection : List GateSet) : Data :=
  collection.foldl (fun d s => s.gates.foldl (fun d gate => s.controls.foldl (fun d control => assign d (gate, control) (cost (s.call t control gate))) d) d) []

/-- `dict.update` (called in `src/mqt/qcec/compilation_flow_profiles.py:399-405,411-417`). -/
def update (d e : Data) : Data := e.foldl (fun d x => assign d x.1 x.2) d

/-- `dict.setdefault` (called in `src/mqt/qcec/compilation_flow_profiles.py:292`). -/
def setDefault (d : Data) (k : String × Nat) (v : Int) : Data := if d.any (fun e => e.1 == k) then d else d ++ [(k, v)]

/-- `add_special_case_data`, `compilation_flow_profiles.py:275-292` (`g is underlying_gate` is read as string equality). -/
def addSpecialCaseData (d : Data) (gates : List String := ["z", "s", "sdg", "t", "tdg"]) (underlying : String := "p") : Data :=
  d.foldl (fun acc e => if e.1.1 = underlying then gates.foldl (fun a g => setDefault a (g, e.1.2) e.2) acc else acc) d

/-- `generate_profile` up to the writing of the file, `compilation_flow_profiles.py:392-421`; `none` is an exception. -/
noncomputable def generateProfile (cost : GateCall → Nat) (mode : AncillaMode) : Option Data := do
  let profile := createGateProfileData cost .general generalGates
  let profile := update profile (createGateProfileData cost .multiControlled multiControlledGates)
  let profile ← findContinuation profile "p" (maxControl := maxControls)
  let profile := update profile (createGateProfileData cost .multiControlled (gateCollectionForMode mode))
  let profile ← findContinuation profile "x" (maxControl := maxControls)
  return addSpecialCaseData profile

/-- Python's `str` of an integer (used in `src/mqt/qcec/compilation_flow_profiles.py:305`). -/
def intDigits (n : Int) : List Char := if n < 0 then '-' :: decDigits n.natAbs else decDigits n.natAbs

/-- `write_profile_data_to_file`, `compilation_flow_profiles.py:300-305`, for costs that may be negative; `header` is the text after `"# "`. -/
def writeData (header : List Char) (d : Data) : List Char :=
  ['#', ' '] ++ header ++ ['\n'] ++ (d.map fun e => e.1.1.toList ++ [' '] ++ decDigits e.1.2 ++ [' '] ++ intDigits e.2 ++ ['\n']).flatten

/-- `generate_profile`, `compilation_flow_profiles.py:375-425`: the name of the file and its content; `qiskit` is the text after the name in the first line. -/
noncomputable def generateProfileFile (cost : GateCall → Nat) (dir level : String) (mode : AncillaMode) (qiskit : String) : Option (String × List Char) := do
  let d ← generateProfile cost mode
  let filename := dir ++ profileName level mode
  return (filename, writeData (filename.toList ++ qiskit.toList) d)

end QCEC.ProfileGen
