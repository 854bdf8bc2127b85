import Verif.Model.Python
import Verif.Model.Parameterized
import Verif.Model.Setters
/-!
# A Python program that uses QCEC

Models what calls of `verify` (`src/mqt/qcec/verify.py:18-62`), `verify_compilation` (`src/mqt/qcec/verify_compilation_flow.py:42-98`),
of the constructor of `EquivalenceCheckingManager` (`src/python/bindings.cpp:30-72,190-194`) and of its setters do to the `Configuration`
objects a Python program holds: these are shared by reference between the calls.

Simplifications: the managers' answers are those of a `Param.World` (any one, for every call); the configuration a constructor or a `run()`
leaves inside a manager is arbitrary; a profile that cannot be located (an optimisation level without a profile, in a package that is not
unpacked) is not modelled.
-/
namespace QCEC.PySession
open QCEC QCEC.Py

/-! ## Importing circuits -/

/-- How circuits are read (code of mqt-core): `qc.import(file)` and `qc::qiskit::QuantumCircuit::import` (called in `src/python/bindings.cpp:38-42`).
`unavailable`: the message if one of the modules `qiskit` and `qiskit.qobj`, or the class looked up in it, is not there
(`src/python/bindings.cpp:31-34`). -/
structure Importer (C : Type) where
  unavailable : Option String := none
  file : String → Except String C
  circuit : Param.Circuit → Except String C

/-- `importCircuit`, `bindings.cpp:30-49`. -/
def importCircuit {C : Type} (I : Importer C) (i : Param.Input) : Except String C :=
  match I.unavailable, i with
  | some e, _ => .error e
  | none, .file p => I.file p
  | none, .circuit c => I.circuit c
  | none, .other => .error "PyObject is neither py::str, QuantumCircuit, nor QasmQobjExperiment"

/-- `createManagerFromConfiguration`, `bindings.cpp:51-72`; `make` is the constructor of the manager. -/
def createManager {C M : Type} (I : Importer C) (make : C → C → Configuration → Except String M) (i₁ i₂ : Param.Input) (cfg : Configuration) :
    Except String M :=
  match importCircuit I i₁ with
  | .error e => .error ("Could not import first circuit: " ++ e)
  | .ok c₁ =>
    match importCircuit I i₂ with
    | .error e => .error ("Could not import second circuit: " ++ e)
    | .ok c₂ => make c₁ c₂ cfg

/-! ## The program -/

/-- What the program holds: configuration objects and, in its managers, their own configurations (objects of `src/python/bindings.cpp:181-195`). -/
structure Session where
  objs : List Configuration := []
  managers : List Configuration := []

/-- Calls; `k` is the configuration object passed (`none`: none is passed), `j` the manager (`src/mqt/qcec/verify.py:18-62`, `src/mqt/qcec/verify_compilation_flow.py:42-98`, `src/python/bindings.cpp:183-370`). -/
inductive Call (V : Type)
  /-- `Configuration()` -/
  | new
  /-- `config.<section>.<option> = value` -/
  | assign (k : Nat) (o : Opt) (v : V)
  | verify (k : Option Nat) (kwargs : List (String × V)) (i₁ i₂ : Param.Input)
  /-- `verify_compilation`; `dir` is where the profiles are found -/
  | compile (k : Option Nat) (kwargs : List (String × V)) (dir level : String) (mode : AncillaMode) (i₁ i₂ : Param.Input)
  /-- `EquivalenceCheckingManager(circ1, circ2, config)` -/
  | manager (k : Option Nat) (i₁ i₂ : Param.Input)
  | setter (j : Nat) (s : QCEC.Setter)
  | run (j : Nat)
  /-- `get_configuration()` -/
  | getConfiguration (j : Nat)

/-- What the program sees of a call (of `src/mqt/qcec/verify.py:18-62`, `src/mqt/qcec/verify_compilation_flow.py:42-98`). -/
inductive Outcome
  | done
  /-- the keyword arguments are refused -/
  | refused (e : Py.Err)
  /-- `verify` goes to work with a configuration; a result or an exception -/
  | result (cfg : Configuration) (r : Except Param.Err Param.Res)
  /-- the constructor of the manager throws -/
  | threw (what : String)

/-- The object that is passed, if there is one (`src/mqt/qcec/verify.py:46-47`, `src/mqt/qcec/verify_compilation_flow.py:75-76`). -/
def Session.given (s : Session) : Option Nat → Option (Option Configuration)
  | none => some none
  | some k => s.objs[k]?.map some

/-- The passed object is changed in place (`src/mqt/qcec/verify.py:50`, `src/mqt/qcec/verify_compilation_flow.py:79,88-96`). -/
def Session.store (s : Session) (k : Option Nat) (c : Configuration) : Session :=
  match k with
  | none => s
  | some k => { s with objs := s.objs.set k c }

variable {V C : Type}

/-- The calls.  `default` is a default-constructed configuration, `conv` are pybind11's conversions, `w` the answers of the managers created
in the call (`src/mqt/qcec/verify.py:46-62`, `src/mqt/qcec/verify_compilation_flow.py:75-98`, `src/python/bindings.cpp:51-72`). -/
inductive Step (conv : Kind → V → Option FieldVal) (default : Configuration) : Session → Call V → Outcome → Session → Prop
  /-- `Configuration()`, `bindings.cpp:505` -/
  | new (s) : Step conv default s .new .done { s with objs := s.objs ++ [default] }
  /-- `def_readwrite`, `bindings.cpp:505-740` -/
  | assign (s) {k c o v c'} (hc : s.objs[k]? = some c) (ha : setAttr conv c o v = some c') :
      Step conv default s (.assign k o v) .done { s with objs := s.objs.set k c' }
  | assignRefused (s) {k c o v} (hc : s.objs[k]? = some c) (ha : setAttr conv c o v = none) :
      Step conv default s (.assign k o v) (.refused (.typeError "")) s
  /-- `verify.py:43-62` -/
  | verify (s) {k kwargs i₁ i₂ g c} (w : Param.World) (hg : s.given k = some g) (hc : verifyConfig conv default g kwargs = (c, none)) :
      Step conv default s (.verify k kwargs i₁ i₂) (.result c (Param.verify w c i₁ i₂)) (s.store k c)
  | verifyRefused (s) {k kwargs i₁ i₂ g c e} (hg : s.given k = some g) (hc : verifyConfig conv default g kwargs = (c, some e)) :
      Step conv default s (.verify k kwargs i₁ i₂) (.refused e) (s.store k c)
  /-- `verify_compilation_flow.py:73-98` -/
  | compile (s) {k kwargs dir level mode i₁ i₂ g c} (w : Param.World) (hg : s.given k = some g)
      (hc : compilationConfig conv default g kwargs dir level mode = (c, none)) :
      Step conv default s (.compile k kwargs dir level mode i₁ i₂) (.result c (Param.verify w c i₁ i₂)) (s.store k c)
  | compileRefused (s) {k kwargs dir level mode i₁ i₂ g c e} (hg : s.given k = some g)
      (hc : compilationConfig conv default g kwargs dir level mode = (c, some e)) :
      Step conv default s (.compile k kwargs dir level mode i₁ i₂) (.refused e) (s.store k c)
  /-- `bindings.cpp:51-72,190-192`: the configuration is copied into the manager, whose constructor adjusts its copy -/
  | manager (s) {k i₁ i₂ g} (I : Importer C) (make : C → C → Configuration → Except String Configuration) {c} (hg : s.given k = some g)
      (hm : createManager I make i₁ i₂ (g.getD default) = .ok c) :
      Step conv default s (.manager k i₁ i₂) .done { s with managers := s.managers ++ [c] }
  | managerThrows (s) {k i₁ i₂ g} (I : Importer C) (make : C → C → Configuration → Except String Configuration) {e} (hg : s.given k = some g)
      (hm : createManager I make i₁ i₂ (g.getD default) = .error e) : Step conv default s (.manager k i₁ i₂) (.threw e) s
  /-- `bindings.cpp:199-367` -/
  | setter (s) {j x c} (hj : s.managers[j]? = some c) :
      Step conv default s (.setter j x) .done { s with managers := s.managers.set j (x.apply c) }
  /-- `bindings.cpp:368`; the parallel flow changes the manager's configuration -/
  | run (s) {j c} (c') (hj : s.managers[j]? = some c) : Step conv default s (.run j) .done { s with managers := s.managers.set j c' }
  /-- `bindings.cpp:194`: pybind11 copies the object behind a reference -/
  | getConfiguration (s) {j c} (hj : s.managers[j]? = some c) :
      Step conv default s (.getConfiguration j) .done { s with objs := s.objs ++ [c] }

/-- A sequence of calls with what the program sees (calls of `src/mqt/qcec/verify.py:18-62`, `src/mqt/qcec/verify_compilation_flow.py:42-98`, `src/python/bindings.cpp:183-370`). -/
inductive Trace (C : Type) (conv : Kind → V → Option FieldVal) (default : Configuration) : Session → List (Call V × Outcome) → Session → Prop
  | nil (s) : Trace C conv default s [] s
  | cons {s s' s'' c o r} (h : Step (C := C) conv default s c o s') (t : Trace C conv default s' r s'') : Trace C conv default s ((c, o) :: r) s''

end QCEC.PySession
