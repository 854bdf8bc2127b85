import Mathlib.Analysis.SpecialFunctions.Trigonometric.Basic
import Verif.Model.Config
/-!
# Parameterised circuits

Models `src/mqt/qcec/parameterized.py:19-220` (`check_parameterized` and its helpers) and the choice between it and a plain manager run in
`src/mqt/qcec/verify.py:51-62`.

Simplifications. A gate parameter is a float or a symbolic expression built from parameters, numbers, sums, products, negations and real
functions; floats are exact reals and times exact rationals. A Qiskit circuit is its list of gates (a symbolic global phase is left out). The
equivalence checking manager, `numpy.linalg.pinv`, the random generators and the clock are the fields of `World`; every manager that is created
may answer differently, since timing and seeds differ. `assign_parameters` raises `CircuitError` if the map has a key that is no parameter of
the circuit (Qiskit's documented `strict=True` default).
-/
namespace QCEC.Param
open QCEC

/-- `qiskit.circuit.Parameter`: a name and an identity (compared in `src/mqt/qcec/parameterized.py:49-52,61,74`). -/
structure Parameter where
  name : String
  uuid : Nat := 0
  deriving DecidableEq

/-- A gate parameter: a float (`num`) or a `ParameterExpression` (read in `src/mqt/qcec/parameterized.py:55-62`). -/
inductive Expr
  | num (r : ℝ)
  | var (p : Parameter)
  | add (a b : Expr)
  | mul (a b : Expr)
  | neg (a : Expr)
  | app (f : ℝ → ℝ) (a : Expr)

namespace Expr

/-- `expr.parameters` (`src/mqt/qcec/parameterized.py:66,73-74`). -/
def parameters : Expr → List Parameter
  | num _ => []
  | var p => [p]
  | add a b => a.parameters ++ b.parameters
  | mul a b => a.parameters ++ b.parameters
  | neg a => a.parameters
  | app _ a => a.parameters

/-- `float(expr.bind(values))` (`src/mqt/qcec/parameterized.py:67,76`). -/
noncomputable def eval (v : Parameter → ℝ) : Expr → ℝ
  | num r => r
  | var p => v p
  | add a b => a.eval v + b.eval v
  | mul a b => a.eval v * b.eval v
  | neg a => - a.eval v
  | app f a => f (a.eval v)

/-- `is_expr`, `parameterized.py:57-58`. -/
def isExpr : Expr → Bool
  | num _ => false
  | _ => true

end Expr

/-- An instruction: `frozen` are Qiskit's immutable (singleton) gates, `parameterized.py:160`. -/
structure Gate where
  label : String
  qubits : List Nat := []
  params : List Expr := []
  frozen : Bool := false

/-- A Qiskit circuit (read in `src/mqt/qcec/parameterized.py:49-55`). -/
abbrev Circuit := List Gate

/-- A gate whose parameters are floats (`src/mqt/qcec/parameterized.py:153-162`). -/
structure BoundGate where
  label : String
  qubits : List Nat
  params : List ℝ
  frozen : Bool

/-- A circuit whose parameters are floats (`src/mqt/qcec/parameterized.py:153-162`). -/
abbrev Bound := List BoundGate

/-- `circ.parameters` (`src/mqt/qcec/parameterized.py:20,49-50`). -/
def Circuit.parameters (c : Circuit) : List Parameter :=
  (c.flatMap fun g => g.params.flatMap Expr.parameters).dedup

/-- What the user passes: a file name, a circuit, or an object of another type (without an attribute `parameters`) (`src/mqt/qcec/verify.py:19-20`, `src/python/bindings.cpp:38-46`). -/
inductive Input
  | file (path : String)
  | circuit (c : Circuit)
  | other

/-- What a manager is created for (`src/mqt/qcec/parameterized.py:36,86`, `src/mqt/qcec/verify.py:56`). -/
inductive Subject
  | given (i : Input)
  | bound (b : Bound)

/-- Calls between the construction of a manager and `run` (`src/mqt/qcec/parameterized.py:37-38,87`). -/
inductive Setter
  | disableAll
  | zx (b : Bool)
  deriving DecidableEq

/-- The parts of `EquivalenceCheckingManager::Results` the flow uses, `include/EquivalenceCheckingManager.hpp:38-96`. -/
structure Res where
  preprocessing : Rat := 0
  check : Rat := 0
  started : Nat := 0
  performed : Nat := 0
  equivalence : Criterion := .noInformation
  instantiations : Nat := 0
  deriving DecidableEq

/-- Python exceptions (raised by the calls in `src/mqt/qcec/parameterized.py:20,49-79,144-154`, `src/python/bindings.cpp:43-46`). -/
inductive Err
  | attribute            -- a file name (or an object that is no circuit) has no `parameters`
  | circuit              -- `CircuitError` of `assign_parameters`
  | manager (s : String) -- raised by the manager
  deriving DecidableEq

/-- `__is_parameterized`, `parameterized.py:19-20`. -/
def Input.isParameterized : Input → Except Err Bool
  | .file _ => .ok false
  | .circuit c => .ok !c.parameters.isEmpty
  | .other => .error .attribute

/-- What lies outside: managers (counted), `pinv`, random numbers, durations of the instantiations (counted) (called in `src/mqt/qcec/parameterized.py:36-42,86-91,99-104,149-167,178-179`). -/
structure World where
  manager : Nat → Configuration → List Setter → Subject → Subject → Except Err Res
  pinv : List (List ℝ) → List ℝ → Nat → ℝ
  choice : Nat → Nat → Fin 6
  uniform : Parameter → ℝ
  clock : Nat → Rat

/-- What the flow does, in order (calls in `src/mqt/qcec/parameterized.py:133,182,190,197-199,213`). -/
inductive Event
  | zx (l r : Subject) (res : Except Err Res)
  | instantiate (time : Rat)
  | check (i : Nat) (l r : Subject) (res : Except Err Res)
  | random (l r : Subject) (res : Except Err Res)

/-- `__adjust_timeout`, `parameterized.py:23-29`: 0 means no limit. -/
def adjust (timeout used : Rat) : Rat := if timeout = 0 then 0 else timeout - used

/-- The time `__adjust_timeout` takes from a result, `parameterized.py:27-28`. -/
def Res.time (r : Res) : Rat := r.check + r.preprocessing

/-- `symb_params`, `parameterized.py:49-61`. -/
def symbParams (c₁ c₂ : Circuit) : List Parameter :=
  (c₁.parameters ∪ c₂.parameters).mergeSort fun p q => decide (p.name ≤ q.name)

/-- `symb_exprs`, `parameterized.py:55-62`. -/
def symbExprs (c₁ c₂ : Circuit) : List Expr :=
  ((c₁ ++ c₂).flatMap Gate.params).filter Expr.isExpr

/-- `offsets`, `parameterized.py:64-67`. -/
noncomputable def offset (e : Expr) : ℝ := - e.eval fun _ => 0

/-- An entry of `equs`, `parameterized.py:71-77`. -/
noncomputable def coefficient (e : Expr) (p : Parameter) : ℝ :=
  if p ∈ e.parameters then e.eval (fun q => if q = p then 1 else 0) + offset e else 0

/-- `extract_params`, `parameterized.py:45-79`. -/
noncomputable def extractParams (c₁ c₂ : Circuit) : List Parameter × List (List ℝ) × List ℝ :=
  (symbParams c₁ c₂,
   (symbExprs c₁ c₂).map (fun e => (symbParams c₁ c₂).map (coefficient e)),
   (symbExprs c₁ c₂).map offset)

/-- The value a parameter map gives to a parameter (all parameters of the circuit are keys) (`src/mqt/qcec/parameterized.py:98-101,152`). -/
noncomputable def valuation (params : List Parameter) (x : Nat → ℝ) (p : Parameter) : ℝ := x (params.idxOf p)

/-- `assign_parameters` on a circuit, given the keys of the map and the values (`src/mqt/qcec/parameterized.py:103-104,153-154`). -/
noncomputable def assign (c : Circuit) (keys : List Parameter) (v : Parameter → ℝ) : Except Err Bound :=
  if keys.all (fun k => decide (k ∈ c.parameters)) then
    .ok (c.map fun g => { label := g.label, qubits := g.qubits, params := g.params.map (Expr.eval v), frozen := g.frozen })
  else .error .circuit

/-- `_round_zero_params`, `parameterized.py:157-164`. -/
noncomputable def roundZero (tol : ℝ) (b : Bound) : Bound :=
  b.map fun g => if g.frozen then g else { g with params := g.params.map fun x => if |x| < tol then 0 else x }

/-- `_instantiate_params`, `parameterized.py:147-168`. -/
noncomputable def instantiate (w : World) (tol : ℝ) (params : List Parameter) (mat : List (List ℝ)) (b : List ℝ) (c₁ c₂ : Circuit) :
    Except Err (Bound × Bound) := do
  let b₁ ← assign c₁ params (valuation params (w.pinv mat b))
  let b₂ ← assign c₂ params (valuation params (w.pinv mat b))
  return (roundZero tol b₁, roundZero tol b₂)

/-- `phases`, `parameterized.py:178`. -/
noncomputable def phases : Fin 6 → ℝ := ![0, Real.pi, Real.pi / 2, -Real.pi / 2, Real.pi / 4, -Real.pi / 4]

/-- `rng.choice(phases, size=len(offsets)) + offsets`, `parameterized.py:180`. -/
noncomputable def phaseTargets (w : World) (i : Nat) (offsets : List ℝ) : List ℝ :=
  offsets.mapIdx fun row o => phases (w.choice i row) + o

/-- Totals, `parameterized.py:113-116`. -/
structure Stats where
  preprocessing : Rat := 0
  runtime : Rat := 0
  started : Nat := 0
  finished : Nat := 0

/-- `_update_stats`, `parameterized.py:118-123`. -/
def Stats.update (s : Stats) (r : Res) : Stats where
  preprocessing := s.preprocessing + r.preprocessing
  runtime := s.runtime + r.check
  started := s.started + r.started
  finished := s.finished + r.performed

/-- `_write_stats`, `parameterized.py:125-131`. -/
def Stats.write (s : Stats) (i : Nat) (r : Res) : Res where
  preprocessing := s.preprocessing
  check := s.runtime
  started := s.started
  performed := s.finished
  equivalence := r.equivalence
  instantiations := i

/-- How the loop over the additional instantiations ends: with a final answer, or with the remaining time, the last `runtime` and the totals (`src/mqt/qcec/parameterized.py:196-211`). -/
inductive LoopEnd
  | done (r : Except Err Res)
  | go (timeout runtime : Rat) (s : Stats)

/-- The circuits, `pinv`'s arguments and the tolerance the nested functions close over, `parameterized.py:140-145`. -/
structure Ctx where
  cfg : Configuration
  c₁ : Circuit
  c₂ : Circuit

/-- `tol`, `parameterized.py:143`. -/
noncomputable def Ctx.tol (x : Ctx) : ℝ := ((x.cfg.parameterized.parameterizedTol : ℚ) : ℝ)
/-- `parameters`, `parameterized.py:145`. -/
noncomputable def Ctx.params (x : Ctx) : List Parameter := (extractParams x.c₁ x.c₂).1
/-- `mat`, `parameterized.py:145`. -/
noncomputable def Ctx.mat (x : Ctx) : List (List ℝ) := (extractParams x.c₁ x.c₂).2.1
/-- `offsets`, `parameterized.py:145`. -/
noncomputable def Ctx.offsets (x : Ctx) : List ℝ := (extractParams x.c₁ x.c₂).2.2

/-- `check_instantiated`, `parameterized.py:82-91`; `k` counts the managers. -/
def checkInstantiated (w : World) (cfg : Configuration) (k : Nat) (b₁ b₂ : Bound) : Except Err Res :=
  w.manager k cfg [.zx false] (.bound b₁) (.bound b₂)

/-- The loop `for i in range(n_checks)`, `parameterized.py:198-212`, with `n` iterations left. -/
noncomputable def loop (w : World) (x : Ctx) : (n i : Nat) → (timeout runtime : Rat) → Stats → List Event × LoopEnd
  | 0, _, timeout, runtime, s => ([], .go timeout runtime s)
  | n + 1, i, timeout, _, s =>
    match instantiate w x.tol x.params x.mat (phaseTargets w i x.offsets) x.c₁ x.c₂ with
    | .error e => ([], .done (.error e))
    | .ok (b₁, b₂) =>
      let runtime := w.clock (i + 1)
      let timeout := adjust timeout runtime
      let r := checkInstantiated w x.cfg (i + 2) b₁ b₂
      let ev := [.instantiate runtime, .check (i + 1) (.bound b₁) (.bound b₂) r]
      match r with
      | .error e => (ev, .done (.error e))
      | .ok res =>
        let timeout := adjust timeout res.time
        if timeout < 0 then (ev, .done (.ok { s.write (i + 2) res with equivalence := .noInformation }))
        else
          let s := s.update res
          if res.equivalence = .notEquivalent then (ev, .done (.ok (s.write (i + 2) res)))
          else
            let rest := loop w x n (i + 1) timeout runtime s
            (ev ++ rest.1, rest.2)

/-- The end of `check_parameterized`, `parameterized.py:214-220`, with `check_instantiated_random`, `parameterized.py:94-106`. -/
noncomputable def randomPart (w : World) (x : Ctx) (timeout runtime : Rat) (s : Stats) : List Event × Except Err Res :=
  match assign x.c₁ x.params w.uniform, assign x.c₂ x.params w.uniform with
  | .error e, _ => ([], .error e)
  | _, .error e => ([], .error e)
  | .ok b₁, .ok b₂ =>
    let n := x.cfg.parameterized.nAdditionalInstantiations
    let r := checkInstantiated w x.cfg (n + 2) b₁ b₂
    let ev := [.random (.bound b₁) (.bound b₂) r]
    match r with
    | .error e => (ev, .error e)
    | .ok res =>
      let timeout := adjust timeout runtime
      let res := if timeout < 0 then { res with equivalence := .noInformation } else res
      let s := s.update res
      (ev, .ok (s.write (n + 2) res))

/-- `check_parameterized` after the check with the ZX-calculus, `parameterized.py:138-220`; `res` is the result of that check. -/
noncomputable def instantiated (w : World) (x : Ctx) (res : Res) : List Event × Except Err Res :=
  let s := Stats.update {} res
  let timeout := adjust x.cfg.execution.timeout res.time
  match instantiate w x.tol x.params x.mat x.offsets x.c₁ x.c₂ with
  | .error e => ([], .error e)
  | .ok (b₁, b₂) =>
    let runtime := w.clock 0
    let timeout := adjust timeout runtime
    let ev := [.instantiate runtime]
    if timeout < 0 then (ev, .ok { s.write 1 res with equivalence := .noInformation })
    else
      let r := checkInstantiated w x.cfg 1 b₁ b₂
      let ev := ev ++ [.check 0 (.bound b₁) (.bound b₂) r]
      match r with
      | .error e => (ev, .error e)
      | .ok res =>
        let s := s.update res
        if res.equivalence = .notEquivalent then (ev, .ok (s.write 1 res))
        else
          let l := loop w x x.cfg.parameterized.nAdditionalInstantiations 0 timeout runtime s
          match l.2 with
          | .done o => (ev ++ l.1, o)
          | .go timeout runtime s =>
            let f := randomPart w x timeout runtime s
            (ev ++ l.1 ++ f.1, f.2)

/-- `check_parameterized`, `parameterized.py:109-220`; `check_parameterized_zx` is `parameterized.py:32-42`. -/
noncomputable def checkParameterized (w : World) (cfg : Configuration) (i₁ i₂ : Input) : List Event × Except Err Res :=
  let r := w.manager 0 cfg [.disableAll, .zx true] (.given i₁) (.given i₂)
  let ev := [.zx (.given i₁) (.given i₂) r]
  match r with
  | .error e => (ev, .error e)
  | .ok res =>
    if res.equivalence.consideredEquivalent then (ev, .ok res)
    else
      match i₁, i₂ with
      | .circuit c₁, .circuit c₂ =>
        let l := instantiated w { cfg := cfg, c₁ := c₁, c₂ := c₂ } res
        (ev ++ l.1, l.2)
      | _, _ => (ev, .error .attribute)

/-- `verify` after the keyword arguments have been merged, `verify.py:51-62` (`or` looks at the second circuit only if it has to). -/
noncomputable def verify (w : World) (cfg : Configuration) (i₁ i₂ : Input) : Except Err Res :=
  match i₁.isParameterized with
  | .error e => .error e
  | .ok true => (checkParameterized w cfg i₁ i₂).2
  | .ok false =>
    match i₂.isParameterized with
    | .error e => .error e
    | .ok true => (checkParameterized w cfg i₁ i₂).2
    | .ok false => w.manager 0 cfg [] (.given i₁) (.given i₂)

end QCEC.Param
