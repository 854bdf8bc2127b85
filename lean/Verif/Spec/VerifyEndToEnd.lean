import Verif.Spec.EndToEndMixed
import Verif.Spec.Wide
import Verif.Spec.Parameterized
import Verif.Props.Prepare
import Verif.Model.ParallelQueue
import Verif.Model.ParallelRelaxed
import Verif.Model.Timeout
/-!
# Specification: what a manager that `verify` creates does

Joins the Python layer with the models of the manager: circuits are imported, the manager is constructed (optimization passes, removal of idle
qubits, ancillary qubits), the checkers answer what they compute on the prepared circuits, and `run()` combines the answers.
-/
namespace QCEC.Spec
open QCEC QCEC.Mgr QCEC.Prep QCEC.Spec.Wide QCEC.Sem QCEC.Props

/-- The setter calls `check_parameterized` makes, `src/mqt/qcec/parameterized.py:36-37,87`. -/
def afterSetters (cfg : Configuration) : List Param.Setter → Configuration
  | [] => cfg
  | .disableAll :: r => afterSetters cfg.disableAllCheckers r
  | .zx b :: r => afterSetters (cfg.setZXChecker b) r

/-- Ways `run()` of a manager that holds two circuits can return, with the verdict.  `bothEmpty`: neither circuit has an operation; `answers`: what the
checkers can answer. -/
inductive Runs (answers : Kind → Criterion → Prop) (cfg : Configuration) (bothEmpty : Prop) : Criterion → Prop
  /-- no checker is enabled, or there is nothing to check -/
  | nothing (env : Env) (fuel : Nat) (s' : State) (hm : mode env cfg = .nothing) (h : run env fuel (State.fresh cfg) = some (.returned s')) :
      Runs answers cfg bothEmpty s'.results.equivalence
  | empty (env : Env) (fuel : Nat) (s' : State) (he : bothEmpty) (hm : mode env cfg = .empty)
      (h : run env fuel (State.fresh cfg) = some (.returned s')) : Runs answers cfg bothEmpty s'.results.equivalence
  | sequential (env : Env) (fuel : Nat) (s' : State) (hm : mode env cfg = .sequential) (h : run env fuel (State.fresh cfg) = some (.returned s'))
      (hans : ∀ e : Event, FromEnv env e → Enabled cfg e.kind → answers e.kind e.verdict) : Runs answers cfg bothEmpty s'.results.equivalence
  /-- any schedule, any moment at which the timeout fires -/
  | parallel (env : Par.ParEnv) (s : Par.PState) (hreach : Par.Reachable env cfg {} s) (hr : s.main = .ended .returned)
      (hans : ∀ k c, Enabled cfg k → env.may k c → answers k c) : Runs answers cfg bothEmpty s.results.equivalence
  /-- sequential, with the timeout thread access by access: any interleaving, any deadline `D` -/
  | timed (env : Env) (fuel : Nat) (grow : Nat → Nat) (D cap : Nat) (p : Tmo.Prog) (t : Tmo.TState) (s' : State) (hm : mode env cfg = .sequential)
      (hf : Tmo.flowOf env fuel (State.fresh cfg) = some p) (h : Tmo.Reachable grow D p (State.fresh cfg).begin cap t)
      (he : t.main = .ended (.returned s')) (hans : ∀ e : Event, FromEnv env e → Enabled cfg e.kind → answers e.kind e.verdict) :
      Runs answers cfg bothEmpty s'.results.equivalence
  /-- parallel, the threads using the queue of `ThreadSafeQueue.hpp` step by step, any deadline `D` -/
  | composed (env : Par.ParEnv) (D : Nat) (c : ParQ.CState) (hreach : ParQ.Reachable env D cfg {} c) (hr : c.p.main = .ended .returned)
      (hans : ∀ k c, Enabled cfg k → env.may k c → answers k c) : Runs answers cfg bothEmpty c.p.results.equivalence
  /-- parallel, plain variables written by one thread becoming visible to others late -/
  | delayed (env : Par.ParEnv) (s : Par.PState) (hreach : ParR.RReachable env cfg {} s) (hr : s.main = .ended .returned)
      (hans : ∀ k c, Enabled cfg k → env.may k c → answers k c) : Runs answers cfg bothEmpty s.results.equivalence

/-- The strategy of the alternating checker is the configured one: it cancels operations unless it is lookahead, `DDAlternatingChecker.cpp:59-67`. -/
def Follows {m n : Nat} (S : Mixed m n) (cfg : Configuration) : Prop := S.schA.Cancels ↔ cfg.application.alternatingScheme ≠ .lookahead

/-- Code of mqt-core that constructing a manager uses: the test whether an operation acts on a qubit, and the optimization passes. -/
structure Library where
  acts : WOp → Nat → Bool
  passes : Passes (Circ WOp)
  reliable : Reliable acts

/-- A manager is constructed for two circuits, setters are called, and it is run; `v` is the verdict.  `lib` and the comparison `S.opEq` of
operations are code of mqt-core; operations that compare equal are equal (`hop`). -/
inductive ManagerRun (lib : Library) (c1 c2 : Circ WOp) (cfg : Configuration) (setters : List Param.Setter) (v : Criterion) : Prop
  | mk (hP : ∀ p ∈ planned cfg.optimizations true, Faithful lib.passes p)
      (M : Made WOp) (h : Prep.construct lib.acts lib.passes cfg c1 c2 = .made M) (m n : Nat) (hd : M.qc1.ndata = m) (S : Mixed m n) (e1 e2 : Nat → Fin n)
      (hn1 : Numbered e1 M.qc1 S.qc1) (hn2 : Numbered e2 M.qc2 S.qc2)
      (hsch : Follows S M.cfg) (hop : ∀ a ∈ M.qc1.ops, ∀ b ∈ M.qc2.ops, S.opEq (a.on e1) (b.on e2) = true → a = b)
      (hrun : Runs (MAnswer S false) (afterSetters M.cfg setters) (M.qc1.ops = [] ∧ M.qc2.ops = []) v) : ManagerRun lib c1 c2 cfg setters v

/-- The circuits declare the same qubits as ancillary, as far as they both have them. -/
def SameAncillas (c1 c2 : Circ WOp) : Prop := ∀ q, q < c1.nqubits → q < c2.nqubits → c1.isAncillary q = c2.isAncillary q

/-- Circuits with different ancillary qubits are given to the construction checker: it is enabled, or replaces the alternating checker. -/
def ConstructionMixed (lib : Library) (c1 c2 : Circ WOp) (cfg : Configuration) (setters : List Param.Setter) : Prop :=
  ¬ SameAncillas c1 c2 ∧ ∃ M, (∀ p ∈ planned cfg.optimizations true, Faithful lib.passes p) ∧
    Prep.construct lib.acts lib.passes cfg c1 c2 = .made M ∧ Enabled (afterSetters M.cfg setters) .construction

/-- The ancillary qubits of the circuit are its last ones. -/
def AncillasLast (c : Circ WOp) : Prop := ∀ q q', q ≤ q' → q' < c.nqubits → c.isAncillary q = true → c.isAncillary q' = true

/-- The checker `k` is enabled, and the ancillary qubits of the first prepared circuit are not its last ones.  Simulation and ZX-calculus take the last
ones for the ancillary ones. -/
def Displaced (lib : Library) (c1 c2 : Circ WOp) (cfg : Configuration) (setters : List Param.Setter) (k : Kind) : Prop :=
  ∃ M, (∀ p ∈ planned cfg.optimizations true, Faithful lib.passes p) ∧ Prep.construct lib.acts lib.passes cfg c1 c2 = .made M ∧
    Enabled (afterSetters M.cfg setters) k ∧ ¬ AncillasLast M.qc1

/-- What a verdict means for circuits that may declare any qubits as ancillary, also different ones.  Positive verdicts speak about the inputs in which
all qubits are `|0⟩` that are ancillary in one of the circuits (or are missing in one), `NotEquivalent` about those in which the qubits ancillary in both
are. -/
structure Verdict (lib : Library) (c1 c2 : Circ WOp) (cfg : Configuration) (setters : List Param.Setter) (v : Criterion) : Prop where
  positive : v = .equivalent ∨ v = .equivalentUpToGlobalPhase → EqualUpToPhase c1 c2 ∨ Displaced lib c1 c2 cfg setters .zx
  equivalent : v = .equivalent → Equal c1 c2 ∨ ConstructionMixed lib c1 c2 cfg setters ∨ Displaced lib c1 c2 cfg setters .zx
  phase : v = .equivalentUpToGlobalPhase → ¬ Equal c1 c2 ∨ ConstructionMixed lib c1 c2 cfg setters ∨ Displaced lib c1 c2 cfg setters .zx
  notEquivalent : v = .notEquivalent →
    (¬ ∃ k : ℂ, ‖k‖ = 1 ∧ EqualOn (FixedInBoth c1 c2) k c1 c2) ∨ ConstructionMixed lib c1 c2 cfg setters ∨ Displaced lib c1 c2 cfg setters .simulation
  never : v ≠ .equivalentUpToPhase

open Classical in
/-- The name under which logical qubit `q` is read out, if the circuit has no operations. -/
noncomputable def wire (c : Circ WOp) (q : Nat) : Nat := if ∃ p, (p, q) ∈ c.initialLayout then endLabel c (carrier c q) else q

/-- Constructing the manager leaves two circuits without operations that connect their inputs to different outputs; the shortcut for empty circuits does
not look at that (C08). -/
def CrossedShortcut (lib : Library) (c1 c2 : Circ WOp) (cfg : Configuration) : Prop :=
  ∃ M, (∀ p ∈ planned cfg.optimizations true, Faithful lib.passes p) ∧ Prep.construct lib.acts lib.passes cfg c1 c2 = .made M ∧
    M.qc1.ops = [] ∧ M.qc2.ops = [] ∧ ∃ q, wire M.qc1 q ≠ wire M.qc2 q

/-- A SWAP, with or without controls. -/
def isSwap : WOp → Bool
  | .simple (.swap _ _) => true
  | .simple (.gate g) => g.swapType
  | _ => false

/-- The operation is no SWAP but contains uncontrolled ones. -/
def HidesSwap (o : WOp) : Prop := isSwap o = false ∧ ∃ a b, .swap a b ∈ o.parts

/-- The operation does something with the physical qubit. -/
def Uses (o : WOp) (p : Nat) : Prop := ∃ s ∈ o.parts, s.Names p ∧ ∀ qs, s ≠ .barrier qs

/-- The beginning `p` of the circuit, with its qubits read out where they are then. -/
def upTo (c : Circ WOp) (p : List WOp) : Circ WOp := { c with ops := p, outputPermutation := [] }

/-- The logical qubits on the physical ones after the beginning `p`. -/
def labelAfter (c : Circ WOp) (p : List WOp) : Nat → Nat := (p.flatMap WOp.parts).foldl WSOp.moved (startLabel c)

/-- The circuits have an operation in common that is not the same thing in both: they begin with parts that do the same, up to a global phase, and continue
with the same operation, but its physical qubits carry different logical ones (or it is a compound operation that moves them). -/
def Mistakable (c1 c2 : Circ WOp) : Prop :=
  ∃ p1 p2 o r1 r2, c1.ops = p1 ++ o :: r1 ∧ c2.ops = p2 ++ o :: r2 ∧ isSwap o = false ∧
    (∃ k : ℂ, ‖k‖ = 1 ∧ EqualOn (fun _ => False) k (upTo c1 p1) (upTo c2 p2)) ∧
    (HidesSwap o ∨ ∃ p, Uses o p ∧ labelAfter c1 p1 p ≠ labelAfter c2 p2 p)

/-- The circuit does nothing with the physical qubit that carries logical qubit `q`. -/
def LeavesAlone (c : Circ WOp) (q : Nat) : Prop := ∀ p, (p, q) ∈ c.initialLayout → ∀ o ∈ c.ops, ¬ o.Names p

/-- The circuit does nothing with logical qubit `q` and reads it out under its own name. -/
def Keeps (c : Circ WOp) (q : Nat) : Prop := LeavesAlone c q ∧ ∀ p, (p, q) ∈ c.initialLayout → endLabel c p = q

/-- Qubits that are ancillary in both circuits are read out elsewhere: neither of the circuits keeps one of them, and neither leaves all of them alone.  The
alternating checker accepts such circuits if one of them leaves each of these qubits alone, wherever it is read out (C36). -/
def Misread (c1 c2 : Circ WOp) : Prop :=
  (∃ q < c1.nqubits, c1.isAncillary q = true ∧ c2.isAncillary q = true ∧ ¬ Keeps c1 q ∧ ¬ Keeps c2 q) ∧
  (∃ q < c1.nqubits, c1.isAncillary q = true ∧ c2.isAncillary q = true ∧ ¬ LeavesAlone c1 q) ∧
  ∃ q < c1.nqubits, c1.isAncillary q = true ∧ c2.isAncillary q = true ∧ ¬ LeavesAlone c2 q

/-- Common ancillary qubits of the prepared circuits are read out elsewhere. -/
def AncillaMisread (lib : Library) (c1 c2 : Circ WOp) (cfg : Configuration) : Prop :=
  ∃ M, (∀ p ∈ planned cfg.optimizations true, Faithful lib.passes p) ∧ Prep.construct lib.acts lib.passes cfg c1 c2 = .made M ∧ Misread M.qc1 M.qc2

/-- The alternating checker is used and can be led astray (C02, C36): the prepared circuits, in which no qubit is ancillary on both sides, have an operation in
common that is not the same thing in both, or, for lookahead, one contains a compound operation with a SWAP, or common ancillary qubits are read out
elsewhere. -/
def Misled (lib : Library) (c1 c2 : Circ WOp) (cfg : Configuration) (setters : List Param.Setter) : Prop :=
  ∃ M, (∀ p ∈ planned cfg.optimizations true, Faithful lib.passes p) ∧ Prep.construct lib.acts lib.passes cfg c1 c2 = .made M ∧
    Enabled (afterSetters M.cfg setters) .alternating ∧
    (M.cfg.application.alternatingScheme ≠ .lookahead ∧ (∀ q < M.qc1.nqubits, ¬ (M.qc1.isAncillary q = true ∧ M.qc2.isAncillary q = true)) ∧ Mistakable M.qc1 M.qc2 ∨
     (M.cfg.application.alternatingScheme = .lookahead ∧ ∃ o, (o ∈ M.qc1.ops ∨ o ∈ M.qc2.ops) ∧ HidesSwap o) ∨ Misread M.qc1 M.qc2)

/-- The circuits after the optimization passes, `src/EquivalenceCheckingManager.cpp:365-368`. -/
def Optimised (lib : Library) (cfg : Configuration) (c1 c2 d1 d2 : Circ WOp) : Prop :=
  if lib.passes.variableFree c1 = true ∧ lib.passes.variableFree c2 = true then lib.passes.run cfg.optimizations (c1, c2) = .ok (d1, d2)
  else d1 = c1 ∧ d2 = c2

/-- The circuits have an ancillary qubit in common – ancillary in both, or ancillary in one and missing in the other – with which one of them does something,
also after the optimization passes. -/
def SharedAncillaUsed (lib : Library) (c1 c2 : Circ WOp) (cfg : Configuration) : Prop :=
  ∃ d1 d2 q, Optimised lib cfg c1 c2 d1 d2 ∧ FixedInBoth c1 c2 q ∧ (¬ Unused lib.acts d1 q ∨ ¬ Unused lib.acts d2 q)

/-- The managers are those of QCEC; `imp` imports circuits (`none`: it cannot be imported as a circuit without symbolic parameters).  Nothing is said
about partial equivalence (see C74). -/
def Realises (lib : Library) (imp : Param.Subject → Option (Circ WOp)) (w : Param.World) : Prop :=
  ∀ k cfg setters s1 s2 res c1 c2, cfg.functionality.checkPartialEquivalence = false → imp s1 = some c1 → imp s2 = some c2 →
    w.manager k cfg setters s1 s2 = .ok res → ManagerRun lib c1 c2 cfg setters res.equivalence

end QCEC.Spec
