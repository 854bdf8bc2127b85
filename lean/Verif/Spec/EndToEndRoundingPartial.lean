import Verif.Spec.EndToEndRounding
import Verif.Spec.RoundingPartial
/-!
# Specification: a run of the manager with `check_partial_equivalence` and a package that rounds

As `Spec/EndToEndRounding.lean` and `Spec/EndToEndPartial.lean` together.
-/
namespace QCEC.Spec
open QCEC QCEC.DD QCEC.Sem QCEC.Gen QCEC.ZX QCEC.Spec.ZX QCEC.Mgr QCEC.Prep Matrix

variable {m n : Nat}

/-- Two circuits whose garbage qubits are not measured, and the configured checkers with an inexact package. -/
structure InexactPartial (m n : Nat) extends Inexact m n where
  /-- the test for the identity that ignores garbage qubits -/
  G : RoundedGarbageTest valM θ θ₀
  /-- the garbage reduction of state vectors -/
  roundG : RoundedGarbage bV valV ε
  /-- The two circuits have the same garbage qubits, except that a circuit that does not use an ancillary qubit may call it garbage (as the manager does with
  the qubits only the other circuit has). -/
  garbage : ∀ q : Fin n, qc1.garbage.getD q.val false = qc2.garbage.getD q.val false ∨
    (m ≤ q.val ∧ qc1.ancillary.getD q.val false = true ∧ qc2.ancillary.getD q.val false = true ∧
      (qc1.garbage.getD q.val false = true ∧ Idle qc1 ω1 q ∨ qc2.garbage.getD q.val false = true ∧ Idle qc2 ω2 q))

/-- The qubits that are not measured. -/
def InexactPartial.unread (S : InexactPartial m n) : List Bool := marks n fun q => S.qc1.garbage.getD q false && S.qc2.garbage.getD q false

/-- As `RSimRun`, with garbage reduced. -/
def PRSimRun (S : InexactPartial m n) (quiet : Bool) (prev c : Criterion) : Prop :=
  ∃ (R : Rng) (g g' : Generator R) (st : Stim) (x : Basis n → ℂ) (d : S.DV) (stop : Nat → Bool) (fuel : Nat) (s : _),
    Generate g (checkerReq n m S.stateType) st g' ∧ Denotes S.cliff st x ∧ nrm (S.valV d - x) ≤ S.δ ∧ Mono stop ∧
    (quiet = true → ∀ i, stop i = false) ∧ S.qc1.ops.length + S.qc2.ops.length + 2 ≤ fuel ∧
    runTwo S.bV S.schS true (equalsVector S.V.ptrEq S.V.wEq S.V.realClose S.V.fidClose) stop prev S.qc1 S.qc2 d d fuel = .ok (c, s)

/-- The answers a checker can give on the circuits. -/
inductive PRAnswer (S : InexactPartial m n) (quiet : Bool) : Kind → Criterion → Prop
  | alternating (stop : Nat → Bool) (hm : Mono stop) (hq : quiet = true → ∀ i, stop i = false) (fuel : Nat)
      (hf : S.qc1.ops.length + S.qc2.ops.length + 2 ≤ fuel) (c s)
      (h : runAlt S.bM S.T.isId S.opEq S.schA (altCheck true S.G.closeG S.T.close S.T.wOne n S.qc1 S.qc2) stop .noInformation S.qc1 S.qc2
        (altInit S.bM S.ident n S.qc1 S.qc2) fuel = .ok (c, s)) : PRAnswer S quiet .alternating c
  | construction (stop : Nat → Bool) (hm : Mono stop) (hq : quiet = true → ∀ i, stop i = false) (fuel : Nat)
      (hf : S.qc1.ops.length + S.qc2.ops.length + 2 ≤ fuel) (c s)
      (h : runTwo S.bM S.schC true (equalsMatrix S.T.ptrEq S.T.wEq S.T.close S.T.mulDagger) stop .noInformation
        S.qc1 S.qc2 (constructionInit S.bM S.ident S.qc1) (constructionInit S.bM S.ident S.qc2) fuel = .ok (c, s)) :
      PRAnswer S quiet .construction c
  | simulation (c : Criterion) (h : PRSimRun S quiet .noInformation c) : PRAnswer S quiet .simulation c
  | simulationAgain (prev c : Criterion) (hp : PRAnswer S quiet .simulation prev) (h : PRSimRun S quiet prev c) : PRAnswer S quiet .simulation c
  /-- the ZX checker does not read `check_partial_equivalence` -/
  | zx (c : Criterion) (h : RAnswer S.toInexact quiet .zx c) : PRAnswer S quiet .zx c

/-- The circuits do not lead the alternating checker astray (C02). -/
def InexactPartial.Unmistaken (S : InexactPartial m n) : Prop :=
  (S.schA.Cancels → NearSafe S.drift S.opEq S.qc1 S.qc2) ∧
  (¬ S.schA.Cancels → (∀ o ∈ S.qc1.ops, o.isSwap = false → NoSwap o) ∧ (∀ o ∈ S.qc2.ops, o.isSwap = false → NoSwap o))

/-- One of the circuits acts on none of the qubits that are ancillary in both. -/
def InexactPartial.OneIdle (S : InexactPartial m n) : Prop :=
  (∀ q : Fin n, S.qc1.ancillary.getD q.val false = true → S.qc2.ancillary.getD q.val false = true → Idle S.qc1 S.ω1 q) ∨
  (∀ q : Fin n, S.qc1.ancillary.getD q.val false = true → S.qc2.ancillary.getD q.val false = true → Idle S.qc2 S.ω2 q)

/-- The errors are small enough for partially equivalent circuits to pass. -/
def InexactPartial.ReducedBudget (S : InexactPartial m n) : Prop :=
  accumulated S.ε 0 (cost S.qc1 + cost S.qc2 + 1) ≤ S.θ₀ ∧
  2 * reducedOverlapError S.ε S.δ S.ηV S.qc1 S.qc2 + reducedOverlapError S.ε S.δ S.ηV S.qc1 S.qc2 ^ 2 < S.V.threshold

/-- What a verdict means if the construction checker is not used.  A positive one: for every input in which the ancillary qubits are `|0⟩`, no event that
can be seen on the measured qubits differs in its probability by more than four times the drift.  `NotEquivalent`, with errors within the budget: the
circuits are not partially equivalent (if the alternating checker is used: for circuits one of which does not act on the common ancillary qubits). -/
structure PRMeaning (S : InexactPartial m n) (cfg : Configuration) (v : Criterion) : Prop where
  positive : v = .equivalent ∨ v = .equivalentUpToGlobalPhase → ¬ Enabled cfg .construction →
    PartiallyWithin (4 * S.drift) S.unread (S.someAnc cfg.execution.runZXChecker) S.qc1 S.ω1 S.qc2 S.ω2
  negative : v = .notEquivalent → ¬ Enabled cfg .construction → S.ReducedBudget → (Enabled cfg .alternating → S.OneIdle) →
    ¬ PartiallyEquivalent S.unread (S.bothAnc cfg.execution.runSimulationChecker) S.qc1 S.ω1 S.qc2 S.ω2
  never : ¬ Enabled cfg .construction → v ≠ .equivalentUpToPhase

end QCEC.Spec
