import Verif.Spec.EndToEndMixed
import Verif.Props.PartialEquivalence
/-!
# Specification: a run of the manager with `check_partial_equivalence`

The answers the four checkers can give with partial equivalence switched on, as computed by the models of the checkers, and what a
verdict means then.  Nothing here is about how the manager combines the answers.
-/
namespace QCEC.Spec
open QCEC QCEC.DD QCEC.Sem QCEC.Gen QCEC.ZX QCEC.Spec.ZX QCEC.Mgr QCEC.Prep QCEC.Props Matrix

variable {m n : Nat}

/-- Two circuits whose garbage qubits are not measured.  Any qubits may be declared ancillary in each of them (as in `Spec/EndToEndMixed.lean`). -/
structure PBase (m n : Nat) extends Mixed m n where
  /-- the package's test for the identity that ignores garbage qubits -/
  G : GarbageTest n

/-- The two circuits have the same garbage qubits, except that a circuit that does not use an ancillary qubit may call it garbage (as the manager does with
the qubits only the other circuit has). -/
def PBase.SameGarbage (S : PBase m n) : Prop := ∀ q : Fin n, S.qc1.garbage.getD q.val false = S.qc2.garbage.getD q.val false ∨
  (m ≤ q.val ∧ S.qc1.ancillary.getD q.val false = true ∧ S.qc2.ancillary.getD q.val false = true ∧
    (S.qc1.garbage.getD q.val false = true ∧ Idle S.qc1 S.ω1 q ∨ S.qc2.garbage.getD q.val false = true ∧ Idle S.qc2 S.ω2 q))

/-- Two circuits with the same garbage qubits. -/
structure PSetting (m n : Nat) extends PBase m n where
  /-- cancelling operations is harmless (C02) -/
  safe : toMixed.Unmistaken
  garbage : toPBase.SameGarbage

/-- The qubits that are not measured. -/
def PSetting.unread (S : PSetting m n) : List Bool := marks n fun q => S.qc1.garbage.getD q false && S.qc2.garbage.getD q false

/-- The documented definition for the two circuits of a setting, on the inputs in which the qubits in `anc` are `|0⟩`. -/
def PSetting.Partially (S : PSetting m n) (anc : List Bool) : Prop := PartiallyEquivalent S.unread anc S.qc1 S.ω1 S.qc2 S.ω2

/-- Equal outcome probabilities on the basis states only. -/
def PSetting.OnBasis (S : PSetting m n) (anc : List Bool) : Prop := BasisEquivalent anc S.unread S.unread S.qc1 S.ω1 S.qc2 S.ω2

/-- One of the circuits acts on none of the qubits that are ancillary in both. -/
def Mixed.OneIdle (S : Mixed m n) : Prop :=
  (∀ q : Fin n, S.qc1.ancillary.getD q.val false = true → S.qc2.ancillary.getD q.val false = true → Idle S.qc1 S.ω1 q) ∨
  (∀ q : Fin n, S.qc1.ancillary.getD q.val false = true → S.qc2.ancillary.getD q.val false = true → Idle S.qc2 S.ω2 q)

/-- Both circuits have the ancillary qubits `m .. n-1`. -/
def Mixed.Plain (S : Mixed m n) : Prop :=
  ∀ q : Fin n, S.qc1.ancillary.getD q.val false = (flags m n).getD q.val false ∧ S.qc2.ancillary.getD q.val false = (flags m n).getD q.val false

/-- As `MSimRun`, with garbage reduced (`partialEq = true`). -/
def PSimRun (S : PBase m n) (quiet : Bool) (prev c : Criterion) : Prop :=
  ∃ (R : Rng) (g g' : Generator R) (st : Stim) (x : Basis n → ℂ) (stop : Nat → Bool) (fuel : Nat) (s : _),
    Generate g (checkerReq n m S.stateType) st g' ∧ Denotes S.cliff st x ∧ Mono stop ∧ (quiet = true → ∀ i, stop i = false) ∧
    S.qc1.ops.length + S.qc2.ops.length + 2 ≤ fuel ∧
    runTwo (exactVector n reduceGarbageVec) S.schS true (equalsVector S.V.ptrEq S.V.wEq S.V.realClose S.V.fidClose) stop prev
      S.qc1 S.qc2 x x fuel = .ok (c, s)

/-- The answers a checker can give with `check_partial_equivalence`.  `quiet`: nobody tells it to stop. -/
inductive PAnswer (S : PBase m n) (quiet : Bool) : Kind → Criterion → Prop
  | alternating (stop : Nat → Bool) (hm : Mono stop) (hq : quiet = true → ∀ i, stop i = false) (fuel : Nat)
      (hf : S.qc1.ops.length + S.qc2.ops.length + 2 ≤ fuel) (c s)
      (h : runAlt (exactMatrix n reduceGarbageMat) S.T.isId S.opEq S.schA (altCheck true S.G.closeG S.T.close S.T.wOne n S.qc1 S.qc2) stop
        .noInformation S.qc1 S.qc2 (altInit (exactMatrix n reduceGarbageMat) 1 n S.qc1 S.qc2) fuel = .ok (c, s)) :
      PAnswer S quiet .alternating c
  | construction (stop : Nat → Bool) (hm : Mono stop) (hq : quiet = true → ∀ i, stop i = false) (fuel : Nat)
      (hf : S.qc1.ops.length + S.qc2.ops.length + 2 ≤ fuel) (c s)
      (h : runTwo (exactMatrix n reduceGarbageMat) S.schC true (equalsMatrix S.T.ptrEq S.T.wEq S.T.close fun e f => e * fᴴ) stop
        .noInformation S.qc1 S.qc2 (constructionInit (exactMatrix n reduceGarbageMat) 1 S.qc1)
        (constructionInit (exactMatrix n reduceGarbageMat) 1 S.qc2) fuel = .ok (c, s)) : PAnswer S quiet .construction c
  | simulation (c : Criterion) (h : PSimRun S quiet .noInformation c) : PAnswer S quiet .simulation c
  | simulationAgain (prev c : Criterion) (hp : PAnswer S quiet .simulation prev) (h : PSimRun S quiet prev c) :
      PAnswer S quiet .simulation c
  /-- circuits without garbage data wires, as in `MAnswer.zx` (the ZX checker does not read `check_partial_equivalence`) -/
  | zx (c : Criterion) (h : MAnswer S.toMixed quiet .zx c) : PAnswer S quiet .zx c

/-- What a verdict means.  `NotEquivalent` is a refutation of partial equivalence on the inputs in which the qubits ancillary in both circuits are `|0⟩`
(if the alternating checker is used: for circuits one of which acts on none of these qubits).  A positive verdict means, for the inputs in which all
qubits ancillary in one of the circuits are `|0⟩`, equal outcome probabilities on the basis states, and, if the construction checker is not used, partial
equivalence as documented.  If the construction checker is used: for circuits with the same ancillary qubits. -/
structure PMeaning (S : PSetting m n) (cfg : Configuration) (v : Criterion) : Prop where
  negative : v = .notEquivalent → (Enabled cfg .alternating → S.OneIdle) → (Enabled cfg .construction → S.SameFlags) →
    ¬ S.Partially (S.bothAnc cfg.execution.runSimulationChecker)
  basis : v = .equivalent ∨ v = .equivalentUpToGlobalPhase → (Enabled cfg .construction → S.SameFlags) → S.OnBasis (S.someAnc cfg.execution.runZXChecker)
  positive : v = .equivalent ∨ v = .equivalentUpToGlobalPhase → ¬ Enabled cfg .construction → S.Partially (S.someAnc cfg.execution.runZXChecker)
  never : v ≠ .equivalentUpToPhase

end QCEC.Spec
