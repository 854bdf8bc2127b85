import Verif.Spec.EndToEnd
/-!
# Specification: a run of the manager on two circuits that declare different qubits as ancillary

As `Spec/EndToEnd.lean`, but any qubits may be declared ancillary in each of the circuits, not only the same ones in both and not only the last ones.
`m` is the number of qubits of circuit 1 that are not ancillary: simulation and ZX-calculus take the qubits `m .. n-1` for the ancillary ones.
-/
namespace QCEC.Spec
open QCEC QCEC.DD QCEC.Sem QCEC.Gen QCEC.ZX QCEC.Spec.ZX QCEC.Mgr QCEC.Prep QCEC.Props Matrix

/-- Two circuits on `n` qubits, the first with `m` data qubits, and the configured checkers. -/
structure Mixed (m n : Nat) where
  qc1 : QC n
  qc2 : QC n
  ω1 : Equiv.Perm (Fin n)
  ω2 : Equiv.Perm (Fin n)
  wf1 : WellFormed qc1 ω1
  wf2 : WellFormed qc2 ω2
  data : m ≤ n
  /-- the package, in exact arithmetic -/
  garb : List Bool → Bool → Mat n → Mat n
  garbV : List Bool → Bool → (Basis n → ℂ) → (Basis n → ℂ)
  T : ExactTests n
  V : VectorTests n
  threshold : 0 < V.threshold
  opEq : Op n → Op n → Bool
  /-- the configured application schemes -/
  schA : AltScheme (Op n) (Equiv.Perm (Fin n)) (Mat n)
  schC : Scheme (Op n) (Equiv.Perm (Fin n))
  schS : Scheme (Op n) (Equiv.Perm (Fin n))
  confA : AltChosen qc1 qc2 schA
  confC : Nonempty (Configured qc1 qc2 schC)
  confS : Nonempty (Configured qc1 qc2 schS)
  stateType : StateType
  cliff : (k seed : Nat) → Basis k → ℂ
  cliff_normalised : ∀ k seed, Normalised (cliff k seed)

/-- The strategy of the alternating checker is not led astray by operations that look the same and by SWAPs inside compound operations (C02). -/
def Mixed.Unmistaken {m n : Nat} (S : Mixed m n) : Prop := AltSafe S.opEq S.qc1 S.qc2 S.schA

/-- The alternating checker is not led astray, neither by its strategy nor by ancillary qubits that are read out elsewhere (C36). -/
def Mixed.Safe {m n : Nat} (S : Mixed m n) : Prop := S.Unmistaken ∧ Settled S.qc1 S.ω1 S.qc2 S.ω2

/-- Circuits with the same ancillary qubits. -/
def Setting.mixed {m n : Nat} (S : Setting m n) : Mixed m n :=
  { qc1 := S.qc1, qc2 := S.qc2, ω1 := S.ω1, ω2 := S.ω2, wf1 := S.wf1, wf2 := S.wf2, data := S.data,
    garb := S.garb, garbV := S.garbV, T := S.T, V := S.V, threshold := S.threshold, opEq := S.opEq, schA := S.schA, schC := S.schC, schS := S.schS,
    confA := S.confA.chosen, confC := S.confC, confS := S.confS, stateType := S.stateType, cliff := S.cliff,
    cliff_normalised := S.cliff_normalised }

theorem Setting.mixed_unmistaken {m n : Nat} (S : Setting m n) : S.mixed.Unmistaken := S.confA.safe S.cancel

variable {m n : Nat}

/-- As `SimRun`; the stimuli leave as many of the last qubits at zero as circuit 1 has ancillary qubits (`DDSimulationChecker.cpp:46`). -/
def MSimRun (S : Mixed m n) (quiet : Bool) (prev c : Criterion) : Prop :=
  ∃ (R : Rng) (g g' : Generator R) (st : Stim) (x : Basis n → ℂ) (stop : Nat → Bool) (fuel : Nat) (s : _),
    Generate g (checkerReq n m S.stateType) st g' ∧ Denotes S.cliff st x ∧ Mono stop ∧ (quiet = true → ∀ i, stop i = false) ∧
    S.qc1.ops.length + S.qc2.ops.length + 2 ≤ fuel ∧
    runTwo (exactVector n S.garbV) S.schS false (equalsVector S.V.ptrEq S.V.wEq S.V.realClose S.V.fidClose) stop prev
      S.qc1 S.qc2 x x fuel = .ok (c, s)

/-- The answers a checker can give on the circuits.  `quiet`: nobody tells it to stop. -/
inductive MAnswer (S : Mixed m n) (quiet : Bool) : Kind → Criterion → Prop
  | alternating (stop : Nat → Bool) (hm : Mono stop) (hq : quiet = true → ∀ i, stop i = false) (fuel : Nat)
      (hf : S.qc1.ops.length + S.qc2.ops.length + 2 ≤ fuel)
      (accepted : Accepted S.qc1 S.qc2) (c s)
      (h : runAlt (exactMatrix n S.garb) S.T.isId S.opEq S.schA (altVerdict S.T.close S.T.wOne) stop .noInformation S.qc1 S.qc2
        (altInit (exactMatrix n S.garb) 1 n S.qc1 S.qc2) fuel = .ok (c, s)) : MAnswer S quiet .alternating c
  | construction (stop : Nat → Bool) (hm : Mono stop) (hq : quiet = true → ∀ i, stop i = false) (fuel : Nat)
      (hf : S.qc1.ops.length + S.qc2.ops.length + 2 ≤ fuel) (c s)
      (h : runTwo (exactMatrix n S.garb) S.schC false (equalsMatrix S.T.ptrEq S.T.wEq S.T.close fun e f => e * fᴴ) stop .noInformation
        S.qc1 S.qc2 (constructionInit (exactMatrix n S.garb) 1 S.qc1) (constructionInit (exactMatrix n S.garb) 1 S.qc2) fuel =
          .ok (c, s)) : MAnswer S quiet .construction c
  /-- first run of a simulation checker -/
  | simulation (c : Criterion) (h : MSimRun S quiet .noInformation c) : MAnswer S quiet .simulation c
  /-- a simulation checker may be run again -/
  | simulationAgain (prev c : Criterion) (hp : MAnswer S quiet .simulation prev) (h : MSimRun S quiet prev c) : MAnswer S quiet .simulation c
  /-- the ZX checker fixes as many of the last qubits as circuit 1 has ancillary qubits, in both diagrams (`ZXChecker.cpp:42-50`); circuits that return
  them -/
  | zx {α : Type} {c1 c2 : Circ α} (hr1 : Represents c1 S.qc1.initialLayout S.ω1) (hr2 : Represents c2 S.qc2.initialLayout S.ω2)
      (hc1 : Clean (flags m n) S.qc1 S.ω1) (hc2 : Clean (flags m n) S.qc2 S.ω2) (outs1 outs2 : Fin m → Fin n)
      (ho1 : KeepsData S.qc1 S.ω1 outs1) (ho2 : KeepsData S.qc2 S.ω2 outs2) (M : Miter) (g : Graph m) (θ : ℂ)
      (hR : Reduced S.data S.qc1 S.qc2 outs1 outs2 M g θ) (hg : ∀ i, i < m → ¬(c1.isGarbage i = true ∧ c2.isGarbage i = true))
      (done : Bool) (hq : quiet = true → done = false) (c : Criterion) (h : finish c1 c2 M done = some c) : MAnswer S quiet .zx c

/-- The qubits of a register that satisfy a test, as a list of flags. -/
def marks (n : Nat) (f : Nat → Bool) : List Bool := (List.range n).map f

/-- The circuits declare the same qubits as ancillary. -/
def Mixed.SameFlags (S : Mixed m n) : Prop := ∀ q : Fin n, S.qc1.ancillary.getD q.val false = S.qc2.ancillary.getD q.val false

/-- All qubits that are ancillary in one of the circuits and, if the ZX-calculus is used, those it fixes. -/
def Mixed.someAnc (S : Mixed m n) (zx : Bool) : List Bool :=
  marks n fun q => S.qc1.ancillary.getD q false || S.qc2.ancillary.getD q false || (zx && decide (m ≤ q))
/-- All qubits that are ancillary in both circuits, if simulations are used without those that are not among the last ones. -/
def Mixed.bothAnc (S : Mixed m n) (sim : Bool) : List Bool :=
  marks n fun q => S.qc1.ancillary.getD q false && S.qc2.ancillary.getD q false && (!sim || decide (m ≤ q))

/-- What a verdict means.  Positive verdicts: on every input in which all qubits are `|0⟩` that are ancillary in one of the circuits (and, with the
ZX-calculus, as many of the last ones as circuit 1 has ancillary qubits), the outputs are the same, exactly or up to a global phase; `NotEquivalent`: no
global phase makes them the same on all inputs in which the qubits ancillary in both circuits are `|0⟩` (with simulations: as far as they are among the
last ones).  If the construction checker is used, this is only so for circuits with the same ancillary qubits. -/
structure MMeaning (S : Mixed m n) (cfg : Configuration) (v : Criterion) : Prop where
  positive : v = .equivalent ∨ v = .equivalentUpToGlobalPhase → SameUpToPhase (S.someAnc cfg.execution.runZXChecker) S.qc1 S.ω1 S.qc2 S.ω2
  equivalent : v = .equivalent → (Enabled cfg .construction → S.SameFlags) → Same (S.someAnc cfg.execution.runZXChecker) S.qc1 S.ω1 S.qc2 S.ω2
  phase : v = .equivalentUpToGlobalPhase → (Enabled cfg .construction → S.SameFlags) →
    ¬ Same (S.someAnc cfg.execution.runZXChecker) S.qc1 S.ω1 S.qc2 S.ω2
  notEquivalent : v = .notEquivalent → (Enabled cfg .construction → S.SameFlags) →
    ¬ SameUpToPhase (S.bothAnc cfg.execution.runSimulationChecker) S.qc1 S.ω1 S.qc2 S.ω2
  never : v ≠ .equivalentUpToPhase

end QCEC.Spec
