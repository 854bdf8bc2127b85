import Verif.Spec.Verdict
import Verif.Props.ZXVerdict
import Verif.Props.StateGen
import Verif.Props.DDSem
/-!
# Specification: what a run of the manager on two circuits is

Joins the models: two circuits, the answers the four checkers can give on them (as computed by the models of the checkers), and what a
verdict must mean.  Nothing here is about how the manager combines the answers.
-/
namespace QCEC.Spec
open QCEC QCEC.DD QCEC.Sem QCEC.Gen QCEC.ZX QCEC.Spec.ZX QCEC.Mgr QCEC.Prep QCEC.Props Matrix

/-- Amplitudes of the single-qubit states of `dd::BasisStates`. -/
noncomputable def amp : Basis1 → Bool → ℂ
  | .zero, b => if b then 0 else 1
  | .one, b => if b then 1 else 0
  | .plus, _ => 1 / (Real.sqrt 2 : ℂ)
  | .minus, b => (if b then -1 else 1) / (Real.sqrt 2 : ℂ)
  | .right, b => (if b then Complex.I else 1) / (Real.sqrt 2 : ℂ)
  | .left, b => (if b then -Complex.I else 1) / (Real.sqrt 2 : ℂ)

/-- The state vector of a stimulus on `n` qubits; `cliff k seed` is the output of the random Clifford circuit on `k` qubits. -/
inductive Denotes {n : Nat} (cliff : (k seed : Nat) → Basis k → ℂ) : Stim → (Basis n → ℂ) → Prop
  | basis (bits : List Bool) : Denotes cliff (.basis bits) fun z => if ∀ q : Fin n, z q = bits.getD q.val false then 1 else 0
  | product (l : List Basis1) : Denotes cliff (.product l) fun z => ∏ q : Fin n, amp (l.getD q.val .zero) (z q)
  | stabilizer (k seed zeros : Nat) (h : k ≤ n) : Denotes cliff (.stabilizer k seed zeros) fun z =>
      if ∀ q : Fin n, k ≤ q.val → z q = false then cliff k seed (fun i => z (Fin.castLE h i)) else 0

/-- Two circuits on `n` qubits with data qubits `0 .. m-1` and the configured checkers. -/
structure Setting (m n : Nat) where
  qc1 : QC n
  qc2 : QC n
  ω1 : Equiv.Perm (Fin n)
  ω2 : Equiv.Perm (Fin n)
  wf1 : WellFormed qc1 ω1
  wf2 : WellFormed qc2 ω2
  data : m ≤ n
  /-- both circuits have the ancillary qubits `m .. n-1` -/
  anc1 : ∀ q : Fin n, qc1.ancillary.getD q.val false = (flags m n).getD q.val false
  anc2 : ∀ q : Fin n, qc2.ancillary.getD q.val false = (flags m n).getD q.val false
  /-- the package, in exact arithmetic -/
  garb : List Bool → Bool → Mat n → Mat n
  garbV : List Bool → Bool → (Basis n → ℂ) → (Basis n → ℂ)
  T : ExactTests n
  V : VectorTests n
  threshold : 0 < V.threshold
  opEq : Op n → Op n → Bool
  /-- the configured application schemes -/
  schA : AltScheme (Op n) (Equiv.Perm (Fin n)) (Mat n)
  schC : Scheme (Op n) (Equiv.Perm (Fin n))
  schS : Scheme (Op n) (Equiv.Perm (Fin n))
  cancel : schA.Cancels → SkipSafe opEq qc1 qc2
  confA : AltConfigured qc1 qc2 schA
  confC : Nonempty (Configured qc1 qc2 schC)
  confS : Nonempty (Configured qc1 qc2 schS)
  stateType : StateType
  cliff : (k seed : Nat) → Basis k → ℂ
  cliff_normalised : ∀ k seed, Normalised (cliff k seed)

/-- A simulation checker that answered `prev` before is run on a stimulus of the generator and answers `c`.  `quiet`: nobody tells it to
stop. -/
def SimRun {m n : Nat} (S : Setting m n) (quiet : Bool) (prev c : Criterion) : Prop :=
  ∃ (R : Rng) (g g' : Generator R) (st : Stim) (x : Basis n → ℂ) (stop : Nat → Bool) (fuel : Nat) (s : _),
    Generate g (checkerReq n m S.stateType) st g' ∧ Denotes S.cliff st x ∧ Mono stop ∧ (quiet = true → ∀ i, stop i = false) ∧
    S.qc1.ops.length + S.qc2.ops.length + 2 ≤ fuel ∧
    runTwo (exactVector n S.garbV) S.schS false (equalsVector S.V.ptrEq S.V.wEq S.V.realClose S.V.fidClose) stop prev
      S.qc1 S.qc2 x x fuel = .ok (c, s)

/-- The answers a checker can give on the circuits.  `quiet`: nobody tells it to stop. -/
inductive Answer {m n : Nat} (S : Setting m n) (quiet : Bool) : Kind → Criterion → Prop
  | alternating (stop : Nat → Bool) (hm : Mono stop) (hq : quiet = true → ∀ i, stop i = false) (fuel : Nat)
      (hf : S.qc1.ops.length + S.qc2.ops.length + 2 ≤ fuel)
      (handled : ∀ q : Fin n, m ≤ q.val → Idle S.qc1 S.ω1 q ∨ Idle S.qc2 S.ω2 q) (c s)
      (h : runAlt (exactMatrix n S.garb) S.T.isId S.opEq S.schA (altVerdict S.T.close S.T.wOne) stop .noInformation S.qc1 S.qc2
        (altInit (exactMatrix n S.garb) 1 n S.qc1 S.qc2) fuel = .ok (c, s)) : Answer S quiet .alternating c
  | construction (stop : Nat → Bool) (hm : Mono stop) (hq : quiet = true → ∀ i, stop i = false) (fuel : Nat)
      (hf : S.qc1.ops.length + S.qc2.ops.length + 2 ≤ fuel) (c s)
      (h : runTwo (exactMatrix n S.garb) S.schC false (equalsMatrix S.T.ptrEq S.T.wEq S.T.close fun e f => e * fᴴ) stop .noInformation
        S.qc1 S.qc2 (constructionInit (exactMatrix n S.garb) 1 S.qc1) (constructionInit (exactMatrix n S.garb) 1 S.qc2) fuel =
          .ok (c, s)) : Answer S quiet .construction c
  /-- first run of a simulation checker -/
  | simulation (c : Criterion) (h : SimRun S quiet .noInformation c) : Answer S quiet .simulation c
  /-- a simulation checker may be run again -/
  | simulationAgain (prev c : Criterion) (hp : Answer S quiet .simulation prev) (h : SimRun S quiet prev c) : Answer S quiet .simulation c
  /-- circuits that return their ancillary qubits, whose diagrams are built and reduced correctly (C38, C39, C56) -/
  | zx {α : Type} {c1 c2 : Circ α} (hr1 : Represents c1 S.qc1.initialLayout S.ω1) (hr2 : Represents c2 S.qc2.initialLayout S.ω2)
      (hc1 : Clean (flags m n) S.qc1 S.ω1) (hc2 : Clean (flags m n) S.qc2 S.ω2) (outs1 outs2 : Fin m → Fin n)
      (ho1 : KeepsData S.qc1 S.ω1 outs1) (ho2 : KeepsData S.qc2 S.ω2 outs2) (M : Miter) (g : Graph m) (θ : ℂ)
      (hR : Reduced S.data S.qc1 S.qc2 outs1 outs2 M g θ) (hg : ∀ i, i < m → ¬(c1.isGarbage i = true ∧ c2.isGarbage i = true))
      (done : Bool) (hq : quiet = true → done = false) (c : Criterion) (h : finish c1 c2 M done = some c) : Answer S quiet .zx c

/-- What a verdict must mean about the circuits: the same output on every input whose ancillary qubits are `|0⟩`, or the same up to one
global phase different from one, or a difference that is no global phase.  (`EquivalentUpToPhase` is never reported.) -/
structure Meaning {m n : Nat} (S : Setting m n) (v : Criterion) : Prop where
  equivalent : v = .equivalent → Same (flags m n) S.qc1 S.ω1 S.qc2 S.ω2
  phase : v = .equivalentUpToGlobalPhase →
    SameUpToPhase (flags m n) S.qc1 S.ω1 S.qc2 S.ω2 ∧ ¬ Same (flags m n) S.qc1 S.ω1 S.qc2 S.ω2
  notEquivalent : v = .notEquivalent → ¬ SameUpToPhase (flags m n) S.qc1 S.ω1 S.qc2 S.ω2
  never : v ≠ .equivalentUpToPhase

end QCEC.Spec
