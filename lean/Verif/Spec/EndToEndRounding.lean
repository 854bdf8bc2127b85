import Verif.Spec.EndToEndMixed
import Verif.Spec.Rounding
/-!
# Specification: a run of the manager whose decision-diagram package computes with rounding errors

As `Spec/EndToEndMixed.lean`, but the package is one of `Spec/Rounding.lean`: `D` is a type of decision diagrams, `val d` what the diagram
`d` represents, and every call has a relative error.  The ZX-calculus is taken to be exact.
-/
namespace QCEC.Spec
open QCEC QCEC.DD QCEC.Sem QCEC.Gen QCEC.ZX QCEC.Spec.ZX QCEC.Mgr QCEC.Prep QCEC.Props Matrix

/-- The tests on matrices, computed with errors.  `close` (`isCloseToIdentity`) only accepts what is within `θ` of a multiple of a diagonal
0/1 matrix, and accepts everything within `θ₀` of a phase times an identity in which ancillas are reduced; `wOne` says in addition that the
multiple is one.  `isId` is structural, hence exact.  Diagrams with the same node represent multiples of each other; the product with the
adjoint has a relative error of at most `η`.  Nothing is assumed about the comparison of top weights (`wEq`). -/
structure RoundedTests {n : Nat} {D : Type} (val : D → Mat n) (θ θ₀ η : ℝ) where
  close : D → Bool
  wOne : D → Bool
  isId : D → Bool
  ptrEq : D → D → Bool
  wEq : D → D → Bool
  mulDagger : D → D → D
  isId_sound : ∀ d, isId d = true → ∃ c : ℂ, val d = c • (1 : Mat n)
  close_sound : ∀ d, close d = true → ∃ (c : ℂ) (S : Finset (Basis n)), S.Nonempty ∧
    Stretch θ (val d - c • Matrix.diagonal fun x => if x ∈ S then 1 else 0)
  wOne_sound : ∀ d, close d = true → wOne d = true → ∃ S : Finset (Basis n), S.Nonempty ∧
    Stretch θ (val d - Matrix.diagonal fun x => if x ∈ S then 1 else 0)
  close_complete : ∀ d (c : ℂ) (anc : List Bool), ‖c‖ = 1 → Stretch θ₀ (val d - c • ancProj anc) → close d = true
  wOne_complete : ∀ d (anc : List Bool), Stretch θ₀ (val d - ancProj anc) → wOne d = true
  ptrEq_sound : ∀ e f, ptrEq e f = true → ∃ c : ℂ, val e = c • val f
  mulDagger_error : ∀ e f c c', Stretch c (val e) → Stretch c' (val f) → Stretch (η * (c * c')) (val (mulDagger e f) - val e * (val f)ᴴ)

/-- Two circuits on `n` qubits, the first with `m` data qubits, and the configured checkers with an inexact package. -/
structure Inexact (m n : Nat) where
  qc1 : QC n
  qc2 : QC n
  ω1 : Equiv.Perm (Fin n)
  ω2 : Equiv.Perm (Fin n)
  wf1 : WellFormed qc1 ω1
  wf2 : WellFormed qc2 ω2
  data : m ≤ n
  /-- relative error of a multiplication -/
  ε : ℝ
  /-- matrix diagrams -/
  DM : Type
  MM : Type
  bM : Backend (Op n) (Equiv.Perm (Fin n)) (List (Fin n × Fin n)) MM DM
  valM : DM → Mat n
  roundM : RoundedMatrix bM valM ε
  ident : DM
  ident_val : valM ident = 1
  /-- what the tests on matrices accept, what they are sure to accept, error of the product with the adjoint -/
  θ : ℝ
  θ₀ : ℝ
  ηM : ℝ
  θ_nonneg : 0 ≤ θ
  ηM_nonneg : 0 ≤ ηM
  T : RoundedTests valM θ θ₀ ηM
  /-- vector diagrams -/
  DV : Type
  MV : Type
  bV : Backend (Op n) (Equiv.Perm (Fin n)) (List (Fin n × Fin n)) MV DV
  valV : DV → Basis n → ℂ
  roundV : RoundedVector bV valV ε
  /-- error of the stimulus, of the inner product, of equal vectors -/
  δ : ℝ
  ηV : ℝ
  w : ℝ
  ηV_nonneg : 0 ≤ ηV
  V : RoundedVectorTests valV ηV w
  opEq : Op n → Op n → Bool
  schA : AltScheme (Op n) (Equiv.Perm (Fin n)) DM
  schC : Scheme (Op n) (Equiv.Perm (Fin n))
  schS : Scheme (Op n) (Equiv.Perm (Fin n))
  confA : AltChosen qc1 qc2 schA
  confC : Nonempty (Configured qc1 qc2 schC)
  confS : Nonempty (Configured qc1 qc2 schS)
  stateType : StateType
  cliff : (k seed : Nat) → Basis k → ℂ
  cliff_normalised : ∀ k seed, Normalised (cliff k seed)

variable {m n : Nat}

/-- One run of a simulation checker: the stimulus `x` is represented by a diagram with error `δ`. -/
def RSimRun (S : Inexact m n) (quiet : Bool) (prev c : Criterion) : Prop :=
  ∃ (R : Rng) (g g' : Generator R) (st : Stim) (x : Basis n → ℂ) (d : S.DV) (stop : Nat → Bool) (fuel : Nat) (s : _),
    Generate g (checkerReq n m S.stateType) st g' ∧ Denotes S.cliff st x ∧ nrm (S.valV d - x) ≤ S.δ ∧ Mono stop ∧
    (quiet = true → ∀ i, stop i = false) ∧ S.qc1.ops.length + S.qc2.ops.length + 2 ≤ fuel ∧
    runTwo S.bV S.schS false (equalsVector S.V.ptrEq S.V.wEq S.V.realClose S.V.fidClose) stop prev S.qc1 S.qc2 d d fuel = .ok (c, s)

/-- The answers a checker can give on the circuits. -/
inductive RAnswer (S : Inexact m n) (quiet : Bool) : Kind → Criterion → Prop
  | alternating (stop : Nat → Bool) (hm : Mono stop) (hq : quiet = true → ∀ i, stop i = false) (fuel : Nat)
      (hf : S.qc1.ops.length + S.qc2.ops.length + 2 ≤ fuel)
      (accepted : Accepted S.qc1 S.qc2) (c s)
      (h : runAlt S.bM S.T.isId S.opEq S.schA (altVerdict S.T.close S.T.wOne) stop .noInformation S.qc1 S.qc2
        (altInit S.bM S.ident n S.qc1 S.qc2) fuel = .ok (c, s)) : RAnswer S quiet .alternating c
  | construction (stop : Nat → Bool) (hm : Mono stop) (hq : quiet = true → ∀ i, stop i = false) (fuel : Nat)
      (hf : S.qc1.ops.length + S.qc2.ops.length + 2 ≤ fuel) (c s)
      (h : runTwo S.bM S.schC false (equalsMatrix S.T.ptrEq S.T.wEq S.T.close S.T.mulDagger) stop .noInformation
        S.qc1 S.qc2 (constructionInit S.bM S.ident S.qc1) (constructionInit S.bM S.ident S.qc2) fuel = .ok (c, s)) :
      RAnswer S quiet .construction c
  | simulation (c : Criterion) (h : RSimRun S quiet .noInformation c) : RAnswer S quiet .simulation c
  | simulationAgain (prev c : Criterion) (hp : RAnswer S quiet .simulation prev) (h : RSimRun S quiet prev c) : RAnswer S quiet .simulation c
  | zx {α : Type} {c1 c2 : Circ α} (hr1 : Represents c1 S.qc1.initialLayout S.ω1) (hr2 : Represents c2 S.qc2.initialLayout S.ω2)
      (hc1 : Clean (flags m n) S.qc1 S.ω1) (hc2 : Clean (flags m n) S.qc2 S.ω2) (outs1 outs2 : Fin m → Fin n)
      (ho1 : KeepsData S.qc1 S.ω1 outs1) (ho2 : KeepsData S.qc2 S.ω2 outs2) (M : Miter) (g : Graph m) (φ : ℂ)
      (hR : Reduced S.data S.qc1 S.qc2 outs1 outs2 M g φ) (hg : ∀ i, i < m → ¬(c1.isGarbage i = true ∧ c2.isGarbage i = true))
      (done : Bool) (hq : quiet = true → done = false) (c : Criterion) (h : finish c1 c2 M done = some c) : RAnswer S quiet .zx c

/-- The relative error with which the matrix checkers know the circuits: that of the test, and that of all multiplications. -/
noncomputable def Inexact.drift (S : Inexact m n) : ℝ := S.θ + ((1 + S.ηM) * (1 + S.ε) ^ (cost S.qc1 + cost S.qc2 + 4) - 1)

/-- The circuits do not lead the alternating checker astray (C02): it cancels operations only where that is harmless, as far as it can know with its errors, and
lookahead sees no SWAPs hidden in compound operations; and ancillary qubits that are read out elsewhere do not either (C36). -/
def Inexact.Safe (S : Inexact m n) : Prop :=
  (S.schA.Cancels → NearSafe S.drift S.opEq S.qc1 S.qc2) ∧
  (¬ S.schA.Cancels → (∀ o ∈ S.qc1.ops, o.isSwap = false → NoSwap o) ∧ (∀ o ∈ S.qc2.ops, o.isSwap = false → NoSwap o)) ∧
  Settled S.qc1 S.ω1 S.qc2 S.ω2

/-- The errors are small enough for equivalent circuits to pass: those of the matrix checkers are within what the test is sure to accept,
the overlap of equivalent circuits is within the threshold. -/
def Inexact.Budget (S : Inexact m n) : Prop :=
  accumulated S.ε 0 (cost S.qc1 + cost S.qc2 + 1) ≤ S.θ₀ ∧
  2 * overlapError S.ε S.δ S.ηV S.qc1 S.qc2 + overlapError S.ε S.δ S.ηV S.qc1 S.qc2 ^ 2 < S.V.threshold

/-- All qubits that are ancillary in one of the circuits and, if the ZX-calculus is used, those it fixes. -/
def Inexact.someAnc (S : Inexact m n) (zx : Bool) : List Bool :=
  marks n fun q => S.qc1.ancillary.getD q false || S.qc2.ancillary.getD q false || (zx && decide (m ≤ q))
/-- All qubits that are ancillary in both circuits, if simulations or the ZX-calculus are used without those that are not among the last ones. -/
def Inexact.bothAnc (S : Inexact m n) (last : Bool) : List Bool :=
  marks n fun q => S.qc1.ancillary.getD q false && S.qc2.ancillary.getD q false && (!last || decide (m ≤ q))

/-- What a verdict means.  With drift at most a tenth, a positive verdict says that the true outputs differ by at most eight times the
drift, up to a factor of modulus close to one, which is one if the verdict is `Equivalent` and the construction checker is not used.  If the
construction checker is not used and the errors are within the budget, `EquivalentUpToGlobalPhase` is not reported for equivalent circuits,
and `NotEquivalent` not for circuits that are equivalent up to a global phase. -/
structure RMeaning (S : Inexact m n) (cfg : Configuration) (v : Criterion) : Prop where
  positive : v = .equivalent ∨ v = .equivalentUpToGlobalPhase → S.drift ≤ 1 / 10 → ∃ c : ℂ, |‖c‖ - 1| ≤ 8 * S.drift ∧
    OutputsWithinOn (S.someAnc cfg.execution.runZXChecker) (8 * S.drift) c S.qc1 S.ω1 S.qc2 S.ω2
  equivalent : v = .equivalent → ¬ Enabled cfg .construction → S.drift ≤ 1 / 10 →
    OutputsWithinOn (S.someAnc cfg.execution.runZXChecker) (8 * S.drift) 1 S.qc1 S.ω1 S.qc2 S.ω2
  phase : v = .equivalentUpToGlobalPhase → ¬ Enabled cfg .construction → S.Budget →
    ¬ Same (S.bothAnc (cfg.execution.runSimulationChecker || cfg.execution.runZXChecker)) S.qc1 S.ω1 S.qc2 S.ω2
  notEquivalent : v = .notEquivalent → ¬ Enabled cfg .construction → S.Budget →
    ¬ SameUpToPhase (S.bothAnc (cfg.execution.runSimulationChecker || cfg.execution.runZXChecker)) S.qc1 S.ω1 S.qc2 S.ω2
  never : v ≠ .equivalentUpToPhase

end QCEC.Spec
