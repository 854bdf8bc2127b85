import Verif.Spec.DetectionParallel
import Verif.Props.StateGenWide
/-!
# Specification: random simulations with the other kinds of stimuli

Product states, random stabilizer states, and classical inputs of more than 63 qubits: the generator does not avoid repetitions there, so
with an idealised random source the stimuli are independent.
-/
namespace QCEC.Spec
open QCEC QCEC.DD QCEC.Sem QCEC.Gen QCEC.Mgr QCEC.Props MeasureTheory

variable {m n : Nat}

/-- The circuits do not agree on the stimulus. -/
def DisagreeOn (S : Setting m n) (st : Stim) : Prop :=
  ∃ x : Basis n → ℂ, Denotes S.cliff st x ∧ ¬ Agrees S.V.threshold (output S.qc1 S.ω1 x) (output S.qc2 S.ω2 x)

/-- The product stimulus that puts the data qubits into the states `l`. -/
def productStim (n : Nat) {m : Nat} (l : Fin m → Basis1) : Stim := .product (List.ofFn l ++ List.replicate (n - m) .zero)

/-- On how many of the `6^m` product stimuli the circuits do not agree. -/
noncomputable def productDisagreements (S : Setting m n) : Nat := {l : Fin m → Basis1 | DisagreeOn S (productStim n l)}.ncard

/-- For how many of the `2^64` seeds the circuits do not agree on the output of the random Clifford circuit. -/
noncomputable def stabilizerDisagreements (S : Setting m n) : Nat :=
  {seed : Fin (2 ^ 64) | DisagreeOn S (.stabilizer m seed.1 (n - m))}.ncard

/-- The `k`-th number that the source, in state `w`, delivers for a distribution on `0, …, 5`. -/
def die (R : Rng) (k : Nat) (w : R.σ) : Fin 6 := ⟨drawn R 5 k w, Nat.lt_succ_of_le (R.uniform_le 5 _)⟩

/-- The `k`-th word the engine, in state `w`, delivers. -/
def word (R : Rng) (k : Nat) (w : R.σ) : Fin (2 ^ 64) := ⟨(R.next (wordsAfter R k w)).1, R.next_lt _⟩

/-- If the state is chosen according to `μ`, the numbers from `0, …, 5` are independent and uniformly distributed. -/
def IdealDice (R : Rng) [MeasurableSpace R.σ] (μ : Measure R.σ) : Prop := IndependentUniform (fun k w => die R k w) μ

/-- If the state is chosen according to `μ`, the words are independent and uniformly distributed. -/
def IdealEngine (R : Rng) [MeasurableSpace R.σ] (μ : Measure R.σ) : Prop := IndependentUniform (fun k w => word R k w) μ

/-- The fraction of the stimuli of the configured kind on which the circuits agree. -/
noncomputable def agreement (S : Setting m n) : ENNReal :=
  match S.stateType with
  | .computationalBasis => ((2 ^ m - disagreements S : ℕ) : ENNReal) / (2 ^ m : ℕ)
  | .random1QBasis => ((6 ^ m - productDisagreements S : ℕ) : ENNReal) / (6 ^ m : ℕ)
  | .stabilizer => ((2 ^ 64 - stabilizerDisagreements S : ℕ) : ENNReal) / (2 ^ 64 : ℕ)

/-- The random source is idealised as far as the stimuli of the configured kind need it.  Classical stimuli of at most 63 qubits are excluded:
the generator does not repeat them. -/
def IdealStimuli (S : Setting m n) (R : Rng) [MeasurableSpace R.σ] (μ : Measure R.σ) : Prop :=
  match S.stateType with
  | .computationalBasis => 63 < m ∧ IdealEngine R μ
  | .random1QBasis => IdealDice R μ
  | .stabilizer => IdealEngine R μ

end QCEC.Spec
