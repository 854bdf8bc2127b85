import Verif.Spec.Rounding
import Verif.Spec.PartialEquivalence
/-!
# Specification: partial equivalence and a decision-diagram package with rounding errors

As `Spec/Rounding.lean`; in addition the package's garbage reduction and its test for the identity up to garbage qubits have errors.
-/
namespace QCEC.Spec
open QCEC QCEC.DD QCEC.Sem Matrix

variable {n : Nat}

/-- Every entry that is not zero connects basis states that agree on all qubits that are not garbage. -/
def Blocks (g : List Bool) (B : Mat n) : Prop := ∀ x y, B x y ≠ 0 → ∀ q : Fin n, g.getD q.val false = false → x q = y q

/-- `isCloseToIdentity(d, threshold, garbage, false)` with errors: it only accepts what is within `θ` of such a matrix, and accepts everything within
`θ₀` of one. -/
structure RoundedGarbageTest {D : Type} (val : D → Mat n) (θ θ₀ : ℝ) where
  closeG : List Bool → D → Bool
  closeG_sound : ∀ g d, closeG g d = true → ∃ B : Mat n, Blocks g B ∧ Stretch θ (val d - B)
  closeG_complete : ∀ g d (B : Mat n), Blocks g B → Stretch θ₀ (val d - B) → closeG g d = true

/-- `reduceGarbage` on state vectors with a relative error of at most `ε` (exactly: `Model/Garbage.lean`). -/
def RoundedGarbage {M D : Type} (b : Backend (Op n) (Equiv.Perm (Fin n)) (List (Fin n × Fin n)) M D) (val : D → Basis n → ℂ) (ε : ℝ) : Prop :=
  ∀ f r d, nrm (val (b.reduceGarbage f r d) - reduceGarbageVec f r (val d)) ≤ ε * nrm (val d)

/-- Whether the outcome of measuring all qubits belongs to `A` can be seen from the qubits that are not garbage. -/
def Observable (g : List Bool) (A : Finset (Basis n)) : Prop :=
  ∀ x y : Basis n, (∀ q : Fin n, g.getD q.val false = false → x q = y q) → (x ∈ A ↔ y ∈ A)

/-- Probability that the outcome of measuring the state `v` belongs to `A`. -/
noncomputable def likelihood (A : Finset (Basis n)) (v : Basis n → ℂ) : ℝ := ∑ x ∈ A, ‖v x‖ ^ 2

/-- Up to `e`, the circuits are partially equivalent: for every input with ancillary qubits in `|0⟩`, no event that can be seen from the qubits that are
not garbage differs in its probability by more than `e`. -/
def PartiallyWithin (e : ℝ) (g anc : List Bool) (qc1 : QC n) (ω1 : Equiv.Perm (Fin n)) (qc2 : QC n) (ω2 : Equiv.Perm (Fin n)) : Prop :=
  ∀ v : Basis n → ℂ, AncillasZero anc v → Normalised v → ∀ A, Observable g A →
    |likelihood A (output qc1 ω1 v) - likelihood A (output qc2 ω2 v)| ≤ e

/-- As `overlapError`, with one more call for the garbage reduction of each state. -/
noncomputable def reducedOverlapError (ε δ η : ℝ) (qc1 qc2 : QC n) : ℝ :=
  (1 + η) * ((1 + accumulated ε δ (cost qc1 + 1)) * (1 + accumulated ε δ (cost qc2 + 1))) - 1

end QCEC.Spec
