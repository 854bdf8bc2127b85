import Verif.Spec.Functionality
import Verif.Model.Garbage
/-!
# Specification: partial equivalence

As documented for `check_partial_equivalence` (`src/python/bindings.cpp:670-684`): "Two circuits are partially equivalent if, for each
possible initial input state, they have the same probability for each measurement outcome", where garbage qubits are not measured.
-/
namespace QCEC.Spec
open QCEC QCEC.DD QCEC.Sem Matrix

variable {n : Nat}

/-- Probability that measuring the qubits that are not flagged as garbage yields the values they have in `k`. -/
noncomputable def prob (g : List Bool) (v : Basis n → ℂ) (k : Basis n) : ℝ :=
  ∑ x : Basis n, if ∀ q : Fin n, g.getD q.val false = false → x q = k q then ‖v x‖ ^ 2 else 0

/-- Partial equivalence: for every input state with ancillary qubits in `|0⟩` all measurement outcomes of the qubits that are not garbage
have the same probability. -/
def PartiallyEquivalent (g anc : List Bool) (qc1 : QC n) (ω1 : Equiv.Perm (Fin n)) (qc2 : QC n) (ω2 : Equiv.Perm (Fin n)) : Prop :=
  ∀ v : Basis n → ℂ, AncillasZero anc v → ∀ k, prob g (output qc1 ω1 v) k = prob g (output qc2 ω2 v) k

/-- The basis state `y`. -/
noncomputable def ket (y : Basis n) : Basis n → ℂ := fun x => if x = y then 1 else 0

/-- The distribution over all `n` qubits in which garbage qubits are reported as `0`. -/
noncomputable def reported (g : List Bool) (v : Basis n → ℂ) (k : Basis n) : ℝ :=
  if ∀ q : Fin n, g.getD q.val false = true → k q = false then prob g v k else 0

/-- The circuits, each with its own garbage qubits reported as `0`, have the same outcome probabilities on every *basis* state whose
ancillary qubits are `0`. -/
def BasisEquivalent (anc g1 g2 : List Bool) (qc1 : QC n) (ω1 : Equiv.Perm (Fin n)) (qc2 : QC n) (ω2 : Equiv.Perm (Fin n)) : Prop :=
  ∀ y : Basis n, AncillasZero anc (ket y) → ∀ k, reported g1 (output qc1 ω1 (ket y)) k = reported g2 (output qc2 ω2 (ket y)) k

/-- Exact behaviour assumed of `isCloseToIdentity(d, threshold, garbage, false)`: every non-zero entry connects basis states that agree on
all qubits that are not garbage. -/
structure GarbageTest (n : Nat) where
  closeG : List Bool → Mat n → Bool
  closeG_iff : ∀ g d, closeG g d = true ↔ ∀ x y, d x y ≠ 0 → ∀ q : Fin n, g.getD q.val false = false → x q = y q

end QCEC.Spec
