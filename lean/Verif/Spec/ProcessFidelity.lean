import Verif.Spec.DetectionStimuli
/-!
# Specification: how close two circuits are
-/
namespace QCEC.Spec
open QCEC QCEC.Sem

variable {m n : Nat}

/-- The classical input `x` of the first `m` qubits; the ancillary qubits are zero. -/
def dataInput (n : Nat) {m : Nat} (x : Basis m) : Basis n := fun q => if h : q.1 < m then x ⟨q.1, h⟩ else false

/-- The process fidelity of two circuits, `|tr(U†V) / 2^m|²` for their operators on the `m` data qubits: one for circuits that are the same up to a global phase. -/
noncomputable def processFidelity (m : Nat) (qc1 : QC n) (ω1 : Equiv.Perm (Fin n)) (qc2 : QC n) (ω2 : Equiv.Perm (Fin n)) : ℝ :=
  ‖(∑ x : Basis m, Spec.inner (output qc1 ω1 (basisState (dataInput n x))) (output qc2 ω2 (basisState (dataInput n x)))) / 2 ^ m‖ ^ 2

/-- The process fidelity of the circuits of a setting. -/
noncomputable def Setting.fidelity (S : Setting m n) : ℝ := processFidelity m S.qc1 S.ω1 S.qc2 S.ω2

end QCEC.Spec
