import Verif.Spec.PythonVerify
import Verif.Spec.VerifyPartialDecides
/-!
# Specification: calls with partial equivalence
-/
namespace QCEC.Spec.Py
open QCEC QCEC.Py QCEC.Prep QCEC.Spec QCEC.Spec.Wide

variable {V : Type}

/-- Somebody calls `verify` or `verify_compilation` for files or circuits without symbolic parameters, with `check_partial_equivalence`, and gets the verdict
`v`; `c1`, `c2` are the imported circuits, `cfg` the options asked for.  The call may be interrupted. -/
inductive PartlyChecked (lib : Library) (conv : Kind → V → Option FieldVal) (c1 c2 : Circ WOp) (cfg : Configuration) (v : Criterion) : Prop
  | mk (default : Configuration) (imp : Param.Subject → Option (Circ WOp)) (w : Param.World) (hw : PRealises lib imp w) (i₁ i₂ : Param.Input) (res : Param.Res)
      (h : Call conv default w i₁ i₂ cfg res) (hp : cfg.functionality.checkPartialEquivalence = true) (hs1 : ¬ Spec.Param.Symbolic i₁)
      (hs2 : ¬ Spec.Param.Symbolic i₂) (h1 : imp (.given i₁) = some c1) (h2 : imp (.given i₂) = some c2) (hv : res.equivalence = v) :
      PartlyChecked lib conv c1 c2 cfg v

/-- The same, but nobody interrupts the checkers, and the alternating or the construction checker is enabled. -/
inductive PartlyDecided (lib : Library) (conv : Kind → V → Option FieldVal) (c1 c2 : Circ WOp) (cfg : Configuration) (v : Criterion) : Prop
  | mk (default : Configuration) (imp : Param.Subject → Option (Circ WOp)) (w : Param.World) (hw : CalmPRealises lib imp w) (i₁ i₂ : Param.Input)
      (res : Param.Res) (h : Call conv default w i₁ i₂ cfg res) (hp : cfg.functionality.checkPartialEquivalence = true)
      (hs1 : ¬ Spec.Param.Symbolic i₁) (hs2 : ¬ Spec.Param.Symbolic i₂) (h1 : imp (.given i₁) = some c1) (h2 : imp (.given i₂) = some c2)
      (hen : cfg.execution.runAlternatingChecker = true ∨ cfg.execution.runConstructionChecker = true) (hv : res.equivalence = v) :
      PartlyDecided lib conv c1 c2 cfg v

/-- The circuits are reported equivalent, perhaps up to a global phase. -/
def Positive (v : Criterion) : Prop := v = .equivalent ∨ v = .equivalentUpToGlobalPhase

/-- Circuits without declared ancillary qubits that call the same qubits garbage, as far as they both have them. -/
structure Comparable (c1 c2 : Circ WOp) : Prop where
  left : ∀ q, c1.isAncillary q = false
  right : ∀ q, c2.isAncillary q = false
  garbage : SameGarbage c1 c2

end QCEC.Spec.Py
