import Verif.Model.Sem
import Mathlib.Analysis.SpecialFunctions.Pow.Real
/-!
# The package's garbage reduction in exact arithmetic

`Package::reduceGarbage` is external code (mqt-core); QCEC calls it with `normalizeWeights = true` (`TaskManager.hpp:126-138`).  With
that flag every entry is replaced by its magnitude, and for every garbage qubit the two entries that differ in that qubit are combined
by `addMagnitudes`, i.e. `sqrt (|a|² + |b|²)`, into the entry where the qubit is `0`; the entry where it is `1` becomes zero.  The
definitions give the result of doing this for all garbage qubits (the combination of magnitudes is associative).
-/
namespace QCEC.Sem
open QCEC QCEC.DD

variable {n : Nat}

/-- The two states agree on all qubits that are not garbage (for the call in `include/checker/dd/TaskManager.hpp:126-137`). -/
def Agree (g : List Bool) (x k : Basis n) : Prop := ∀ q : Fin n, g.getD q.val false = false → x q = k q

/-- `Agree` is decidable (used for `include/checker/dd/TaskManager.hpp:126-137`). -/
instance (g : List Bool) (x k : Basis n) : Decidable (Agree g x k) := by unfold Agree; infer_instance

/-- All garbage qubits are `0` (for the call in `include/checker/dd/TaskManager.hpp:126-137`). -/
def GarbageZero (g : List Bool) (x : Basis n) : Prop := ∀ q : Fin n, g.getD q.val false = true → x q = false

/-- `GarbageZero` is decidable (used for `include/checker/dd/TaskManager.hpp:126-137`). -/
instance (g : List Bool) (x : Basis n) : Decidable (GarbageZero g x) := by unfold GarbageZero; infer_instance

/-- Combined magnitude of the entries whose kept qubits are those of `k` (for the call in `include/checker/dd/TaskManager.hpp:126-137`). -/
noncomputable def combined (g : List Bool) (v : Basis n → ℂ) (k : Basis n) : ℝ :=
  Real.sqrt (∑ z : Basis n, if Agree g z k then ‖v z‖ ^ 2 else 0)

/-- `reduceGarbage` on vectors, called in `TaskManager.hpp:131-132`. -/
noncomputable def reduceGarbageVec (g : List Bool) (_regular : Bool) (v : Basis n → ℂ) : Basis n → ℂ := fun x =>
  if GarbageZero g x then (combined g v x : ℂ) else 0

/-- `reduceGarbage` on matrices, called in `TaskManager.hpp:133-136`: rows are combined if `regular`, columns otherwise. -/
noncomputable def reduceGarbageMat (g : List Bool) (regular : Bool) (d : Mat n) : Mat n := fun x y =>
  if regular then reduceGarbageVec g regular (fun z => d z y) x else reduceGarbageVec g regular (fun z => d x z) y

end QCEC.Sem
