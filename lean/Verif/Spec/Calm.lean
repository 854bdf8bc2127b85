import Verif.Model.Parallel
/-!
# Specification: parallel runs in which nobody interrupts a checker before the main thread has decided
-/
namespace QCEC.Spec
open QCEC QCEC.Mgr QCEC.Par

/-- Executions in which checkers answer as in `quiet` as long as nobody has been told to stop, and as in `env` afterwards. -/
inductive CalmSteps (env quiet : ParEnv) : PState → PState → Prop
  | refl (s : PState) : CalmSteps env quiet s s
  | tail {a b c : PState} : CalmSteps env quiet a b → Step env b c → (b.done = false → Step quiet b c) → CalmSteps env quiet a c

end QCEC.Spec
