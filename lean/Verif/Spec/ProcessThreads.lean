import Verif.Model.ProcessThreads
import Verif.Spec.Process
/-!
# Specification: whose tolerance is in force while a manager runs
-/
namespace QCEC.Spec.Proc
open QCEC QCEC.Prep QCEC.Proc

/-- Some thread is running a manager, and the tolerance in force is not the one of its configuration. -/
def ForeignRun {α : Type} (s : Threads α) : Prop :=
  ∃ th ∈ s.threads, ∃ i g, th.running = some i ∧ s.proc.managers[i]? = some g ∧ s.proc.tolerance ≠ g.execution.numericalTolerance

/-- The program asks for no other tolerance than `τ`. -/
def AsksOnly {α : Type} (τ : Rat) (l : List (Call α)) : Prop := ∀ c ∈ l, ∀ t, asked c = some t → t = τ

/-- At most one thread is running a manager. -/
def OneAtATime {α : Type} (s : Threads α) : Prop :=
  ∀ (t t' : Nat) (th th' : Thread α), s.threads[t]? = some th → s.threads[t']? = some th' → th.running ≠ none → th'.running ≠ none → t = t'

end QCEC.Spec.Proc
