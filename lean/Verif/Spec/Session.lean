import Verif.Model.Session
/-!
# What the results of a manager should say after a history of calls

Histories list the latest call first, with the object as it was before the call.
-/
namespace QCEC.Session
open QCEC QCEC.Mgr

/-- The object at the latest `run()` since the last `reset()`. -/
def lastRun : List (Obj × Label) → Option Obj
  | [] => none
  | (o, .run _ _ _) :: _ => some o
  | (_, .reset) :: _ => none
  | _ :: t => lastRun t

/-- The time of the latest run since the last `reset()` that stored it; zero if there is none. -/
def lastStoredTime : List (Obj × Label) → Rat
  | [] => 0
  | (_, .run time .complete _) :: _ => time
  | (_, .reset) :: _ => 0
  | _ :: t => lastStoredTime t

/-- `reset()` has been called. -/
def wasReset (t : List (Obj × Label)) : Prop := ∃ x ∈ t, ∃ o, x = (o, .reset)

/-- A simulation found a counterexample. -/
def Refuted (log : List Event) : Prop := ⟨.simulation, .notEquivalent⟩ ∈ log

/-- Since the last `reset()` there was a run started with option `store` in which a simulation found a counterexample. -/
def storedBefore (store : Configuration → Bool) : List (Obj × Label) → Prop
  | [] => False
  | (o, .run _ _ log) :: t => (store o.cfg = true ∧ Refuted log) ∨ storedBefore store t
  | (_, .reset) :: _ => False
  | _ :: t => storedBefore store t

end QCEC.Session
