import Verif.Model.Process
/-!
# Specification: whose tolerance is in force
-/
namespace QCEC.Spec.Proc
open QCEC QCEC.Prep QCEC.Proc

/-- The tolerance a call asks for: that of a configuration with which a manager is constructed, or the argument of `set_tolerance`. -/
def asked {α : Type} : Call α → Option Rat
  | .construct cfg _ _ => some cfg.execution.numericalTolerance
  | .set _ (.tolerance t) => some t
  | _ => none

/-- The last tolerance asked for, by whomever. -/
def lastAsked {α : Type} (l : List (Call α)) : Option Rat := l.reverse.findSome? asked

/-- The call does not ask for a tolerance, except on behalf of manager `i`. -/
def OnlyFor {α : Type} (i : Nat) : Call α → Prop
  | .construct _ _ _ => False
  | .set j (.tolerance _) => j = i
  | _ => True

/-- The setters called for manager `i`, in order. -/
def settersOf {α : Type} (i : Nat) : List (Call α) → List Setter
  | [] => []
  | .set j s :: l => if j = i then s :: settersOf i l else settersOf i l
  | _ :: l => settersOf i l

end QCEC.Spec.Proc
