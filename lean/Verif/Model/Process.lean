import Verif.Model.Prepare
import Verif.Model.Setters
/-!
# Several managers in one process

Managers are independent objects, except for the tolerance below which the decision-diagram package identifies numbers: it is a static member of the
package (`dd::ComplexNumbers::setTolerance`), written by `EquivalenceCheckingManager::setTolerance`
(`include/EquivalenceCheckingManager.hpp:119-122`), which the constructor calls (`src/EquivalenceCheckingManager.cpp:363`).  `run()` never writes it.
-/
namespace QCEC.Proc
open QCEC QCEC.Prep

/-- The managers, in the order of their construction, with their configurations, and the tolerance of the package (`include/EquivalenceCheckingManager.hpp:119-122,255`). -/
structure Process where
  tolerance : Rat
  managers : List Configuration := []

/-- Calls of a program that uses QCEC, one after another; managers are numbered in the order of their construction.  Simplification: the calls that rewrite
circuits (`fuseSingleQubitGates`, ...) and `reset` are left out, they touch neither tolerance nor the options a setter writes (`include/EquivalenceCheckingManager.hpp:98-249`). -/
inductive Call (α : Type)
  /-- `EquivalenceCheckingManager(circ1, circ2, config)`, `src/EquivalenceCheckingManager.cpp:354-410` -/
  | construct (cfg : Configuration) (qc1 qc2 : Circ α)
  /-- a setter of manager `i`, `include/EquivalenceCheckingManager.hpp:119-249` -/
  | set (i : Nat) (s : Setter)
  /-- `run()` of manager `i`, `src/EquivalenceCheckingManager.cpp:293-352` -/
  | run (i : Nat)

/-- What a setter does to the package, `include/EquivalenceCheckingManager.hpp:119-122`: only `setTolerance` does something. -/
def Setter.onPackage (tol : Rat) : Setter → Rat
  | .tolerance t => t
  | _ => tol

/-- The effect of a call.  `none`: undefined behaviour (C33), or a call of a manager that does not exist.  The constructor sets the tolerance before
anything in it can throw (`src/EquivalenceCheckingManager.cpp:362-368`). -/
def step {α : Type} (acts : α → Nat → Bool) (P : Passes (Circ α)) (p : Process) : Call α → Option Process
  | .construct cfg qc1 qc2 =>
    match Prep.construct acts P cfg qc1 qc2 with
    | .made m => some { tolerance := cfg.execution.numericalTolerance, managers := p.managers ++ [m.cfg] }
    | .threw _ => some { p with tolerance := cfg.execution.numericalTolerance }
    | .undefined => none
  | .set i s =>
    match p.managers[i]? with
    | some c => some { tolerance := Setter.onPackage p.tolerance s, managers := p.managers.set i (s.apply c) }
    | none => none
  | .run i =>
    match p.managers[i]? with
    | some _ => some p
    | none => none

/-- A program (calls of `include/EquivalenceCheckingManager.hpp:98-249`). -/
def exec {α : Type} (acts : α → Nat → Bool) (P : Passes (Circ α)) : Process → List (Call α) → Option Process
  | p, [] => some p
  | p, c :: l => match step acts P p c with
    | some p' => exec acts P p' l
    | none => none

end QCEC.Proc
