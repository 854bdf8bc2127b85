import Verif.Model.Manager
/-!
# Specification: how the verdicts of the checkers explain the verdict of a run

Stated about the list of completed checker runs, independent of the order in which the manager consults them.
-/
namespace QCEC.Spec
open QCEC QCEC.Mgr

/-- The checker is switched on in the configuration. -/
def Enabled (cfg : Configuration) : Kind → Prop
  | .simulation => cfg.execution.runSimulationChecker = true
  | .alternating => cfg.execution.runAlternatingChecker = true
  | .construction => cfg.execution.runConstructionChecker = true
  | .zx => cfg.execution.runZXChecker = true

/-- Verdicts that settle the question: a simulation that found a counterexample, any answer of the alternating or construction
checker, a positive answer of the ZX checker. -/
def Conclusive (e : Event) : Prop :=
  match e.kind with
  | .simulation => e.verdict = .notEquivalent
  | .alternating | .construction => e.verdict ≠ .noInformation
  | .zx => e.verdict = .equivalent ∨ e.verdict = .equivalentUpToGlobalPhase

/-- A simulation run that found no difference. -/
def Passed (e : Event) : Prop := e.kind = .simulation ∧ e.verdict ≠ .noInformation ∧ e.verdict ≠ .notEquivalent

/-- The ZX checker suspects that the circuits differ. -/
def Suspects (e : Event) : Prop := e.kind = .zx ∧ e.verdict = .probablyNotEquivalent

open Classical in
/-- The verdict that a list of completed runs justifies when none of them is conclusive. -/
noncomputable def evidence (log : List Event) : Criterion :=
  if ∃ e ∈ log, Passed e then
    if ∃ e ∈ log, Suspects e then .noInformation else .probablyEquivalent
  else if ∃ e ∈ log, Suspects e then .probablyNotEquivalent else .noInformation

/-- The reported verdict `v` is explained by the completed runs: a conclusive run determines it, otherwise the evidence does. -/
def Explained (log : List Event) (v : Criterion) : Prop :=
  (∀ e ∈ log, Conclusive e → v = e.verdict) ∧ ((∀ e ∈ log, ¬ Conclusive e) → v = evidence log)

/-- A decision-diagram check that ended without a verdict. -/
def GivesUp (e : Event) : Prop := e.kind ≠ .zx ∧ e.verdict = .noInformation

open Classical in
/-- The verdict that the handled completions of a parallel run justify when none of them is conclusive: a suspicion is
outweighed by passed simulations only once all of them are `finished`. -/
noncomputable def parEvidence (finished : Prop) (log : List Event) : Criterion :=
  if ∃ e ∈ log, Suspects e then
    if (∃ e ∈ log, Passed e) ∧ finished then .noInformation else .probablyNotEquivalent
  else if ∃ e ∈ log, Passed e then .probablyEquivalent else .noInformation

/-- The verdict `v` of a parallel run is explained by the handled completions. -/
def ParExplained (finished : Prop) (log : List Event) (v : Criterion) : Prop :=
  (∀ e ∈ log, Conclusive e → v = e.verdict) ∧ (∀ e ∈ log, GivesUp e → v = .noInformation) ∧
  ((∀ e ∈ log, ¬ Conclusive e ∧ ¬ GivesUp e) → v = parEvidence finished log)

/-- Order of the checkers in the sequential flow. -/
def rank : Kind → Nat
  | .simulation => 0
  | .alternating => 1
  | .construction => 2
  | .zx => 3

/-- The event is what the environment prescribes. -/
def FromEnv (env : Env) (e : Event) : Prop :=
  match e.kind with
  | .simulation => ∃ k, env.sim k = some e.verdict
  | .alternating => env.alternating = .returns e.verdict
  | .construction => env.construction = .returns e.verdict
  | .zx => env.zx = .returns e.verdict

/-- What a correct checker may answer about circuits that are (`eqv`) or are not equivalent up to a global phase. -/
def SoundEvent (eqv : Prop) (e : Event) : Prop :=
  match e.kind with
  | .simulation => e.verdict = .notEquivalent → ¬ eqv
  | .alternating | .construction =>
    (e.verdict = .notEquivalent → ¬ eqv) ∧
    (e.verdict = .equivalent ∨ e.verdict = .equivalentUpToGlobalPhase ∨ e.verdict = .equivalentUpToPhase → eqv)
  | .zx => e.verdict = .equivalent ∨ e.verdict = .equivalentUpToGlobalPhase → eqv

/-- A correct final verdict. -/
def SoundVerdict (eqv : Prop) (v : Criterion) : Prop :=
  (v = .notEquivalent → ¬ eqv) ∧
  (v = .equivalent ∨ v = .equivalentUpToGlobalPhase ∨ v = .equivalentUpToPhase → eqv)

end QCEC.Spec
