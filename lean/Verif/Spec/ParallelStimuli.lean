import Verif.Model.Parallel
/-!
# Specification: the stimuli of a parallel run

In the model of the parallel flow the answers of simulations are arbitrary.  Here executions are accompanied by the stimuli: whenever the
worker of a simulation gets its stimulus (`setRandomInitialState`, guarded by a mutex), it is the next one of the generator, and a simulation
that nobody interrupts answers according to its stimulus.
-/
namespace QCEC.Spec
open QCEC QCEC.Mgr QCEC.Par

/-- The simulation in slot `i` gets its stimulus. -/
def Requests (a b : PState) (i : Nat) : Prop :=
  ∃ x, a.slots[i]? = some x ∧ x.kind = .simulation ∧ x.pc = .start ∧ b = a.upd i fun y => { y with pc := .built, built := true }

/-- The simulation in slot `i` answers `c`. -/
def Answers (a b : PState) (i : Nat) (c : Criterion) : Prop :=
  ∃ x, a.slots[i]? = some x ∧ x.kind = .simulation ∧ x.pc = .running ∧ b = a.upd i fun y => { y with pc := .pushing, eq := c }

/-- `StimulatedSteps env answer s0 s σ k`: an execution from `s0` to `s` in which `k` stimuli have been requested, the latest one in slot `i`
being the one with number `σ i`, and every simulation that ran while nobody had been told to stop gave an answer to its stimulus. -/
inductive StimulatedSteps (env : ParEnv) (answer : Nat → Criterion → Prop) (s0 : PState) : PState → (Nat → Nat) → Nat → Prop
  | refl : StimulatedSteps env answer s0 s0 (fun _ => 0) 0
  | request {a b : PState} {σ : Nat → Nat} {k i : Nat} (h : StimulatedSteps env answer s0 a σ k) (hst : Step env a b)
      (hr : Requests a b i) : StimulatedSteps env answer s0 b (fun j => if j = i then k else σ j) (k + 1)
  | answered {a b : PState} {σ : Nat → Nat} {k i : Nat} {c : Criterion} (h : StimulatedSteps env answer s0 a σ k) (hst : Step env a b)
      (hr : Answers a b i c) (hc : a.done = false → answer (σ i) c) : StimulatedSteps env answer s0 b σ k
  | other {a b : PState} {σ : Nat → Nat} {k : Nat} (h : StimulatedSteps env answer s0 a σ k) (hst : Step env a b)
      (h1 : ∀ i, ¬ Requests a b i) (h2 : ∀ i c, ¬ Answers a b i c) : StimulatedSteps env answer s0 b σ k

end QCEC.Spec
