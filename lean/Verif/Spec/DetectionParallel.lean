import Verif.Spec.Detection
import Verif.Spec.ParallelStimuli
/-!
# Specification: random simulations in a parallel run
-/
namespace QCEC.Spec
open QCEC QCEC.DD QCEC.Sem QCEC.Gen QCEC.Mgr QCEC.Par QCEC.Props

variable {m n : Nat}

/-- A simulation that nobody interrupts answers `c` on the stimulus with number `j` among `sts`. -/
def StimulusAnswer (S : Setting m n) (sts : List Stim) (j : Nat) (c : Criterion) : Prop :=
  ∃ (st : Stim) (x : Basis n → ℂ) (prev : Criterion) (fuel : Nat) (s : _),
    sts[j]? = some st ∧ Denotes S.cliff st x ∧ S.qc1.ops.length + S.qc2.ops.length + 2 ≤ fuel ∧
    runTwo (exactVector n S.garbV) S.schS false (equalsVector S.V.ptrEq S.V.wEq S.V.realClose S.V.fidClose) (fun _ => false) prev
      S.qc1 S.qc2 x x fuel = .ok (c, s)

/-- A parallel run – with any schedule of the threads – with `K` simulations that returned without having run into a timeout, of a manager
that is new or was `reset()`.  Its stimuli come from the generator `g`.  Other checkers may be configured. -/
structure ParallelRunWith (S : Setting m n) (K : Nat) (R : Rng) (g : Generator R) (env : ParEnv) (cfg : Configuration) (res : Results)
    (s : PState) : Prop where
  started : res.startedSimulations = 0
  performed : res.performedSimulations = 0
  sims : cfg.simulation.maxSims = K
  returned : s.main = .ended .returned
  notime : s.timedOut = false
  stimuli : ∃ (σ : Nat → Nat) (k : Nat) (sts : List Stim) (g' : Generator R),
    History g (List.replicate k (.request (checkerReq n m S.stateType))) sts g' ∧
    StimulatedSteps env (StimulusAnswer S sts) (launch env.zxTransformable cfg res) s σ k

/-- Only simulations are configured. -/
def NothingElse (cfg : Configuration) : Prop := Enabled cfg .simulation ∧ ∀ k, Enabled cfg k → k = .simulation

end QCEC.Spec
