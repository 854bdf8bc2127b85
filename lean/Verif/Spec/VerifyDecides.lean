import Verif.Spec.VerifyEndToEnd
import Verif.Spec.Calm
/-!
# Specification: a run that nobody interrupts
-/
namespace QCEC.Spec
open QCEC QCEC.Mgr QCEC.Prep QCEC.Spec.Wide QCEC.Sem QCEC.Props

/-- Ways `run()` of a manager can return if neither a timeout nor another checker interrupts a checker whose answer is still needed.  `answers true`: what
the checkers can answer if nobody tells them to stop; `answers false`: what they can answer in any case. -/
inductive CalmRuns (answers : Bool → Kind → Criterion → Prop) (cfg : Configuration) (bothEmpty : Prop) : Criterion → Prop
  | nothing (env : Env) (fuel : Nat) (s' : State) (hm : mode env cfg = .nothing) (h : run env fuel (State.fresh cfg) = some (.returned s')) :
      CalmRuns answers cfg bothEmpty s'.results.equivalence
  | empty (env : Env) (fuel : Nat) (s' : State) (he : bothEmpty) (hm : mode env cfg = .empty)
      (h : run env fuel (State.fresh cfg) = some (.returned s')) : CalmRuns answers cfg bothEmpty s'.results.equivalence
  /-- no timeout is configured -/
  | sequential (env : Env) (fuel : Nat) (s' : State) (hm : mode env cfg = .sequential) (ht : ¬ cfg.execution.timeout > 0)
      (h : run env fuel (State.fresh cfg) = some (.returned s'))
      (hans : ∀ e : Event, FromEnv env e → Enabled cfg e.kind → answers true e.kind e.verdict) : CalmRuns answers cfg bothEmpty s'.results.equivalence
  /-- any schedule; the deadline, if any, is not reached -/
  | parallel (env quiet : Par.ParEnv) (s : Par.PState) (hp : cfg.execution.parallel = true) (hq : quiet.zxTransformable = env.zxTransformable)
      (hrun : CalmSteps env quiet (Par.launch env.zxTransformable cfg {}) s) (hr : s.main = .ended .returned) (ht : s.timedOut = false)
      (hans : ∀ k c, Enabled cfg k → env.may k c → answers false k c) (hquiet : ∀ k c, Enabled cfg k → quiet.may k c → answers true k c) :
      CalmRuns answers cfg bothEmpty s.results.equivalence

/-- As `ManagerRun`, but nobody interrupts the checkers. -/
inductive CalmManagerRun (lib : Library) (c1 c2 : Circ WOp) (cfg : Configuration) (setters : List Param.Setter) (v : Criterion) : Prop
  | mk (hP : ∀ p ∈ planned cfg.optimizations true, Faithful lib.passes p)
      (M : Made WOp) (h : Prep.construct lib.acts lib.passes cfg c1 c2 = .made M) (m n : Nat) (hd : M.qc1.ndata = m) (S : Mixed m n) (e1 e2 : Nat → Fin n)
      (hn1 : Numbered e1 M.qc1 S.qc1) (hn2 : Numbered e2 M.qc2 S.qc2)
      (hsch : Follows S M.cfg) (hop : ∀ a ∈ M.qc1.ops, ∀ b ∈ M.qc2.ops, S.opEq (a.on e1) (b.on e2) = true → a = b)
      (hrun : CalmRuns (MAnswer S) (afterSetters M.cfg setters) (M.qc1.ops = [] ∧ M.qc2.ops = []) v) : CalmManagerRun lib c1 c2 cfg setters v

/-- The managers are those of QCEC, and nobody interrupts their checkers. -/
def CalmRealises (lib : Library) (imp : Param.Subject → Option (Circ WOp)) (w : Param.World) : Prop :=
  ∀ k cfg setters s1 s2 res c1 c2, cfg.functionality.checkPartialEquivalence = false → imp s1 = some c1 → imp s2 = some c2 →
    w.manager k cfg setters s1 s2 = .ok res → CalmManagerRun lib c1 c2 cfg setters res.equivalence

/-- Threads may be used, with simulations and the ZX-calculus among the checkers. -/
def ParallelWithBoth (cfg : Configuration) : Prop :=
  cfg.execution.parallel = true ∧ cfg.execution.runSimulationChecker = true ∧ cfg.execution.runZXChecker = true

end QCEC.Spec
