import Verif.Model.Timeout
/-!
# Lemmas about the flow with its timeout thread
-/
namespace QCEC.Tmo
open QCEC QCEC.Mgr

/-- What the program does when `fired n` tells whether the timeout thread has set `done` before the `n`-th read. -/
def Prog.eval (tset : Bool) (fired : Nat → Bool) : Prog → Nat → Bool → Ending
  | .join s, _, _ => .returned s
  | .leave _ e, _, _ => if tset then .terminated else e
  | .stuck e, _, _ => e
  | .readDone k, n, md => (k (md || (tset && fired n))).eval tset fired (n + 1) md
  | .emplace k, n, md => k.eval tset fired n md
  | .check k, n, md => k.eval tset fired n md
  | .setDone k, n, _ => k.eval tset fired n true
  | .notify k, n, md => k.eval tset fired n md
  | .clear k, n, md => k.eval tset fired n md

/-- Replace the timeout instant. -/
def withFired (env : Env) (fired : Nat → Bool) (hm : ∀ i j, i ≤ j → fired i = true → fired j = true) : Env :=
  { env with fired := fired, fired_mono := hm }

section eval
variable (env : Env) (fired : Nat → Bool) (hm : ∀ i j, i ≤ j → fired i = true → fired j = true)

/-- The stages' own treatment of an exception that leaves the function. -/
def done? (e : Ending) : Ending := match e with
  | .threw s => leave s (.threw s)
  | e => e

theorem leave_eq (s : State) (e : Ending) : leave s e = if s.timeoutSet then .terminated else e := rfl

theorem eval_zxProg (s : State) :
    (zxProg env s).eval s.timeoutSet fired s.clock s.done = done? (zxStage (withFired env fired hm) s) := by
  unfold zxProg zxStage
  have i1 : s.isDone (withFired env fired hm) = (s.done || (s.timeoutSet && fired s.clock)) := rfl
  have i2 : ({ s.tick with checkers := s.tick.checkers ++ [Kind.zx] } : State).isDone (withFired env fired hm)
      = (s.done || (s.timeoutSet && fired (s.clock + 1))) := rfl
  have i3 : ({ s.tick with checkers := s.tick.checkers ++ [Kind.zx] } : State).tick.timeoutSet = s.timeoutSet := rfl
  have e1 : (withFired env fired hm).zxTransformable = env.zxTransformable := rfl
  have e2 : (withFired env fired hm).zx = env.zx := rfl
  have e3 : s.tick.cfg = s.cfg := rfl
  by_cases h1 : s.cfg.execution.runZXChecker = true
  · simp only [h1, Bool.not_true, Bool.false_eq_true, if_false, Prog.eval, i1, e1, e2]
    cases hd : (s.done || (s.timeoutSet && fired s.clock))
    · simp only [Bool.false_eq_true, if_false]
      by_cases hz : env.zxTransformable = true
      · simp only [hz, if_true]
        cases hd2 : (s.done || (s.timeoutSet && fired (s.clock + 1)))
        · cases env.zx <;> simp only [Prog.eval, signal, done?, i2, hd2, if_false, Bool.false_eq_true, leave_eq, i3]
        · cases env.zx <;> simp only [Prog.eval, i2, hd2, if_true, done?]
      · simp only [hz, if_false, e3, Bool.false_eq_true]
        by_cases ho : s.cfg.onlyZXCheckerConfigured = true
        · simp only [ho, if_true, Prog.eval, done?]
        · simp only [ho, if_false, Bool.false_eq_true, Prog.eval, done?]
    · simp only [if_true, Prog.eval, done?]
  · simp only [h1, Bool.not_false, if_true, Prog.eval, done?]

theorem eval_definitiveProg (kind : Kind) (enabled : Bool) (o : Outcome) (next : State → Prog) (f : State → Ending) (tset : Bool)
    (hn : ∀ s : State, s.timeoutSet = tset → (next s).eval tset fired s.clock s.done = done? (f s))
    (s : State) (hs : s.timeoutSet = tset) :
    (definitiveProg kind enabled o next s).eval tset fired s.clock s.done =
      done? ((definitiveStage (withFired env fired hm) kind enabled o s).andThen f) := by
  subst hs
  unfold definitiveProg definitiveStage
  have i1 : s.isDone (withFired env fired hm) = (s.done || (s.timeoutSet && fired s.clock)) := rfl
  have i2 : ({ s.tick with checkers := s.tick.checkers ++ [kind] } : State).isDone (withFired env fired hm)
      = (s.done || (s.timeoutSet && fired (s.clock + 1))) := rfl
  have i3 : ({ s.tick with checkers := s.tick.checkers ++ [kind] } : State).tick.timeoutSet = s.timeoutSet := rfl
  have i4 : s.tick.timeoutSet = s.timeoutSet := rfl
  cases enabled
  · simpa [Ending.andThen] using hn s rfl
  · simp only [Bool.not_true, Bool.false_eq_true, if_false, Prog.eval, i1]
    cases hd : (s.done || (s.timeoutSet && fired s.clock))
    · simp only [Bool.false_eq_true, if_false]
      cases o with
      | ctorThrows => simp only [Prog.eval, Ending.andThen, done?, leave_eq, i4]
      | runThrows =>
        simp only [Prog.eval, i2]
        cases hd2 : (s.done || (s.timeoutSet && fired (s.clock + 1)))
        · simp only [if_false, Bool.false_eq_true, Prog.eval, Ending.andThen, done?, leave_eq, i3]
        · simp only [if_true, Ending.andThen]
          exact hn ({ s.tick with checkers := s.tick.checkers ++ [kind] } : State).tick rfl
      | returns r =>
        simp only [Prog.eval, i2]
        cases hd2 : (s.done || (s.timeoutSet && fired (s.clock + 1)))
        · simp only [if_false, Bool.false_eq_true, Prog.eval]
          by_cases hr : r = .noInformation
          · subst hr
            simp only [ne_eq, not_true_eq_false, if_false, Ending.andThen]
            exact hn (({ s.tick with checkers := s.tick.checkers ++ [kind] } : State).tick.record kind .noInformation) rfl
          · simp only [ne_eq, hr, not_false_eq_true, if_true, signal, Prog.eval, Ending.andThen]
            exact hn { (({ s.tick with checkers := s.tick.checkers ++ [kind] } : State).tick.record kind r).setEq r with
              done := true } rfl
        · simp only [if_true, Ending.andThen]
          exact hn ({ s.tick with checkers := s.tick.checkers ++ [kind] } : State).tick rfl
    · simp only [if_true, Ending.andThen]
      exact hn s.tick rfl

theorem andThen_assoc (e : Ending) (f g : State → Ending) : (e.andThen f).andThen g = e.andThen fun s => (f s).andThen g := by
  cases e <;> rfl

theorem eval_stagesProg (s : State) :
    (stagesProg env s).eval s.timeoutSet fired s.clock s.done = done? (stages (withFired env fired hm) s) := by
  unfold stagesProg stages
  rw [andThen_assoc]
  refine eval_definitiveProg env fired hm _ _ _ _ _ _ (fun s' hs' => ?_) s rfl
  refine eval_definitiveProg env fired hm _ _ _ _ _ _ (fun s'' hs'' => ?_) s' hs'
  rw [← hs'']
  exact eval_zxProg env fired hm s''

theorem eval_afterSims (s : State) :
    (afterSimsProg (stagesProg env) s).eval s.timeoutSet fired s.clock s.done = done? (stages (withFired env fired hm) (afterSims s)) := by
  unfold afterSimsProg afterSims
  have second : ∀ s : State,
      (if s.cfg.onlySimulationCheckerConfigured && s.simulationsFinished then signal (stagesProg env { s with done := true })
        else stagesProg env s : Prog).eval s.timeoutSet fired s.clock s.done
      = done? (stages (withFired env fired hm) s.simsOnlyDone) := by
    intro s
    unfold State.simsOnlyDone
    by_cases h : (s.cfg.onlySimulationCheckerConfigured && s.simulationsFinished) = true
    · simp only [h, if_true, signal, Prog.eval, Bool.or_true]
      exact eval_stagesProg env fired hm { s with done := true }
    · simp only [h, if_false, Bool.false_eq_true, Bool.or_false]
      exact eval_stagesProg env fired hm s
  by_cases hn : s.results.equivalence = .notEquivalent
  · simp only [hn, if_true, signal, Prog.eval]
    exact second s.storeCex
  · simp only [hn, if_false]
    exact second s

theorem eval_simProg (tset : Bool) : ∀ (fuel k : Nat) (s : State), s.timeoutSet = tset →
    (simProg env (afterSimsProg (stagesProg env)) fuel k s).eval tset fired s.clock s.done =
      match simLoop (withFired env fired hm) fuel k s with
      | .diverged => .diverged
      | .threw s => leave s (.threw s)
      | .aborted s => leave s (.returned s)
      | .finished s => done? (stages (withFired env fired hm) (afterSims s)) := by
  intro fuel
  induction fuel with
  | zero => intro k s hs; rfl
  | succ fuel ih =>
    intro k s hs
    subst hs
    unfold simProg simLoop
    by_cases hf : s.simulationsFinished = true
    · simp only [hf, if_true]
      exact eval_afterSims env fired hm s
    · have i1 : s.isDone (withFired env fired hm) = (s.done || (s.timeoutSet && fired s.clock)) := rfl
      have e1 : (withFired env fired hm).sim = env.sim := rfl
      simp only [hf, if_false, Bool.false_eq_true, Prog.eval, i1, e1]
      cases hd : (s.done || (s.timeoutSet && fired s.clock))
      · simp only [if_false, Bool.false_eq_true, Prog.eval]
        cases hsim : env.sim k with
        | none =>
          have i2 : s.tick.simStarted.timeoutSet = s.timeoutSet := rfl
          simp only [Prog.eval, leave_eq, i2]
        | some r =>
          by_cases h1 : r = .noInformation
          · subst h1
            have i2 : (s.tick.simStarted.simPerformed .noInformation).timeoutSet = s.timeoutSet := rfl
            simp only [if_true, Prog.eval, leave_eq, i2]
          · simp only [h1, if_false]
            by_cases h2 : r = .notEquivalent
            · subst h2
              simp only [if_true]
              exact eval_afterSims env fired hm ((s.tick.simStarted.simPerformed .notEquivalent).setEq .notEquivalent)
            · simp only [h2, if_false]
              exact ih (k + 1) ((s.tick.simStarted.simPerformed r).setEq .probablyEquivalent) rfl
      · simp only [if_true]
        exact eval_afterSims env fired hm s.tick

/-- The program of the sequential flow does what `checkSequential` says. -/
theorem eval_seqProg (fuel : Nat) (s : State) :
    (seqProg env fuel s).eval s.timeoutSet fired s.clock s.done = checkSequential (withFired env fired hm) fuel s := by
  unfold seqProg checkSequential
  by_cases h1 : s.cfg.execution.runSimulationChecker = true
  · simp only [h1, if_true]
    by_cases h2 : env.simCtorThrows = true
    · have h2' : (withFired env fired hm).simCtorThrows = true := h2
      simp only [h2, h2', if_true, Prog.eval, leave]
    · have h2' : ¬ (withFired env fired hm).simCtorThrows = true := h2
      simp only [h2, h2', if_false, Bool.false_eq_true, Prog.eval]
      rw [eval_simProg env fired hm s.timeoutSet fuel 0 { s with checkers := s.checkers ++ [.simulation] } rfl]
      cases simLoop (withFired env fired hm) fuel 0 { s with checkers := s.checkers ++ [.simulation] } with
      | finished s' => simp only []; cases stages (withFired env fired hm) (afterSims s') <;> rfl
      | _ => rfl
  · simp only [h1, if_false, Bool.false_eq_true]
    rw [eval_stagesProg env fired hm s]
    cases stages (withFired env fired hm) s <;> rfl

/-- The program of the symbolic flow does what `checkSymbolic` says. -/
theorem eval_symProg (s : State) :
    (symProg env s).eval s.timeoutSet fired s.clock s.done = checkSymbolic (withFired env fired hm) s := by
  unfold symProg checkSymbolic
  have i1 : s.isDone (withFired env fired hm) = (s.done || (s.timeoutSet && fired s.clock)) := rfl
  have i2 : ({ s.tick with checkers := s.tick.checkers ++ [Kind.zx] } : State).isDone (withFired env fired hm)
      = (s.done || (s.timeoutSet && fired (s.clock + 1))) := rfl
  have i3 : ({ s.tick with checkers := s.tick.checkers ++ [Kind.zx] } : State).timeoutSet = s.timeoutSet := rfl
  have i4 : s.tick.timeoutSet = s.timeoutSet := rfl
  have e1 : (withFired env fired hm).zxTransformable = env.zxTransformable := rfl
  have e2 : (withFired env fired hm).zx = env.zx := rfl
  simp only [Prog.eval, i1, e1, e2]
  cases hd : (s.done || (s.timeoutSet && fired s.clock))
  · simp only [if_false, Bool.false_eq_true]
    by_cases hz : env.zxTransformable = true
    · simp only [hz, if_true]
      cases hd2 : (s.done || (s.timeoutSet && fired (s.clock + 1)))
      · cases env.zx <;> simp only [Prog.eval, signal, i2, hd2, if_false, Bool.false_eq_true, leave_eq, i3]
      · cases env.zx <;> simp only [Prog.eval, i2, hd2, if_true]
    · simp only [hz, if_false, Bool.false_eq_true, Prog.eval, leave_eq, i4]
  · simp only [if_true, Prog.eval]
end eval
end QCEC.Tmo
