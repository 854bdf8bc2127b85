import Verif.Props.SequentialEnd
/-!
# Symbolic flow (C49), `reset` (C20), and executions of the sequential flow that violate the properties (C12, C20)

The concrete executions at the end also show that the hypotheses of the theorems in `Verif/Props/Sequential.lean` and
`Verif/Props/SequentialEnd.lean` are met.
-/
namespace QCEC.Props
open QCEC QCEC.Mgr QCEC.Spec

/-! ## C49 -/

/-- **C49**: for circuits with free parameters only the ZX checker may decide: a run that returns reports what it returned, or
`NoInformation` if the circuits are not supported or the timeout came first. -/
theorem symbolic_verdict {env : Env} {fuel : Nat} {s s' : State} (hm : mode env s.cfg = .symbolic)
    (h : run env fuel s = some (.returned s')) :
    (env.zx = .returns s'.results.equivalence ∧ env.zxTransformable = true ∧ s'.log = [⟨.zx, s'.results.equivalence⟩]) ∨
    (s'.results.equivalence = .noInformation ∧ s'.log = [] ∧
      (env.zxTransformable = false ∨ (s.cfg.execution.timeout > 0 ∧ env.fired s'.clock = true))) := by
  have hm' : mode env s.begin.cfg = .symbolic := hm
  unfold run at h
  simp only [hm', Option.some.injEq] at h
  obtain ⟨t, ht, hr⟩ := andThen_returned h
  cases hr
  have hto : ∀ x : State, x.cfg = s.cfg → x.done = false → x.isDone env = true →
      s.cfg.execution.timeout > 0 ∧ env.fired x.clock = true := by
    intro x h1 h2 h3
    simpa [State.isDone, State.timeoutSet, h1, h2] using h3
  unfold checkSymbolic at ht
  split at ht
  · rename_i hd
    cases ht
    obtain ⟨h1, h2⟩ := hto s.begin rfl rfl hd
    exact Or.inr ⟨rfl, rfl, Or.inr ⟨h1, env.fired_mono _ _ (Nat.le_succ _) h2⟩⟩
  · simp only at ht
    split at ht
    · rename_i hz
      split at ht
      · simp at ht
      · rename_i hzx
        split at ht
        · rename_i hd
          cases ht
          obtain ⟨h1, h2⟩ := hto { s.begin.tick with checkers := s.begin.tick.checkers ++ [.zx] } rfl rfl hd
          exact Or.inr ⟨rfl, rfl, Or.inr ⟨h1, env.fired_mono _ _ (Nat.le_succ _) h2⟩⟩
        · unfold leave at ht
          split at ht <;> simp at ht
      · rename_i r hzx
        split at ht
        · rename_i hd
          cases ht
          obtain ⟨h1, h2⟩ := hto { s.begin.tick with checkers := s.begin.tick.checkers ++ [.zx] } rfl rfl hd
          exact Or.inr ⟨rfl, rfl, Or.inr ⟨h1, env.fired_mono _ _ (Nat.le_succ _) h2⟩⟩
        · cases ht
          exact Or.inl ⟨hzx, hz, rfl⟩
    · rename_i hz
      unfold leave at ht
      split at ht
      · simp at ht
      · cases ht
        exact Or.inr ⟨rfl, rfl, Or.inl (by simpa using hz)⟩

/-- **C49** (partial): without a timeout a symbolic run returns or throws the ZX checker's exception.  Missing: with a timeout
the process is terminated for unsupported circuits, see `symbolic_timeout_crash`. -/
theorem symbolic_returns_partial {env : Env} {fuel : Nat} {s : State} (hm : mode env s.cfg = .symbolic)
    (ht : ¬ s.cfg.execution.timeout > 0) (hz : env.zx ≠ .ctorThrows) :
    ∃ s', run env fuel s = some (.returned s') ∨ (run env fuel s = some (.threw s') ∧ env.zx = .runThrows) := by
  have hm' : mode env s.begin.cfg = .symbolic := hm
  have htm : s.begin.timeoutSet = false := by
    show decide (s.cfg.execution.timeout > 0) = false
    simpa using ht
  have lv : ∀ (x : State) e, x.timeoutSet = false → leave x e = e := by intro x e hx; simp [leave, hx]
  unfold run
  simp only [hm']
  unfold checkSymbolic
  split
  · exact ⟨_, Or.inl rfl⟩
  · simp only
    split
    · split
      · rename_i hc; exact absurd hc hz
      · rename_i hc
        split
        · exact ⟨_, Or.inl rfl⟩
        · rw [lv _ _ (by exact htm)]
          exact ⟨_, Or.inr ⟨rfl, hc⟩⟩
      · split <;> exact ⟨_, Or.inl rfl⟩
    · rw [lv _ _ (by exact htm)]
      exact ⟨_, Or.inl rfl⟩

/-- **C49 is false of the code with a timeout**: unsupported symbolic circuits terminate the process (the early `return` at
`EquivalenceCheckingManager.cpp:886` destroys the running timeout thread). -/
theorem symbolic_timeout_crash (env : Env) (fuel : Nat) (s : State) (hm : mode env s.cfg = .symbolic)
    (ht : s.cfg.execution.timeout > 0) (hz : env.zxTransformable = false) (hf : env.fired 0 = false) :
    run env fuel s = some .terminated := by
  have hm' : mode env s.begin.cfg = .symbolic := hm
  have htm : s.begin.timeoutSet = true := by
    show decide (s.cfg.execution.timeout > 0) = true
    simpa using ht
  unfold run
  simp only [hm']
  unfold checkSymbolic
  have hd : s.begin.isDone env = false := by
    simp [State.isDone, State.begin, hf]
  rw [hd]
  simp only [hz]
  have : s.begin.tick.timeoutSet = true := htm
  simp [leave, this, Ending.andThen]

/-! ## C20 -/

/-- **C20**: after `reset()` a run behaves exactly like the run of a fresh manager with the current configuration, whatever
happened before. -/
theorem reset_like_fresh (env : Env) (fuel : Nat) (s : State) : run env fuel s.reset = run env fuel (State.fresh s.cfg) := rfl

/-- The sequential and the symbolic flow do not change the configuration. -/
theorem run_keeps_cfg {env : Env} {fuel : Nat} {s s' : State} (h : run env fuel s = some (.returned s')) : s'.cfg = s.cfg := by
  cases hm : mode env s.cfg with
  | nothing =>
    have hm' : mode env s.begin.cfg = .nothing := hm
    unfold run at h
    simp only [hm', Option.some.injEq, Ending.returned.injEq] at h
    rw [← h]; rfl
  | empty =>
    have hm' : mode env s.begin.cfg = .empty := hm
    unfold run at h
    simp only [hm', Option.some.injEq, Ending.returned.injEq] at h
    rw [← h]; rfl
  | sequential =>
    obtain ⟨t, ht, rfl⟩ := sequential_returned hm h
    exact ht.conf
  | parallel =>
    have hm' : mode env s.begin.cfg = .parallel := hm
    unfold run at h
    simp [hm'] at h
  | symbolic =>
    have hm' : mode env s.begin.cfg = .symbolic := hm
    unfold run at h
    simp only [hm', Option.some.injEq] at h
    obtain ⟨t, ht, hr⟩ := andThen_returned h
    cases hr
    show t.cfg = s.cfg
    unfold checkSymbolic at ht
    split at ht
    · cases ht; rfl
    · simp only at ht
      split at ht
      · split at ht
        · simp at ht
        · split at ht
          · cases ht; rfl
          · unfold leave at ht; split at ht <;> simp at ht
        · split at ht <;> cases ht <;> rfl
      · unfold leave at ht
        split at ht
        · simp at ht
        · cases ht; rfl

/-- **C20**: run, reset, run again: the second run is that of a fresh manager with the original configuration, and (given the
same checker behaviour) its verdict is the first one's again. -/
theorem rerun_after_reset {env env' : Env} {fuel fuel' : Nat} {cfg : Configuration} {s1 : State}
    (h : run env fuel (State.fresh cfg) = some (.returned s1)) :
    run env' fuel' s1.reset = run env' fuel' (State.fresh cfg) := by
  rw [reset_like_fresh, run_keeps_cfg h]
  rfl

/-! ## Concrete executions -/

/-- Configuration with given checkers (one thread, optional timeout). -/
def testCfg (sim alt con zx : Bool) (maxSims : Nat) (timeout : Rat) : Configuration :=
  { execution :=
      { numericalTolerance := 0, parallel := false, nthreads := 1, timeout := timeout, runConstructionChecker := con,
        runSimulationChecker := sim, runAlternatingChecker := alt, runZXChecker := zx },
    simulation := { maxSims := maxSims } }

/-- Environment in which the timeout never fires. -/
def testEnv (sim : Nat → Option Criterion) (alt con zx : Outcome) : Env :=
  { sim := sim, alternating := alt, construction := con, zx := zx, fired := fun _ => false, fired_mono := fun _ _ _ h => h }

/-- All checkers pass. -/
def passing : Env := testEnv (fun _ => some .probablyEquivalent) (.returns .equivalent) (.returns .equivalent) (.returns .equivalent)

/-- **C12 is false of the code**: with a timeout configured, a simulation run that gives up – as it does when the timeout
interrupts it – terminates the process (`EquivalenceCheckingManager.cpp:448-454`: early `return` with a joinable thread). -/
theorem sequential_timeout_crash (alt con zx : Bool) (env : Env) (timeout : Rat) (ht : timeout > 0) (m fuel : Nat)
    (hs : env.sim 0 = some .noInformation) (hc : env.simCtorThrows = false) (hf : env.fired 0 = false)
    (he : env.bothEmpty = false) (hv : env.variableFree = true) :
    run env (fuel + 1) (State.fresh (testCfg true alt con zx (m + 1) timeout)) = some .terminated := by
  have hm : mode env (testCfg true alt con zx (m + 1) timeout) = .sequential := by
    simp [mode, testCfg, Configuration.anythingToExecute, he, hv]
  rw [run_sequential hm]
  have h1 : simLoop env (fuel + 1) 0
      { (State.fresh (testCfg true alt con zx (m + 1) timeout)).begin with
        checkers := (State.fresh (testCfg true alt con zx (m + 1) timeout)).begin.checkers ++ [.simulation] } =
      .aborted (({ (State.fresh (testCfg true alt con zx (m + 1) timeout)).begin with
        checkers := (State.fresh (testCfg true alt con zx (m + 1) timeout)).begin.checkers ++ [.simulation] } :
          State).tick.simStarted.simPerformed .noInformation) := by
    rw [simLoop, if_neg (by simp [State.simulationsFinished, State.begin, State.fresh, testCfg]),
      if_neg (by simp [State.isDone, State.begin, State.fresh, hf]), hs]
    simp
  unfold checkSequential
  simp only
  rw [if_pos (by simp [State.begin, State.fresh, testCfg]), if_neg (by simp [hc]), h1]
  simp [leave, State.timeoutSet, State.begin, State.fresh, testCfg, State.tick, State.simStarted, State.simPerformed, ht,
    Ending.andThen]

/-- Verdict with which a run returns. -/
def verdictOf : Option Ending → Option Criterion
  | some (.returned s) => some s.results.equivalence
  | _ => none

/-- State with which a run returns. -/
def stateOf : Option Ending → Option State
  | some (.returned s) => some s
  | _ => none

/-- **Running again without `reset()`**: the simulations are not repeated and the verdict is lost. -/
theorem rerun_without_reset_loses_verdict :
    verdictOf (run passing 5 (State.fresh (testCfg true false false false 3 0))) = some .probablyEquivalent ∧
    (stateOf (run passing 5 (State.fresh (testCfg true false false false 3 0)))).map
      (fun s => verdictOf (run passing 5 s)) = some (some .noInformation) := by
  refine ⟨rfl, rfl⟩

/-- **Running again with a smaller `maxSims` without `reset()`** never ends if all simulations pass: the loop waits for the
number of performed simulations to *equal* the maximum (`EquivalenceCheckingManager.hpp:351-353`). -/
theorem rerun_smaller_max_diverges (env : Env) (hpass : ∀ k, env.sim k = some .probablyEquivalent) :
    ∀ fuel k (s : State), s.cfg.simulation.maxSims < s.results.performedSimulations → s.done = false → s.timeoutSet = false →
      simLoop env fuel k s = .diverged := by
  intro fuel
  induction fuel with
  | zero => intros; rfl
  | succ n ih =>
    intro k s h hd ht
    rw [simLoop, if_neg (by simp [State.simulationsFinished]; omega), if_neg (by simp [State.isDone, hd, ht]), hpass k]
    simp only
    rw [if_neg (by simp), if_neg (by simp)]
    refine ih (k + 1) _ ?_ hd ht
    show s.cfg.simulation.maxSims < s.results.performedSimulations + 1
    omega

/-- The state after a run with three simulations, `setMaxSims(2)` and no `reset()` meets the hypotheses. -/
theorem rerun_smaller_max_hangs : ∀ fuel,
    (stateOf (run passing 5 (State.fresh (testCfg true false false false 3 0)))).map
      (fun s => run passing fuel { s with cfg := s.cfg.setMaxSims 2 } = some .diverged) = some True := by
  intro fuel
  have h : ∃ s, run passing 5 (State.fresh (testCfg true false false false 3 0)) = some (.returned s) ∧
      s.results.performedSimulations = 3 ∧ s.cfg = testCfg true false false false 3 0 := ⟨_, rfl, rfl, rfl⟩
  obtain ⟨s, hs, hp, hc⟩ := h
  rw [hs]
  simp only [stateOf, Option.map_some, Option.some.injEq, eq_iff_iff, iff_true]
  rw [run_sequential (by simp [hc, mode, testCfg, Configuration.setMaxSims, Configuration.anythingToExecute, passing, testEnv])]
  unfold checkSequential
  simp only
  rw [if_pos (by simp [State.begin, hc, Configuration.setMaxSims, testCfg]), if_neg (by simp [passing, testEnv]),
    rerun_smaller_max_diverges passing (fun _ => rfl) fuel 0 _ (by
      show 2 < s.results.performedSimulations
      omega) rfl (by simp [State.timeoutSet, State.begin, hc, Configuration.setMaxSims, testCfg])]
  rfl

/-! ### Hypotheses are met -/

/-- A run with simulations, alternating and ZX checker in which the alternating checker decides. -/
example : mode passing (testCfg true true false true 2 0) = .sequential ∧
    (stateOf (run passing 5 (State.fresh (testCfg true true false true 2 0)))).map
      (fun s => (s.log, s.results.equivalence, s.checkers)) =
      some ([⟨.simulation, .probablyEquivalent⟩, ⟨.simulation, .probablyEquivalent⟩, ⟨.alternating, .equivalent⟩],
        .equivalent, [.simulation, .alternating]) := ⟨rfl, rfl⟩

/-- Conflicting evidence. -/
example : (stateOf (run (testEnv (fun _ => some .probablyEquivalent) .ctorThrows .ctorThrows (.returns .probablyNotEquivalent)) 5
    (State.fresh (testCfg true false false true 2 1)))).map (fun s => (s.log, s.results.equivalence)) =
      some ([⟨.simulation, .probablyEquivalent⟩, ⟨.simulation, .probablyEquivalent⟩, ⟨.zx, .probablyNotEquivalent⟩],
        .noInformation) := rfl

/-- An exception of the construction checker reaches the caller. -/
example : ∃ s, run (testEnv (fun _ => some .probablyEquivalent) .ctorThrows .runThrows (.returns .equivalent)) 5
    (State.fresh (testCfg true false true true 2 0)) = some (.threw s) := ⟨_, rfl⟩

/-- The hypotheses of `sequential_returns_partial` with a timeout. -/
example : ¬ SomeCheckerFails passing (testCfg true true false true 2 1) ∧ ¬ SomeSimGivesUp passing (testCfg true true false true 2 1) ∧
    mode passing (testCfg true true false true 2 1) = .sequential ∧ CountersOk (State.fresh (testCfg true true false true 2 1)) := by
  refine ⟨?_, ?_, rfl, Nat.zero_le _⟩
  · rintro (⟨_, h | ⟨k, h⟩⟩ | ⟨_, h | h⟩ | ⟨_, h | h⟩ | ⟨_, _, h | h⟩) <;> simp [passing, testEnv] at h
  · rintro ⟨_, k, h⟩; simp [passing, testEnv] at h

/-- A symbolic run decided by the ZX checker. -/
example : (stateOf (run { passing with variableFree := false } 5 (State.fresh (testCfg true true false true 2 1)))).map
    (fun s => (s.log, s.results.equivalence)) = some ([⟨.zx, .equivalent⟩], .equivalent) := rfl

end QCEC.Props
