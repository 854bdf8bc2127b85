import Verif.Props.EndToEnd
/-!
# C61: parallel runs that decide the question
-/
namespace QCEC.Props
open QCEC QCEC.DD QCEC.Sem QCEC.Gen QCEC.ZX QCEC.Spec QCEC.Spec.ZX QCEC.Mgr QCEC.Prep QCEC.Par Matrix

variable {m n : Nat}

/-- **C61** (parallel): without the simulations or without the ZX checker there is no exception: the verdict is the right one. -/
theorem parallel_verdict_decides_pair (S : Setting m n) {env quiet : ParEnv} {cfg : Configuration} {res : Results} {s : PState}
    (hq : quiet.zxTransformable = env.zxTransformable) (hrun : CalmSteps env quiet (launch env.zxTransformable cfg res) s)
    (hr : s.main = .ended .returned) (ht : s.timedOut = false) (hen : Enabled cfg .alternating ∨ Enabled cfg .construction)
    (hpair : ¬ Enabled cfg .simulation ∨ ¬ Enabled cfg .zx) (hans : ∀ k c, Enabled cfg k → quiet.may k c → Answer S true k c) :
    Correct s.results.equivalence (flags m n) S.qc1 S.ω1 S.qc2 S.ω2 := by
  rcases parallel_verdict_decides S hq hrun hr ht hen hans with h | ⟨_, ⟨e1, h1, k1⟩, ⟨e2, h2, k2⟩, _⟩
  · exact h
  · exfalso
    have hz := adjust_zx S hans
    obtain ⟨s1, hs1, _, hl, _, _, _, _⟩ := CalmSteps.quiet (env := adjust cfg env) (quiet := adjust cfg quiet) hq (adjust_calm hrun)
    have hv := reachable_vinv hz.never hs1
    have hb := reachable_base hs1
    have en : ∀ e ∈ s.log, Enabled cfg e.kind := by
      intro e he
      rw [← hl] at he
      have := (hv.prov e he).2
      rw [hb.conf] at this
      exact enabled_of_launch this
    rcases hpair with h | h
    · exact h (k2.1 ▸ en e2 h2)
    · exact h (k1.1 ▸ en e1 h1)

/-- What `quiet` allows, `env` allows. -/
structure Below (quiet env : ParEnv) : Prop where
  may : ∀ k c, quiet.may k c → env.may k c
  ctor : ∀ k, quiet.ctorMayThrow k → env.ctorMayThrow k
  run : ∀ k, quiet.runMayThrow k → env.runMayThrow k

theorem Below.step {quiet env : ParEnv} (h : Below quiet env) {a b : PState} (hst : Step quiet a b) : Step env a b := by
  cases hst with
  | construct i x hx hp hm => exact .construct a i x hx hp hm
  | constructThrows i x hx hp hb ht hz hm => exact .constructThrows a i x hx hp hb (h.ctor _ ht) hz hm
  | constructTerminates i x hx hp hb ht hz hm => exact .constructTerminates a i x hx hp hb (h.ctor _ ht) hz hm
  | stimulusThrows i x hx hp hk ht hm => exact .stimulusThrows a i x hx hp hk (h.run _ ht) hm
  | begin i x hx hp hd hm => exact .begin a i x hx hp hd hm
  | skip i x hx hp hd hm => exact .skip a i x hx hp hd hm
  | runReturns i x c hx hp hc hm => exact .runReturns a i x c hx hp (h.may _ _ hc) hm
  | runThrows i x hx hp ht hm => exact .runThrows a i x hx hp (h.run _ ht) hm
  | push i x hx hp hm => exact .push a i x hx hp hm
  | pop i x q hm hq hx hf => exact .pop a i x q hm hq hx hf
  | popThrows i x q hm hq hx hf => exact .popThrows a i x q hm hq hx hf
  | timeout hm ht => exact .timeout a hm ht
  | signal i x hm hx => exact .signal a i x hm hx
  | signalledAll i hm hi => exact .signalledAll a i hm hi
  | join hm hf => exact .join a hm hf
  | unwind hm hf => exact .unwind a hm hf

/-- **C61** (parallel): such a run does return: with at least as many threads as checkers other than simulations, no exception, no
timeout, a fresh manager, and checkers that answer, an execution that cannot be continued has returned – and by `parallel_finite` every
execution gets there. -/
theorem parallel_decided_returns (S : Setting m n) {env quiet : ParEnv} {cfg : Configuration} {res : Results} {s : PState}
    (hq : quiet.zxTransformable = env.zxTransformable) (hle : Below quiet env)
    (hrun : CalmSteps env quiet (launch env.zxTransformable cfg res) s)
    (hstuck : ∀ s', Step env s s' → ¬ (s.done = false → Step quiet s s'))
    (hen : Enabled cfg .alternating ∨ Enabled cfg .construction) (hthreads : 1 < cfg.execution.nthreads)
    (hslots : (definitiveKinds env.zxTransformable cfg).length ≤ cfg.execution.nthreads)
    (hfresh : res.startedSimulations = 0 ∧ res.performedSimulations = 0)
    (hno : ¬ cfg.execution.timeout > 0) (hthrow : ∀ k, ¬ env.ctorMayThrow k ∧ ¬ env.runMayThrow k)
    (hends : ∀ k, Enabled cfg k → ∃ c, quiet.may k c) (hans : ∀ k c, Enabled cfg k → quiet.may k c → Answer S true k c) (hans' : ∀ k c, Enabled cfg k → env.may k c → Answer S false k c) :
    s.main = .ended .returned ∧ s.timedOut = false := by
  have hz' := adjust_zx S hans'
  have hz := adjust_zx S hans
  have hreach : Reachable env cfg res s := hrun.steps
  have hen' := slots_enabled (reachable_base hreach)
  have hreach' := adjust_reachable hreach
  have hrun' := adjust_calm hrun
  have hends' : RunsEnd (adjust cfg quiet) := by
    intro k
    by_cases hk : Enabled cfg k
    · obtain ⟨c, hc⟩ := hends k hk
      exact ⟨c, (adjust_may hk c).mpr hc⟩
    · exact ⟨.noInformation, Or.inr ⟨hk, rfl⟩⟩
  have hp : ParCfg cfg := by
    refine ⟨?_, hthreads⟩
    unfold Configuration.anythingToExecute
    rcases hen with h | h <;> (simp only [Enabled] at h; simp [h])
  have hsafe : cfg.execution.timeout > 0 ∨ cfg.execution.runAlternatingChecker = true ∨
      cfg.execution.runConstructionChecker = true ∨ cfg.execution.runZXChecker = false ∨ cfg.execution.runSimulationChecker = false := by
    rcases hen with h | h
    · exact Or.inr (Or.inl h)
    · exact Or.inr (Or.inr (Or.inl h))
  have hend : ∃ e, s.main = .ended e := by
    cases hd : s.done with
    | true =>
      refine parallel_terminates_partial hp hz' (fun k => ?_) hfresh.1 hfresh.2 hreach'
        (fun s' hs' => hstuck s' ((adjust_step hen').mp hs') (by simp [hd])) hsafe
      obtain ⟨c, hc⟩ := hends' k
      exact ⟨c, hc.imp (fun h => ⟨h.1, hle.may _ _ h.2⟩) id⟩
    | false =>
      obtain ⟨s1, hs1, _, _, _, _, _, he⟩ := CalmSteps.quiet (env := adjust cfg env) (quiet := adjust cfg quiet) hq hrun'
      rw [he hd] at hs1
      exact parallel_terminates_partial hp hz hends' hfresh.1 hfresh.2 hs1
        (fun s' hs' => hstuck s' (hle.step ((adjust_step hen').mp hs')) fun _ => (adjust_step hen').mp hs') hsafe
  obtain ⟨e, he⟩ := hend
  have hnc := parallel_no_crash_partial hreach hslots fun k => (hthrow k).1
  have hx := (parallel_exceptions hreach).1
  refine ⟨?_, ?_⟩
  · cases e with
    | returned => exact he
    | threw =>
      obtain ⟨x, _, _, h | h⟩ := hx he
      · exact absurd h (hthrow _).1
      · exact absurd h (hthrow _).2
    | terminated => exact absurd he hnc.2.1
    | undefinedBehaviour => exact absurd he hnc.1
  · cases ht : s.timedOut with
    | false => rfl
    | true =>
      have := ((reachable_vinv hz'.never hreach').late ht).2
      rw [(reachable_base hreach).conf, (launch_flags _ _).2.2] at this
      exact absurd this hno

end QCEC.Props
