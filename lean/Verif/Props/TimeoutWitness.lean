import Verif.Props.Timeout
import Verif.Props.SequentialWitness
/-!
# Concrete executions of the flow with its timeout thread

They show that the hypotheses of the theorems in `Verif/Props/Timeout.lean` are met, and what the theorems mean for everyday runs.
-/
namespace QCEC.Props.TimeoutWitness
open QCEC QCEC.Mgr QCEC.Tmo QCEC.Props

/-- The timeout thread never acts. -/
theorem never : Mono fun _ => false := fun _ _ _ h => h

/-- One simulation, then the alternating checker, with a timeout. -/
def both : State := State.fresh (testCfg true true false false 1 1)

theorem both_returns : ∃ r, run (withFired passing (fun _ => false) never) 3 both = some (.returned r) ∧
    r.results.equivalence = .equivalent ∧ r.done = true := ⟨_, rfl, rfl, rfl⟩

/-- An ordinary run with a timeout returns the verdict in some interleaving (`timed_run_complete`). -/
theorem ordinary_run (grow : Nat → Nat) (D cap : Nat) : ∃ p t r, flowOf passing 3 both = some p ∧
    Reachable grow D p both.begin cap t ∧ t.main = .ended (.returned r) ∧ r.results.equivalence = .equivalent := by
  obtain ⟨r0, h0, hq, _⟩ := both_returns
  obtain ⟨t, e, h1, h2, h3⟩ := timed_run_complete (env := passing) (fuel := 3) (s := both) grow D cap rfl (fun _ => false) never h0
  cases e with
  | returned r =>
    refine ⟨_, t, r, rfl, h1, h2, ?_⟩
    simp only [Ending.andThen, Ending.returned.injEq] at h3
    rw [show r.results.equivalence = r.report.results.equivalence from rfl, ← h3]; exact hq
  | threw r => cases h3
  | terminated => cases h3
  | diverged => cases h3

/-- Its verdict is known at once, but it may have to wait for the deadline (`notification_can_be_lost`). -/
theorem ordinary_run_may_wait (grow : Nat → Nat) (D cap : Nat) (hD : 0 < D) : ∃ p t r, flowOf passing 3 both = some p ∧
    Reachable grow D p both.begin cap t ∧ t.main = .todo (.join r) ∧ r.results.equivalence = .equivalent ∧ t.done = true ∧
    t.timer = .asleep ∧ t.now = 0 ∧
    ∀ n u, Step grow D { t with now := n } u → n < D → u = { t with now := n + 1 } ∨ u = { t with now := n, timer := .testing } := by
  obtain ⟨r0, h0, hq, hd⟩ := both_returns
  obtain ⟨t, r, h1, h2, h3, h4, h5⟩ := notification_can_be_lost (env := passing) (fuel := 3) (s := both) (hm := never) grow D cap hD rfl
    (by decide +kernel) h0
  refine ⟨_, t, r, rfl, h1, h2, ?_, ?_, h5⟩
  · rw [show r.results.equivalence = r.report.results.equivalence from rfl, ← h3]; exact hq
  · rw [h4, show r.done = r.report.done from rfl, ← h3]; exact hd

/-- It can also run into undefined behaviour (`every_timed_run_can_race`), … -/
theorem ordinary_run_may_race (grow : Nat → Nat) (D cap : Nat) : ∃ p t, flowOf passing 3 both = some p ∧
    Reachable grow D p both.begin cap t ∧ t.main = .undefinedBehaviour :=
  every_timed_run_can_race grow D cap rfl rfl (by decide +kernel)

/-- … and with an implementation that doubles the capacity it can read a freed buffer (`use_after_free`). -/
theorem ordinary_run_use_after_free (D : Nat) : ∃ p t b n i, flowOf passing 3 both = some p ∧
    Reachable (fun n => 2 * n) D p both.begin 0 t ∧ t.timer = .walking b n i ∧ i < n ∧ b ≠ t.vec.buf ∧
      Step (fun n => 2 * n) D t { t with main := .undefinedBehaviour } := by
  obtain ⟨p, hp⟩ : ∃ p, flowOf passing 3 both = some p := ⟨_, rfl⟩
  obtain ⟨t, k, h, hm, hd, hv⟩ : ∃ t k, Reachable (fun n => 2 * n) D p both.begin 0 t ∧ t.main = .todo (.emplace k) ∧ t.done = false ∧
      t.vec = { buf := 1, cap := 1, told := [false] } := by
    cases hp
    exact ⟨_, _, (((((((Steps.refl _).tail (.emplaceBegin _ _ rfl)).tail (.emplaceEnd _ _ rfl)).tail (.readDone _ _ rfl)).tail
      (.checkBegin _ _ rfl)).tail (.checkEnd _ _ _ rfl)).tail (.readDone _ _ rfl)), rfl, rfl, rfl⟩
  obtain ⟨t', b, n, i, h1, _, h2⟩ := use_after_free hp h (by decide +kernel) hm hd (by simp [hv]) (by simp [hv])
  exact ⟨p, t', b, n, i, hp, h.trans h1, h2⟩

/-- The timeout can strike while the simulation is running, and the simulation is then told to stop (`running_checker_told`). -/
theorem simulation_stopped (grow : Nat → Nat) (D : Nat) : ∃ p t k, flowOf passing 3 both = some p ∧ Reachable grow D p both.begin 0 t ∧
    t.main = .checking 0 k ∧ t.timer = .gone ∧ t.firedAt ≠ none ∧ t.vec.told[0]? = some true := by
  obtain ⟨p, hp⟩ : ∃ p, flowOf passing 3 both = some p := ⟨_, rfl⟩
  obtain ⟨t, k, h, hm, hd, hv⟩ : ∃ t k, Reachable grow D p both.begin 0 t ∧ t.main = .checking 0 k ∧ t.done = false ∧
      t.vec.told = [false] := by
    cases hp
    exact ⟨_, _, ((((Steps.refl _).tail (.emplaceBegin _ _ rfl)).tail (.emplaceEnd _ _ rfl)).tail (.readDone _ _ rfl)).tail
      (.checkBegin _ _ rfl), rfl, rfl, rfl⟩
  have hl : ∀ {u : TState}, u.main = .checking 0 k → u.live := by intro u hu; constructor <;> simp [hu]
  obtain ⟨t1, a, b, c, d, e⟩ := to_firing (grow := grow) (D := D) (hl hm) hd (not_yet hp h (by decide +kernel) hd)
  have hm1 := b.trans hm
  have s1 : Step grow D t1 _ := .fire t1 (hl hm1) c
  have s2 : Step grow D { t1 with timer := .iterating, done := true, firedAt := some t1.reads } _ :=
    .iterate _ (hl hm1) rfl (by simp [hm1])
  have hlen : t1.vec.told.length = 1 := by rw [e, hv]; rfl
  have s3 := Step.tell (grow := grow) (D := D)
    { t1 with timer := .walking t1.vec.buf t1.vec.told.length 0, done := true, firedAt := some t1.reads } _ _ 0 (hl hm1) rfl (by omega)
    ⟨rfl, by simp only; omega, by simp [hm1]⟩
  have s4 := Step.exit (grow := grow) (D := D)
    { t1 with timer := .walking t1.vec.buf t1.vec.told.length 1, done := true, firedAt := some t1.reads,
              vec := { t1.vec with told := t1.vec.told.set 0 true } } _ _ 1 (hl hm1) rfl (by omega)
  refine ⟨p, _, k, hp, ((((h.trans a).tail s1).tail s2).tail s3).tail s4, hm1, rfl, by simp, ?_⟩
  simp [e, hv]

/-- It can race on `done` at once (`write_can_race`). -/
theorem ordinary_run_may_race_on_done (grow : Nat → Nat) (D cap : Nat) : ∃ p t, flowOf passing 3 both = some p ∧
    Reachable grow D p both.begin cap t ∧ t.now = 0 ∧ RaceOnDone t := by
  obtain ⟨r0, h0, _, hd⟩ := both_returns
  obtain ⟨t, h⟩ := write_can_race (env := passing) (fuel := 3) (s := both) grow D cap rfl (by decide +kernel) h0 hd
  exact ⟨_, t, rfl, h⟩

/-- One simulation and the ZX checker, which does not support the circuits. -/
def undecided : State := State.fresh (testCfg true false false true 1 1)

/-- The simulation passes at once. -/
def unsupported : Env := { passing with zxTransformable := false }

theorem undecided_returns (fired : Nat → Bool) (hm : Mono fired) :
    ∃ r, run (withFired unsupported fired hm) 3 undecided = some (.returned r) ∧ r.done = false ∧
      (fired 0 = false → r.results.equivalence = .probablyEquivalent) := by
  have pos : (0 : Rat) < 1 := by decide +kernel
  cases h0 : fired 0 <;> cases h1 : fired 1 <;>
    simp [pos, run, mode, undecided, checkSequential, h0, h1, withFired, unsupported, passing, testEnv, testCfg, State.fresh, State.begin,
      simLoop, State.simulationsFinished, State.isDone, State.tick, State.timeoutSet, State.simStarted, State.simPerformed, State.setEq,
      afterSims, State.simsOnlyDone, stages, definitiveStage, zxStage, Ending.andThen, State.report, Configuration.anythingToExecute,
      Configuration.onlySimulationCheckerConfigured, Configuration.onlyZXCheckerConfigured, Configuration.onlySingleTask]

/-- Every execution of this run that ends, ends after the deadline – although the verdict is known before (`undecided_run_waits`). -/
theorem undecided_always_waits {grow : Nat → Nat} {D cap : Nat} {p : Prog} {t : TState} (hf : flowOf unsupported 3 undecided = some p)
    (h : Reachable grow D p undecided.begin cap t) {e : Ending} (he : t.main = .ended e) : D ≤ t.now := by
  obtain ⟨fired, hm, _, h2⟩ := timed_run hf h he
  obtain ⟨r, h3, h4, _⟩ := undecided_returns fired hm
  rw [h3, Option.some.injEq] at h2
  cases e with
  | returned r' =>
    simp only [Ending.andThen, Ending.returned.injEq] at h2
    exact undecided_run_waits hf h (by decide +kernel) he (by rw [show r'.done = r'.report.done from rfl, ← h2]; exact h4)
  | threw r => cases h2
  | terminated => cases h2
  | diverged => cases h2

end QCEC.Props.TimeoutWitness
