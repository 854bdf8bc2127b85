import Verif.Props.Sequential
/-!
# How a sequential or symbolic run ends (C12, C18, C20, C49) and what goes wrong
-/
namespace QCEC.Props
open QCEC QCEC.Mgr QCEC.Spec

/-! ## Endings of the sequential flow -/

/-- A definitive checker that is switched on fails with an exception. -/
def Fails (o : Outcome) : Prop := o = .ctorThrows ∨ o = .runThrows

/-- Some checker that is switched on may fail with an exception. -/
def SomeCheckerFails (env : Env) (cfg : Configuration) : Prop :=
  (Enabled cfg .simulation ∧ (env.simCtorThrows = true ∨ ∃ k, env.sim k = none)) ∨
  (Enabled cfg .alternating ∧ Fails env.alternating) ∨ (Enabled cfg .construction ∧ Fails env.construction) ∨
  (Enabled cfg .zx ∧ env.zxTransformable = true ∧ Fails env.zx)

theorem definitiveStage_ending (env : Env) (kind : Kind) (enabled : Bool) (o : Outcome) (s : State) :
    (∃ s', definitiveStage env kind enabled o s = .returned s') ∨
    (∃ s', definitiveStage env kind enabled o s = .threw s') ∧ enabled = true ∧ Fails o := by
  unfold definitiveStage
  split
  · exact Or.inl ⟨_, rfl⟩
  · rename_i he
    have he' : enabled = true := by simpa using he
    split
    · exact Or.inl ⟨_, rfl⟩
    · cases o with
      | ctorThrows => exact Or.inr ⟨⟨_, rfl⟩, he', Or.inl rfl⟩
      | runThrows =>
        simp only
        split
        · exact Or.inl ⟨_, rfl⟩
        · exact Or.inr ⟨⟨_, rfl⟩, he', Or.inr rfl⟩
      | returns r =>
        simp only
        split
        · exact Or.inl ⟨_, rfl⟩
        · split <;> exact Or.inl ⟨_, rfl⟩

theorem zxStage_ending (env : Env) (s : State) :
    (∃ s', zxStage env s = .returned s') ∨
    ((∃ s', zxStage env s = .threw s') ∧ Enabled s.cfg .zx ∧ env.zxTransformable = true ∧ env.zx = .runThrows) ∨
    (zxStage env s = .terminated ∧ Enabled s.cfg .zx ∧ env.zxTransformable = true ∧ env.zx = .ctorThrows) := by
  unfold zxStage
  split
  · exact Or.inl ⟨_, rfl⟩
  · rename_i he
    have he' : Enabled s.cfg .zx := by simpa [Enabled] using he
    split
    · exact Or.inl ⟨_, rfl⟩
    · simp only
      split
      · rename_i hz
        split
        · rename_i h1; exact Or.inr (Or.inr ⟨rfl, he', hz, h1⟩)
        · rename_i h1
          split
          · exact Or.inl ⟨_, rfl⟩
          · exact Or.inr (Or.inl ⟨⟨_, rfl⟩, he', hz, h1⟩)
        · split <;> exact Or.inl ⟨_, rfl⟩
      · split <;> exact Or.inl ⟨_, rfl⟩

theorem definitiveStage_keeps_cfg (env : Env) (kind : Kind) (enabled : Bool) (o : Outcome) (s : State) :
    (definitiveStage env kind enabled o s).Holds fun s' => s'.cfg = s.cfg := by
  unfold definitiveStage
  split
  · rfl
  · split
    · rfl
    · cases o with
      | ctorThrows => rfl
      | runThrows => simp only; split <;> rfl
      | returns r =>
        simp only
        split
        · rfl
        · split <;> rfl

theorem zxStage_keeps_cfg (env : Env) (s : State) : (zxStage env s).Holds fun s' => s'.cfg = s.cfg := by
  unfold zxStage
  split
  · rfl
  · split
    · rfl
    · simp only
      split
      · split
        · trivial
        · split <;> rfl
        · split <;> rfl
      · split <;> rfl

theorem stages_keeps_cfg (env : Env) (s : State) : (stages env s).Holds fun s' => s'.cfg = s.cfg := by
  unfold stages
  refine Ending.Holds.andThen (P := fun s' => s'.cfg = s.cfg) ?_ ?_ (fun _ h => h)
  · refine Ending.Holds.andThen (P := fun s' => s'.cfg = s.cfg) (definitiveStage_keeps_cfg _ _ _ _ _) ?_ (fun _ h => h)
    intro s1 h1
    exact (definitiveStage_keeps_cfg _ _ _ _ _).imp fun _ h => h.trans h1
  · intro s1 h1
    exact (zxStage_keeps_cfg _ _).imp fun _ h => h.trans h1

theorem definitiveStage_cfg {env : Env} {kind : Kind} {enabled : Bool} {o : Outcome} {s s' : State}
    (h : definitiveStage env kind enabled o s = .returned s') : s'.cfg = s.cfg := by
  have := definitiveStage_keeps_cfg env kind enabled o s
  rw [h] at this
  exact this

theorem stages_ending (env : Env) (s : State) :
    (∃ s', stages env s = .returned s') ∨ ((∃ s', stages env s = .threw s') ∧ SomeCheckerFails env s.cfg) ∨
    (stages env s = .terminated ∧ Enabled s.cfg .zx ∧ env.zxTransformable = true ∧ env.zx = .ctorThrows) := by
  unfold stages
  rcases definitiveStage_ending env .alternating s.cfg.execution.runAlternatingChecker env.alternating s with
    ⟨s1, h1⟩ | ⟨⟨s1, h1⟩, he, hf⟩
  · have hc1 := definitiveStage_cfg h1
    rw [h1]
    simp only [Ending.andThen]
    rcases definitiveStage_ending env .construction s1.cfg.execution.runConstructionChecker env.construction s1 with
      ⟨s2, h2⟩ | ⟨⟨s2, h2⟩, he, hf⟩
    · have hc2 := definitiveStage_cfg h2
      rw [h2]
      rw [hc1] at hc2
      rcases zxStage_ending env s2 with h3 | ⟨h3, he, hz, hf⟩ | ⟨h3, he, hz, hf⟩
      · exact Or.inl h3
      · rw [hc2] at he
        exact Or.inr (Or.inl ⟨h3, Or.inr (Or.inr (Or.inr ⟨he, hz, Or.inr hf⟩))⟩)
      · rw [hc2] at he
        exact Or.inr (Or.inr ⟨h3, he, hz, hf⟩)
    · rw [h2]
      rw [hc1] at he
      exact Or.inr (Or.inl ⟨⟨s2, rfl⟩, Or.inr (Or.inr (Or.inl ⟨he, hf⟩))⟩)
  · rw [h1]
    exact Or.inr (Or.inl ⟨⟨s1, rfl⟩, Or.inr (Or.inl ⟨he, hf⟩)⟩)

/-- The simulation checker may give up without a verdict. -/
def SomeSimGivesUp (env : Env) (cfg : Configuration) : Prop :=
  Enabled cfg .simulation ∧ ∃ k, env.sim k = some .noInformation

theorem simLoop_ending (env : Env) : ∀ fuel k s,
    (∃ s', simLoop env fuel k s = .finished s' ∧ s'.cfg = s.cfg) ∨
    (∃ s', simLoop env fuel k s = .aborted s' ∧ s'.cfg = s.cfg ∧ ∃ j, env.sim j = some .noInformation) ∨
    (∃ s', simLoop env fuel k s = .threw s' ∧ s'.cfg = s.cfg ∧ ∃ j, env.sim j = none) ∨ simLoop env fuel k s = .diverged := by
  intro fuel
  induction fuel with
  | zero => intro k s; exact Or.inr (Or.inr (Or.inr rfl))
  | succ n ih =>
    intro k s
    unfold simLoop
    split
    · exact Or.inl ⟨_, rfl, rfl⟩
    · split
      · exact Or.inl ⟨_, rfl, rfl⟩
      · split
        · rename_i h; exact Or.inr (Or.inr (Or.inl ⟨_, rfl, rfl, k, h⟩))
        · rename_i r h
          simp only
          split
          · rename_i hr; exact Or.inr (Or.inl ⟨_, rfl, rfl, k, by rw [h, hr]⟩)
          · split
            · exact Or.inl ⟨_, rfl, rfl⟩
            · exact ih (k + 1) _

/-- Every way in which the sequential flow can end. -/
theorem checkSequential_ending (env : Env) (fuel : Nat) (s : State)
    (hb : s.results.performedSimulations ≤ s.cfg.simulation.maxSims)
    (hfuel : s.cfg.simulation.maxSims - s.results.performedSimulations < fuel) :
    (∃ s', checkSequential env fuel s = .returned s') ∨
    ((∃ s', checkSequential env fuel s = .threw s') ∧ SomeCheckerFails env s.cfg ∧ s.timeoutSet = false) ∨
    (checkSequential env fuel s = .terminated ∧
      ((s.timeoutSet = true ∧ (SomeCheckerFails env s.cfg ∨ SomeSimGivesUp env s.cfg)) ∨
       (Enabled s.cfg .zx ∧ env.zxTransformable = true ∧ env.zx = .ctorThrows))) := by
  have fin : ∀ x : State, x.cfg = s.cfg → ∀ e, e = (match stages env x with
      | .threw y => leave y (.threw y)
      | e => e) → (∃ s', e = .returned s') ∨ ((∃ s', e = .threw s') ∧ SomeCheckerFails env s.cfg ∧ s.timeoutSet = false) ∨
      (e = .terminated ∧ ((s.timeoutSet = true ∧ (SomeCheckerFails env s.cfg ∨ SomeSimGivesUp env s.cfg)) ∨
       (Enabled s.cfg .zx ∧ env.zxTransformable = true ∧ env.zx = .ctorThrows))) := by
    intro x hx e he
    have hinv : ∀ y, stages env x = .threw y → y.cfg = x.cfg := by
      intro y hy
      have := stages_keeps_cfg env x
      rw [hy] at this
      exact this
    rcases stages_ending env x with ⟨y, hy⟩ | ⟨⟨y, hy⟩, hf⟩ | ⟨hy, hz⟩
    · rw [hy] at he
      exact Or.inl ⟨y, he⟩
    · have hyc := hinv y hy
      rw [hy] at he
      rw [hx] at hf hyc
      have hts : y.timeoutSet = s.timeoutSet := by simp [State.timeoutSet, hyc]
      simp only [leave, hts] at he
      cases ht : s.timeoutSet
      · rw [ht] at he
        exact Or.inr (Or.inl ⟨⟨y, by simpa using he⟩, hf, rfl⟩)
      · rw [ht] at he
        exact Or.inr (Or.inr ⟨by simpa using he, Or.inl ⟨rfl, Or.inl hf⟩⟩)
    · rw [hy] at he
      rw [hx] at hz
      exact Or.inr (Or.inr ⟨he, Or.inr hz⟩)
  have lv : ∀ x e, x.timeoutSet = s.timeoutSet → leave x e = if s.timeoutSet then .terminated else e := by
    intro x e hx; simp [leave, hx]
  unfold checkSequential
  simp only
  split
  · rename_i hen
    split
    · rename_i hct
      rw [lv s _ rfl]
      cases ht : s.timeoutSet
      · exact Or.inr (Or.inl ⟨⟨s, rfl⟩, Or.inl ⟨hen, Or.inl hct⟩, rfl⟩)
      · exact Or.inr (Or.inr ⟨rfl, Or.inl ⟨rfl, Or.inl (Or.inl ⟨hen, Or.inl hct⟩)⟩⟩)
    · have hends := simLoop_ends env fuel 0 { s with checkers := s.checkers ++ [.simulation] } hb hfuel
      rcases simLoop_ending env fuel 0 { s with checkers := s.checkers ++ [.simulation] } with
        ⟨x, hx, hc⟩ | ⟨x, hx, hc, hj⟩ | ⟨x, hx, hc, hj⟩ | hx
      · rw [hx]
        refine fin (afterSims x) ?_ _ rfl
        have : (afterSims x).cfg = x.cfg := by
          unfold afterSims
          split <;> rfl
        rw [this, hc]
      · rw [hx]
        simp only
        rw [lv x _ (by simp [State.timeoutSet, hc])]
        cases ht : s.timeoutSet
        · exact Or.inl ⟨x, rfl⟩
        · exact Or.inr (Or.inr ⟨rfl, Or.inl ⟨rfl, Or.inr ⟨hen, hj⟩⟩⟩)
      · rw [hx]
        simp only
        rw [lv x _ (by simp [State.timeoutSet, hc])]
        cases ht : s.timeoutSet
        · exact Or.inr (Or.inl ⟨⟨x, rfl⟩, Or.inl ⟨hen, Or.inr hj⟩, rfl⟩)
        · exact Or.inr (Or.inr ⟨rfl, Or.inl ⟨rfl, Or.inl (Or.inl ⟨hen, Or.inr hj⟩)⟩⟩)
      · exact absurd hx hends
  · exact fin s rfl _ rfl

/-- The counters of the manager are those of a fresh or a reset one, or at least not beyond `maxSims`. -/
def CountersOk (s : State) : Prop := s.results.performedSimulations ≤ s.cfg.simulation.maxSims

theorem run_sequential {env : Env} {fuel : Nat} {s : State} (hm : mode env s.cfg = .sequential) :
    run env fuel s = some ((checkSequential env fuel s.begin).andThen fun s => .returned s.report) := by
  have hm' : mode env s.begin.cfg = .sequential := hm
  unfold run
  simp only [hm']

/-- C12 (partial): whatever the timeout and whenever it fires, a sequential run returns if no checker that is switched on fails
with an exception and no simulation run gives up without a verdict.
Missing: simulation runs that give up – which is exactly what a simulation interrupted by the timeout does – and exceptions, see
`sequential_timeout_crash`. -/
theorem sequential_returns_partial (env : Env) (s : State) (hm : mode env s.cfg = .sequential) (hc : CountersOk s)
    (h1 : ¬ SomeCheckerFails env s.cfg) (h2 : ¬ SomeSimGivesUp env s.cfg) (fuel : Nat) (hfuel : s.cfg.simulation.maxSims < fuel) :
    ∃ s', run env fuel s = some (.returned s') := by
  rw [run_sequential hm]
  rcases checkSequential_ending env fuel s.begin hc (by
    show s.cfg.simulation.maxSims - s.results.performedSimulations < fuel
    omega) with ⟨x, hx⟩ | ⟨_, hf, _⟩ | ⟨_, ⟨_, hf | hf⟩ | ⟨he, hz, hf⟩⟩
  · exact ⟨x.report, by rw [hx]; rfl⟩
  · exact absurd hf h1
  · exact absurd hf h1
  · exact absurd hf h2
  · exact absurd (Or.inr (Or.inr (Or.inr ⟨he, hz, Or.inl hf⟩))) h1

/-- C12, C18: without a timeout a sequential run returns or throws the exception of a checker; it never hangs and terminates the
process only if the constructor of the ZX checker fails. -/
theorem sequential_without_timeout (env : Env) (s : State) (hm : mode env s.cfg = .sequential) (hc : CountersOk s)
    (ht : ¬ s.cfg.execution.timeout > 0) (fuel : Nat) (hfuel : s.cfg.simulation.maxSims < fuel) :
    (∃ s', run env fuel s = some (.returned s')) ∨
    ((∃ s', run env fuel s = some (.threw s')) ∧ SomeCheckerFails env s.cfg) ∨
    (run env fuel s = some .terminated ∧ env.zx = .ctorThrows) := by
  have htm : s.begin.timeoutSet = false := by
    show decide (s.cfg.execution.timeout > 0) = false
    simpa using ht
  rw [run_sequential hm]
  rcases checkSequential_ending env fuel s.begin hc (by
    show s.cfg.simulation.maxSims - s.results.performedSimulations < fuel
    omega) with ⟨x, hx⟩ | ⟨⟨x, hx⟩, hf, _⟩ | ⟨hx, ⟨hh, _⟩ | ⟨_, _, hf⟩⟩
  · exact Or.inl ⟨x.report, by rw [hx]; rfl⟩
  · exact Or.inr (Or.inl ⟨⟨x, by rw [hx]; rfl⟩, hf⟩)
  · rw [htm] at hh; simp at hh
  · exact Or.inr (Or.inr ⟨by rw [hx]; rfl, hf⟩)

/-- C18 (sequential): a run that threw has consumed the exception of a checker that is switched on, and no verdict of a failed
checker has been recorded. -/
theorem sequential_threw {env : Env} {fuel : Nat} {s s' : State} (hm : mode env s.cfg = .sequential) (hc : CountersOk s)
    (hfuel : s.cfg.simulation.maxSims < fuel) (h : run env fuel s = some (.threw s')) :
    SomeCheckerFails env s.cfg ∧ ∀ e ∈ s'.log, FromEnv env e ∧ Enabled s.cfg e.kind := by
  rw [run_sequential hm] at h
  have hany : s.begin.cfg.anythingToExecute = true := by
    have hm' : mode env s.begin.cfg = .sequential := hm
    unfold mode at hm'
    split at hm' <;> simp_all
  have hp := checkSequential_post env fuel s.begin (begin_inv env s) rfl rfl hany
  rcases checkSequential_ending env fuel s.begin hc (by
    show s.cfg.simulation.maxSims - s.results.performedSimulations < fuel
    omega) with ⟨x, hx⟩ | ⟨⟨x, hx⟩, hf, _⟩ | ⟨hx, _⟩
  · rw [hx] at h; simp [Ending.andThen] at h
  · rw [hx] at h hp
    simp only [Ending.andThen, Option.some.injEq, Ending.threw.injEq] at h
    subst h
    refine ⟨hf, ?_⟩
    have := hp.1.inv.prov
    rw [hp.1.conf] at this
    exact this
  · rw [hx] at h; simp [Ending.andThen] at h

end QCEC.Props
