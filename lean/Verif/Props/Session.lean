import Verif.Spec.Session
import Verif.Props.Counterexample
/-!
# A result describes the run that produced it (C78)
-/
namespace QCEC.Props
open QCEC QCEC.Mgr QCEC.Par QCEC.Session

/-! ## One run -/

/-- The stored vectors after a run that started with configuration `cfg` and the stored vectors of `r`. -/
structure Stores (cfg : Configuration) (r : Results) (log : List Event) (r' : Results) : Prop where
  input : r'.cexInput.isSome = true ↔ (cfg.simulation.storeCEXinput = true ∧ Refuted log) ∨ r.cexInput.isSome = true
  output : r'.cexOutput.isSome = true ↔ (cfg.simulation.storeCEXoutput = true ∧ Refuted log) ∨ r.cexOutput.isSome = true

theorem Stores.none {cfg : Configuration} {r r' : Results} {log : List Event} (h1 : r'.cexInput = r.cexInput)
    (h2 : r'.cexOutput = r.cexOutput) (hl : ¬ Refuted log) : Stores cfg r log r' :=
  ⟨by rw [h1]; simp [hl], by rw [h2]; simp [hl]⟩

/-- The simulations in the log are the same. -/
def SameSims (s s' : State) : Prop := ∀ v, (⟨.simulation, v⟩ : Event) ∈ s'.log ↔ (⟨.simulation, v⟩ : Event) ∈ s.log

theorem SameSims.refl (s : State) : SameSims s s := fun _ => Iff.rfl

theorem SameSims.of_log {s s' : State} (h : s'.log = s.log) : SameSims s s' := fun v => by rw [h]

theorem SameSims.of_add {s s' : State} {k : Kind} {c : Criterion} (hk : k ≠ .simulation) (h : s'.log = s.log ++ [⟨k, c⟩]) : SameSims s s' := by
  intro v
  rw [h]
  simp only [List.mem_append, List.mem_singleton, Event.mk.injEq, or_iff_left_iff_imp]
  rintro ⟨e, _⟩
  exact absurd e.symm hk

theorem definitiveStage_sims (env : Env) (kind : Kind) (hk : kind ≠ .simulation) (enabled : Bool) (o : Outcome) (s : State) :
    (definitiveStage env kind enabled o s).Holds (SameSims s) := by
  unfold definitiveStage
  split
  · exact .refl _
  · split
    · exact .of_log rfl
    · cases o with
      | ctorThrows => exact .of_log rfl
      | runThrows => simp only; split <;> exact .of_log rfl
      | returns r =>
        simp only
        split
        · exact .of_log rfl
        · split <;> exact .of_add hk rfl

theorem zxStage_sims (env : Env) (s : State) : (zxStage env s).Holds (SameSims s) := by
  unfold zxStage
  split
  · exact .refl _
  · split
    · exact .of_log rfl
    · simp only
      split
      · split
        · trivial
        · split <;> exact .of_log rfl
        · split
          · exact .of_log rfl
          · exact .of_add (k := .zx) (by decide) rfl
      · split <;> exact .of_log rfl

theorem stages_sims (env : Env) (s : State) : (stages env s).Holds (SameSims s) := by
  unfold stages
  refine Ending.Holds.andThen (P := SameSims s) ?_ ?_ (fun _ h => h)
  · refine Ending.Holds.andThen (P := SameSims s) (definitiveStage_sims _ _ (by decide) _ _ _) ?_ (fun _ h => h)
    intro s1 h1
    exact (definitiveStage_sims _ _ (by decide) _ _ _).imp fun _ h v => (h v).trans (h1 v)
  · intro s1 h1
    exact (zxStage_sims _ _).imp fun _ h v => (h v).trans (h1 v)

/-- What the simulation loop leaves in the log. -/
def LoopLog : SimRes → Prop
  | .finished x => ((⟨.simulation, .notEquivalent⟩ : Event) ∈ x.log ↔ x.results.equivalence = .notEquivalent) ∧
      (⟨.simulation, .noInformation⟩ : Event) ∉ x.log
  | .aborted x => (⟨.simulation, .notEquivalent⟩ : Event) ∉ x.log ∧ (⟨.simulation, .noInformation⟩ : Event) ∈ x.log
  | .threw x => (⟨.simulation, .notEquivalent⟩ : Event) ∉ x.log
  | .diverged => True

theorem simLoop_log (env : Env) : ∀ fuel k s, (⟨.simulation, .notEquivalent⟩ : Event) ∉ s.log → (⟨.simulation, .noInformation⟩ : Event) ∉ s.log →
    s.results.equivalence ≠ .notEquivalent → LoopLog (simLoop env fuel k s) := by
  intro fuel
  induction fuel with
  | zero => intros; trivial
  | succ n ih =>
    intro k s h1 h2 h3
    unfold simLoop
    split
    · exact ⟨⟨fun h => absurd h h1, fun h => absurd h h3⟩, h2⟩
    · split
      · exact ⟨⟨fun h => absurd h h1, fun h => absurd h h3⟩, h2⟩
      · split
        · exact h1
        · rename_i r hr
          simp only
          split
          · rename_i hr0
            subst hr0
            refine ⟨?_, by simp [State.simPerformed]⟩
            simp [State.simPerformed, State.simStarted, State.tick, h1]
          · rename_i hr0
            split
            · rename_i hr1
              subst hr1
              refine ⟨by simp [State.simPerformed, State.setEq], ?_⟩
              simp [State.simPerformed, State.simStarted, State.tick, State.setEq, h2]
            · rename_i hr1
              refine ih _ _ ?_ ?_ (by simp [State.setEq])
              · simp only [State.setEq, State.simPerformed, State.simStarted, State.tick, List.mem_append, List.mem_singleton, Event.mk.injEq,
                  true_and, not_or]
                exact ⟨h1, fun h => hr1 h.symm⟩
              · simp only [State.setEq, State.simPerformed, State.simStarted, State.tick, List.mem_append, List.mem_singleton, Event.mk.injEq,
                  true_and, not_or]
                exact ⟨h2, fun h => hr0 h.symm⟩

/-- Once everything is done no stage does anything. -/
theorem definitiveStage_done {env : Env} {kind : Kind} {enabled : Bool} {o : Outcome} {s : State} (h : s.done = true) :
    ∃ x, definitiveStage env kind enabled o s = .returned x ∧ x.done = true := by
  unfold definitiveStage
  split
  · exact ⟨_, rfl, h⟩
  · rw [if_pos (by simp [State.isDone, h])]
    exact ⟨_, rfl, h⟩

theorem stages_done {env : Env} {s : State} (h : s.done = true) : ∃ x, stages env s = .returned x := by
  unfold stages
  obtain ⟨x, hx, hxd⟩ := definitiveStage_done (env := env) (kind := .alternating) (enabled := s.cfg.execution.runAlternatingChecker)
    (o := env.alternating) h
  rw [hx]
  simp only [Ending.andThen]
  obtain ⟨y, hy, hyd⟩ := definitiveStage_done (env := env) (kind := .construction) (enabled := x.cfg.execution.runConstructionChecker)
    (o := env.construction) hxd
  rw [hy]
  simp only [zxStage]
  split
  · exact ⟨_, rfl⟩
  · rw [if_pos (by simp [State.isDone, hyd])]
    exact ⟨_, rfl⟩

/-- The state with which a call ends that the caller survives. -/
def endState : Ending → Option State
  | .returned s => some s
  | .threw s => some s
  | .terminated => none
  | .diverged => none

theorem holds_endState {P : State → Prop} {e : Ending} {s : State} (h : e.Holds P) (he : endState e = some s) : P s := by
  cases e <;> simp [endState] at he <;> (subst he; exact h)

theorem endState_leave {s s' : State} {e : Ending} (h : endState (leave s e) = some s') : endState e = some s' := by
  unfold leave at h
  split at h
  · simp [endState] at h
  · exact h

theorem afterSims_cex (x : State) : (afterSims x).cfg = x.cfg ∧ (afterSims x).log = x.log ∧
    (x.results.equivalence = .notEquivalent → (afterSims x).done = true ∧
      (afterSims x).results.cexInput = (if x.cfg.simulation.storeCEXinput then some x.lastSim else x.results.cexInput) ∧
      (afterSims x).results.cexOutput = (if x.cfg.simulation.storeCEXoutput then some x.lastSim else x.results.cexOutput)) ∧
    (x.results.equivalence ≠ .notEquivalent → (afterSims x).results.cexInput = x.results.cexInput ∧
      (afterSims x).results.cexOutput = x.results.cexOutput) := by
  unfold afterSims
  by_cases h : x.results.equivalence = .notEquivalent
  · rw [if_pos h]
    exact ⟨rfl, rfl, fun _ => ⟨rfl, rfl, rfl⟩, fun hn => absurd h hn⟩
  · rw [if_neg h]
    exact ⟨rfl, rfl, fun hn => absurd hn h, fun _ => ⟨rfl, rfl⟩⟩

/-- A sequential check: the configuration is kept, the counterexample is stored if there is one; it returns early exactly if a simulation gave up. -/
theorem checkSequential_session {env : Env} {fuel : Nat} {s s' : State} (hl : s.log = []) (hq : s.results.equivalence = .noInformation)
    (h : endState (checkSequential env fuel s) = some s') :
    s'.cfg = s.cfg ∧ Stores s.cfg s.results s'.log s'.results ∧
    (checkSequential env fuel s = .returned s' →
      ((s.cfg.execution.runSimulationChecker = true ∧ ∃ x, simLoop env fuel 0 { s with checkers := s.checkers ++ [.simulation] } = .aborted x) ↔
        (⟨.simulation, .noInformation⟩ : Event) ∈ s'.log)) := by
  have fin : ∀ e : Ending, endState (match e with | .threw y => leave y (.threw y) | e => e) = some s' → endState e = some s' := by
    intro e he
    cases e with
    | threw y => exact endState_leave he
    | returned y => exact he
    | terminated => exact he
    | diverged => exact he
  unfold checkSequential at h ⊢
  simp only at h ⊢
  split at h
  · rename_i hen
    simp only [hen, if_true, true_and]
    split at h
    · rename_i hc
      have := endState_leave h
      simp only [endState, Option.some.injEq] at this
      subst this
      refine ⟨rfl, .none rfl rfl (by simp [Refuted, hl]), fun hr => ?_⟩
      rw [if_pos hc] at hr
      unfold leave at hr
      split at hr <;> simp at hr
    · rename_i hc
      rw [if_neg hc]
      have hcex := simLoop_cex env fuel 0 { s with checkers := s.checkers ++ [.simulation] }
      have hlog := simLoop_log env fuel 0 { s with checkers := s.checkers ++ [.simulation] } (by simp [hl]) (by simp [hl]) (by simp [hq])
      revert hcex hlog h
      cases simLoop env fuel 0 { s with checkers := s.checkers ++ [.simulation] } with
      | diverged => intro h _ _; simp [endState] at h
      | threw x =>
        intro h hcex hlog
        have := endState_leave h
        simp only [endState, Option.some.injEq] at this
        subst this
        obtain ⟨c1, c2, c3⟩ := hcex x rfl
        refine ⟨c3, .none c1 c2 hlog, fun hr => ?_⟩
        simp only [leave] at hr
        split at hr <;> simp at hr
      | aborted x =>
        intro h hcex hlog
        have := endState_leave h
        simp only [endState, Option.some.injEq] at this
        subst this
        obtain ⟨c1, c2, c3⟩ := hcex x rfl
        exact ⟨c3, .none c1 c2 hlog.1, fun _ => ⟨fun _ => hlog.2, fun _ => ⟨x, rfl⟩⟩⟩
      | finished x =>
        intro h hcex hlog
        have h' := fin _ h
        obtain ⟨c1, c2, c3⟩ := hcex x rfl
        obtain ⟨a1, a2, a3, a4⟩ := afterSims_cex x
        have g1 := holds_endState (stages_cex env (afterSims x)) h'
        have g2 := holds_endState (stages_sims env (afterSims x)) h'
        obtain ⟨g3, g4, g5⟩ := g1
        have hlogs : ∀ v, (⟨.simulation, v⟩ : Event) ∈ s'.log ↔ (⟨.simulation, v⟩ : Event) ∈ x.log := fun v => by rw [g2 v, a2]
        refine ⟨by rw [g5, a1, c3], ?_, fun _ => ⟨?_, fun hn => absurd ((hlogs _).1 hn) hlog.2⟩⟩
        · by_cases hne : x.results.equivalence = .notEquivalent
          · have href : Refuted s'.log := (hlogs _).2 (hlog.1.2 hne)
            obtain ⟨_, i1, i2⟩ := a3 hne
            have hcf : x.cfg = s.cfg := c3
            have c1' : x.results.cexInput = s.results.cexInput := c1
            have c2' : x.results.cexOutput = s.results.cexOutput := c2
            constructor
            · rw [g3, i1, c1', hcf]
              cases s.cfg.simulation.storeCEXinput <;> simp [href]
            · rw [g4, i2, c2', hcf]
              cases s.cfg.simulation.storeCEXoutput <;> simp [href]
          · obtain ⟨i1, i2⟩ := a4 hne
            refine .none (by rw [g3, i1]; exact c1) (by rw [g4, i2]; exact c2) ?_
            exact fun hr => hne (hlog.1.1 ((hlogs _).1 hr))
        · rintro ⟨y, hy⟩
          cases hy
  · rename_i hen
    have h' := fin _ h
    obtain ⟨g3, g4, g5⟩ := holds_endState (stages_cex env s) h'
    have g2 := holds_endState (stages_sims env s) h'
    refine ⟨g5, .none g3 g4 ?_, fun _ => ⟨fun hx => absurd hx.1 hen, fun hn => ?_⟩⟩
    · intro hr
      have := (g2 _).1 hr
      rw [hl] at this
      cases this
    · have := (g2 _).1 hn
      rw [hl] at this
      cases this

/-- A symbolic check likewise; it never involves a simulation. -/
theorem checkSymbolic_session {env : Env} {s s' : State} (hl : s.log = []) (h : endState (checkSymbolic env s) = some s') :
    s'.cfg = s.cfg ∧ Stores s.cfg s.results s'.log s'.results := by
  have hnil : ¬ Refuted s.log := by simp [Refuted, hl]
  have hzx : ∀ c, ¬ Refuted (s.log ++ [⟨.zx, c⟩]) := by simp [Refuted, hl]
  unfold checkSymbolic at h
  split at h
  · simp only [endState, Option.some.injEq] at h
    subst h
    exact ⟨rfl, .none rfl rfl hnil⟩
  · simp only at h
    split at h
    · split at h
      · simp [endState] at h
      · split at h
        · simp only [endState, Option.some.injEq] at h
          subst h
          exact ⟨rfl, .none rfl rfl hnil⟩
        · have := endState_leave h
          simp only [endState, Option.some.injEq] at this
          subst this
          exact ⟨rfl, .none rfl rfl hnil⟩
      · split at h
        · simp only [endState, Option.some.injEq] at h
          subst h
          exact ⟨rfl, .none rfl rfl hnil⟩
        · simp only [endState, Option.some.injEq] at h
          subst h
          exact ⟨rfl, .none rfl rfl (hzx _)⟩
    · have := endState_leave h
      simp only [endState, Option.some.injEq] at this
      subst this
      exact ⟨rfl, .none rfl rfl hnil⟩

theorem endState_report {e : Ending} {s' : State} (h : endState (e.andThen fun s => .returned s.report) = some s') :
    ∃ t, endState e = some t ∧ (s' = t.report ∨ s' = t) := by
  cases e with
  | returned t => exact ⟨t, rfl, .inl (by simpa [Ending.andThen, endState] using h.symm)⟩
  | threw t => exact ⟨t, rfl, .inr (by simpa [Ending.andThen, endState] using h.symm)⟩
  | terminated => simp [Ending.andThen, endState] at h
  | diverged => simp [Ending.andThen, endState] at h

/-- A run that is not parallel and that the caller survives. -/
theorem run_session {env : Env} {fuel : Nat} {s s' : State} {e : Ending} (h : run env fuel s = some e) (he : endState e = some s') :
    s'.cfg = s.cfg ∧ Stores s.cfg s.results s'.log s'.results := by
  have hbl : s.begin.log = [] := rfl
  unfold run at h
  simp only at h
  split at h
  · simp only [Option.some.injEq] at h
    subst h
    simp only [endState, Option.some.injEq] at he
    subst he
    exact ⟨rfl, .none rfl rfl (by simp [Refuted, State.begin])⟩
  · simp only [Option.some.injEq] at h
    subst h
    simp only [endState, Option.some.injEq] at he
    subst he
    exact ⟨rfl, .none rfl rfl (by simp [Refuted, State.begin, State.setEq])⟩
  · simp only [Option.some.injEq] at h
    subst h
    obtain ⟨t, ht, hst⟩ := endState_report he
    obtain ⟨k1, k2, _⟩ := checkSequential_session hbl rfl ht
    rcases hst with rfl | rfl
    · exact ⟨k1, ⟨k2.input, k2.output⟩⟩
    · exact ⟨k1, ⟨k2.input, k2.output⟩⟩
  · simp only [Option.some.injEq] at h
    subst h
    obtain ⟨t, ht, hst⟩ := endState_report he
    obtain ⟨k1, k2⟩ := checkSymbolic_session hbl ht
    rcases hst with rfl | rfl
    · exact ⟨k1, ⟨k2.input, k2.output⟩⟩
    · exact ⟨k1, ⟨k2.input, k2.output⟩⟩
  · cases h

/-! ### Parallel runs -/

/-- Invariant of every parallel run, whatever checkers it finds in its table. -/
structure PSession (cfg : Configuration) (res : Results) (p : PState) : Prop where
  conf : p.cfg = cfg
  wait : p.main = .wait → p.done = false
  refuted : Refuted p.log → p.main ≠ .wait
  stores : Stores cfg res p.log p.results

theorem psession_start (zxOk : Bool) (c : Configuration) (res : Results) (old : List Slot) :
    PSession (launchCfg zxOk c) res (launchAgain zxOk c res old) := by
  refine ⟨rfl, ?_, by simp [launchAgain, launch, Refuted], .none rfl rfl (by simp [launchAgain, launch, Refuted])⟩
  intro h
  show zxGivesUp zxOk c = false
  have h' : (if castsFail (launchKinds zxOk c) old = true then MPc.ended .undefinedBehaviour else (launch zxOk c res).main) = .wait := h
  split at h'
  · cases h'
  · simp only [launch] at h'
    split at h'
    · cases h'
    · split at h'
      · cases h'
      · rename_i hz
        simpa using hz

theorem psession_step {penv : ParEnv} {cfg : Configuration} {res : Results} {s s' : PState} (h : PSession cfg res s) (st : Step penv s s') :
    PSession cfg res s' := by
  obtain ⟨hc, hw, hr, hs⟩ := h
  cases st with
  | pop i x q hm hq hx hf =>
    have hno : ¬ Refuted s.log := fun hre => hr hre hm
    by_cases hk : x.kind = .simulation ∧ x.eq = .notEquivalent
    · obtain ⟨hk1, hk2⟩ := hk
      have href : Refuted (s.popped i x q).log := by
        show _ ∈ s.log ++ [⟨x.kind, x.eq⟩]
        rw [hk1, hk2]
        simp
      obtain ⟨h2, h3, h4⟩ := handle_cex_sim s.cfg s.results
      have hin := hs.input
      have hout := hs.output
      refine ⟨hc, ?_, ?_, ?_, ?_⟩
      · intro hm'
        simp only [PState.popped, hk1, hk2, h2] at hm'
        simp at hm'
      · intro _ hm'
        simp only [PState.popped, hk1, hk2, h2] at hm'
        simp at hm'
      · show (handle s.cfg s.results x.kind x.eq).1.cexInput.isSome = true ↔ _
        rw [hk1, hk2, h3, hc]
        cases cfg.simulation.storeCEXinput with
        | true => simp [href]
        | false => simpa [hno] using hin
      · show (handle s.cfg s.results x.kind x.eq).1.cexOutput.isSome = true ↔ _
        rw [hk1, hk2, h4, hc]
        cases cfg.simulation.storeCEXoutput with
        | true => simp [href]
        | false => simpa [hno] using hout
    · have hnr : ¬ Refuted (s.popped i x q).log := by
        intro hre
        rcases List.mem_append.mp (show _ ∈ s.log ++ [⟨x.kind, x.eq⟩] from hre) with h1 | h1
        · exact hno h1
        · have := List.mem_singleton.mp h1
          simp only [Event.mk.injEq] at this
          exact hk ⟨this.1.symm, this.2.symm⟩
      obtain ⟨h3, h4⟩ := handle_cex_other s.cfg s.results x.kind x.eq hk
      have hin := hs.input
      have hout := hs.output
      refine ⟨hc, ?_, fun hre => absurd hre hnr, ?_, ?_⟩
      · intro hm'
        simp only [PState.popped] at hm' ⊢
        split at hm'
        · cases hm'
        · rename_i hns
          simpa using hns
      · show (handle s.cfg s.results x.kind x.eq).1.cexInput.isSome = true ↔ _
        rw [h3]
        simpa [hno, hnr] using hin
      · show (handle s.cfg s.results x.kind x.eq).1.cexOutput.isSome = true ↔ _
        rw [h4]
        simpa [hno, hnr] using hout
  | timeout hm ht => exact ⟨hc, by simp, by simp, hs⟩
  | popThrows i x q hm hq hx hf => exact ⟨hc, by simp [PState.upd], by simp, hs⟩
  | signal i x hm hx => exact ⟨hc, by simp, by simp, hs⟩
  | signalledAll i hm hi => exact ⟨hc, by simp, by simp, hs⟩
  | join hm hf => exact ⟨hc, by simp, by simp, hs⟩
  | unwind hm hf => exact ⟨hc, by simp, by simp, hs⟩
  | constructTerminates i x hx hp hb ht hz hm => exact ⟨hc, by simp, by simp, hs⟩
  | construct i x hx hp hm => exact ⟨hc, hw, hr, hs⟩
  | constructThrows i x hx hp hb ht hz hm => exact ⟨hc, hw, hr, hs⟩
  | stimulusThrows i x hx hp hk ht hm => exact ⟨hc, hw, hr, hs⟩
  | «begin» i x hx hp hd hm => exact ⟨hc, hw, hr, hs⟩
  | skip i x hx hp hd hm => exact ⟨hc, hw, hr, hs⟩
  | runReturns i x c hx hp hcc hm => exact ⟨hc, hw, hr, hs⟩
  | runThrows i x hx hp ht hm => exact ⟨hc, hw, hr, hs⟩
  | push i x hx hp hm => exact ⟨hc, hw, hr, hs⟩

theorem psession_steps {penv : ParEnv} {cfg : Configuration} {res : Results} {s s' : PState} (h : PSession cfg res s) (st : Steps penv s s') :
    PSession cfg res s' := by
  induction st with
  | refl => exact h
  | tail _ st ih => exact psession_step ih st

/-- What every run does to the parts of the object looked at here. -/
theorem run_effect {env : Env} {penv : ParEnv} {time : Rat} {o o' : Obj} {e : Ends} (h : Run env penv time o e o') :
    o'.qc1 = o.qc1 ∧ o'.qc2 = o.qc2 ∧ o'.plain = o.plain ∧ o'.recorded1 = o.qc1 ∧ o'.recorded2 = o.qc2 ∧ o'.recordedCfg = o.cfg ∧
    o'.preprocessingTime = o.preprocessingTime ∧ o'.checkTime = (if e = .complete then time else o.checkTime) ∧
    o'.cfg = (if mode env o.cfg = .parallel then launchCfg env.zxTransformable o.cfg else o.cfg) ∧
    Stores o.cfg o.core o'.log o'.core := by
  cases h with
  | returned fuel s h hn =>
    obtain ⟨k1, k2⟩ := run_session h rfl
    have hm : mode env o.cfg ≠ .parallel := by
      intro hm
      have hm' : mode env o.state.begin.cfg = .parallel := hm
      simp [run, hm'] at h
    refine ⟨rfl, rfl, rfl, rfl, rfl, rfl, rfl, ?_, ?_, k2⟩
    · cases hst : storesTime env fuel o.state <;> simp [Obj.after]
    · rw [if_neg hm]; exact k1
  | threw fuel s h hn =>
    obtain ⟨k1, k2⟩ := run_session h rfl
    have hm : mode env o.cfg ≠ .parallel := by
      intro hm
      have hm' : mode env o.state.begin.cfg = .parallel := hm
      simp [run, hm'] at h
    refine ⟨rfl, rfl, rfl, rfl, rfl, rfl, rfl, rfl, ?_, k2⟩
    rw [if_neg hm]; exact k1
  | parallel old p hm ho h he =>
    have k := psession_steps (psession_start env.zxTransformable o.cfg o.core old) h
    have hs := launchCfg_maxSims env.zxTransformable o.cfg
    refine ⟨rfl, rfl, rfl, rfl, rfl, rfl, rfl, rfl, ?_, ?_, ?_⟩
    · rw [if_pos hm]; exact k.conf
    · have := k.stores.input; rw [hs] at this; exact this
    · have := k.stores.output; rw [hs] at this; exact this
  | parallelThrew old p hm ho h he =>
    have k := psession_steps (psession_start env.zxTransformable o.cfg o.core old) h
    have hs := launchCfg_maxSims env.zxTransformable o.cfg
    refine ⟨rfl, rfl, rfl, rfl, rfl, rfl, rfl, rfl, ?_, ?_, ?_⟩
    · rw [if_pos hm]; exact k.conf
    · have := k.stores.input; rw [hs] at this; exact this
    · have := k.stores.output; rw [hs] at this; exact this

/-! ## Histories -/

variable {qc1 qc2 : Info} {plain cfg : Configuration} {tp : Rat}

/-- **C78**: after any history of calls, the names, sizes and the configuration in the results are those at the latest `run()` since the last
`reset()`; without such a run they are those of an empty `Results`. -/
theorem session_metadata {t : List (Obj × Label)} {o : Obj} (h : Trace (construct qc1 qc2 plain cfg tp) t o) :
    (∀ b, lastRun t = some b → o.recorded1 = b.qc1 ∧ o.recorded2 = b.qc2 ∧ o.recordedCfg = b.cfg) ∧
    (lastRun t = none → o.recorded1 = {} ∧ o.recorded2 = {} ∧ o.recordedCfg = plain) := by
  have key : o.plain = plain ∧ (∀ b, lastRun t = some b → o.recorded1 = b.qc1 ∧ o.recorded2 = b.qc2 ∧ o.recordedCfg = b.cfg) ∧
      (lastRun t = none → o.recorded1 = {} ∧ o.recorded2 = {} ∧ o.recordedCfg = plain) := by
    induction h with
    | nil => exact ⟨rfl, by simp [lastRun], fun _ => ⟨rfl, rfl, rfl⟩⟩
    | cons ht hcall ih =>
      cases hcall with
      | set s => exact ih
      | optimize c1 c2 f => exact ih
      | reset => exact ⟨ih.1, by simp [lastRun], fun _ => ⟨rfl, rfl, ih.1⟩⟩
      | run _ env penv time e he hr =>
        obtain ⟨_, _, h3, h4, h5, h6, _⟩ := run_effect hr
        refine ⟨h3.trans ih.1, ?_, by simp [lastRun]⟩
        intro b hb
        simp only [lastRun, Option.some.injEq] at hb
        subst hb
        exact ⟨h4, h5, h6⟩
  exact key.2

/-- **C78**: after any history the preprocessing time is that of the construction, unless `reset()` has been called: then it is zero for good. -/
theorem session_preprocessing_time {t : List (Obj × Label)} {o : Obj} (h : Trace (construct qc1 qc2 plain cfg tp) t o) :
    (wasReset t → o.preprocessingTime = 0) ∧ (¬ wasReset t → o.preprocessingTime = tp) := by
  induction h with
  | nil => exact ⟨by simp [wasReset], fun _ => rfl⟩
  | @cons t o1 o2 l ht hcall ih =>
    have other : ∀ l, l ≠ .reset → (wasReset ((o1, l) :: t) ↔ wasReset t) := by
      intro l hl
      simp only [wasReset, List.mem_cons]
      constructor
      · rintro ⟨x, hx | hx, o, rfl⟩
        · cases hx; exact absurd rfl hl
        · exact ⟨_, hx, o, rfl⟩
      · rintro ⟨x, hx, o, rfl⟩
        exact ⟨_, .inr hx, o, rfl⟩
    cases hcall with
    | set s => rw [other _ (by simp)]; exact ih
    | optimize c1 c2 f => rw [other _ (by simp)]; exact ih
    | reset => exact ⟨fun _ => rfl, fun hn => absurd ⟨_, List.mem_cons_self, o1, rfl⟩ hn⟩
    | run _ env penv time e he hr =>
      rw [other _ (by simp), (run_effect hr).2.2.2.2.2.2.1]
      exact ih

/-- **C78**: after any history the check time is that of the latest run since the last `reset()` that stored it. -/
theorem session_check_time {t : List (Obj × Label)} {o : Obj} (h : Trace (construct qc1 qc2 plain cfg tp) t o) :
    o.checkTime = lastStoredTime t := by
  induction h with
  | nil => rfl
  | cons ht hcall ih =>
    cases hcall with
    | set s => exact ih
    | optimize c1 c2 f => exact ih
    | reset => rfl
    | run _ env penv time e he hr =>
      rw [(run_effect hr).2.2.2.2.2.2.2.1]
      cases e with
      | complete => rfl
      | early => exact ih
      | threw => exact ih

/-- **C78**: after any history the results hold a counterexample's input exactly if a run since the last `reset()` found one and was asked to
keep it; outputs likewise. -/
theorem session_counterexample {t : List (Obj × Label)} {o : Obj} (h : Trace (construct qc1 qc2 plain cfg tp) t o) :
    (o.core.cexInput.isSome = true ↔ storedBefore (fun c => c.simulation.storeCEXinput) t) ∧
    (o.core.cexOutput.isSome = true ↔ storedBefore (fun c => c.simulation.storeCEXoutput) t) := by
  induction h with
  | nil => exact ⟨by simp [storedBefore, construct], by simp [storedBefore, construct]⟩
  | cons ht hcall ih =>
    cases hcall with
    | set s => exact ih
    | optimize c1 c2 f => exact ih
    | reset => exact ⟨by simp [storedBefore, Obj.reset], by simp [storedBefore, Obj.reset]⟩
    | run _ env penv time e he hr =>
      have := (run_effect hr).2.2.2.2.2.2.2.2.2
      exact ⟨this.input.trans (or_congr Iff.rfl ih.1), this.output.trans (or_congr Iff.rfl ih.2)⟩

/-! ## When the time is stored, and which configuration is left -/

/-- **C78**: a run that returns stores its time unless nothing is to be executed, both circuits are empty, a simulation gave up (sequential flow), or the
circuits are symbolic, not supported and the deadline has not passed already. -/
theorem early_iff {env : Env} {penv : ParEnv} {time : Rat} {o o' : Obj} {e : Ends} (h : Run env penv time o e o') (ht : e ≠ .threw) :
    e = .early ↔ mode env o.cfg = .nothing ∨ mode env o.cfg = .empty ∨
      (mode env o.cfg = .sequential ∧ (⟨.simulation, .noInformation⟩ : Event) ∈ o'.log) ∨
      (mode env o.cfg = .symbolic ∧ env.zxTransformable = false ∧ ¬ (o.cfg.execution.timeout > 0 ∧ env.fired 0 = true)) := by
  cases h with
  | returned fuel s h hn =>
    have hst : (if storesTime env fuel o.state = true then Ends.complete else Ends.early) = .early ↔ storesTime env fuel o.state = false := by
      cases storesTime env fuel o.state <;> simp
    rw [hst]
    have hmode : mode env o.state.cfg = mode env o.cfg := rfl
    unfold storesTime
    rw [hmode]
    cases hm : mode env o.cfg with
    | nothing => simp
    | empty => simp
    | parallel => simp
    | sequential =>
      have hm' : mode env o.state.cfg = .sequential := hm
      rw [run_sequential hm', Option.some.injEq] at h
      obtain ⟨x, h1, h2⟩ := andThen_returned h
      have hs : s = x.report := by simpa using h2.symm
      obtain ⟨_, _, k⟩ := checkSequential_session (s := o.state.begin) rfl rfl (by rw [h1]; rfl)
      have k := k h1
      have hg : simulationGivesUp env fuel o.state = true ↔ (o.state.begin.cfg.execution.runSimulationChecker = true ∧
          ∃ x, simLoop env fuel 0 { o.state.begin with checkers := o.state.begin.checkers ++ [.simulation] } = .aborted x) := by
        unfold simulationGivesUp
        simp only [Bool.and_eq_true]
        refine and_congr Iff.rfl ?_
        show (match simLoop env fuel 0 { o.state.begin with checkers := o.state.begin.checkers ++ [.simulation] } with
          | .aborted _ => true | _ => false) = true ↔ _
        cases simLoop env fuel 0 { o.state.begin with checkers := o.state.begin.checkers ++ [.simulation] } <;> simp
      have hlog : (o.after s (if storesTime env fuel o.state then time else o.checkTime)).log = x.log := by rw [hs]; rfl
      unfold storesTime at hlog
      simp only [reduceCtorEq, false_or, true_and, false_and, or_false, Bool.not_eq_eq_eq_not, Bool.not_false]
      rw [hg, k]
      rw [hmode, hm] at hlog
      show _ ↔ _ ∈ s.log
      rw [hs]
      exact Iff.rfl
    | symbolic =>
      have h0 : o.state.begin.isDone env = true ↔ (o.cfg.execution.timeout > 0 ∧ env.fired 0 = true) := by
        simp [State.isDone, State.begin, State.timeoutSet, Obj.state]
      simp only [reduceCtorEq, false_or, true_and, false_and]
      rw [← h0]
      cases env.zxTransformable <;> simp
  | threw fuel s h hn => exact absurd rfl ht
  | parallel old p hm ho h he => simp [hm]
  | parallelThrew old p hm ho h he => exact absurd rfl ht

/-- The parallel flow switches a configured checker off: simulations if none are to be made, the ZX checker if it does not support the circuits and
is not the only one. -/
def SwitchesOff (zxOk : Bool) (c : Configuration) : Prop :=
  (c.execution.runSimulationChecker = true ∧ c.simulation.maxSims = 0) ∨
  (c.execution.runZXChecker = true ∧ zxOk = false ∧
    (c.execution.runAlternatingChecker = true ∨ c.execution.runConstructionChecker = true ∨
      (c.execution.runSimulationChecker = true ∧ c.simulation.maxSims ≠ 0)))

theorem launchCfg_iff (zxOk : Bool) (c : Configuration) : launchCfg zxOk c = c ↔ ¬ SwitchesOff zxOk c := by
  have flags : launchCfg zxOk c = c ↔ (launchCfg zxOk c).execution.runSimulationChecker = c.execution.runSimulationChecker ∧
      (launchCfg zxOk c).execution.runZXChecker = c.execution.runZXChecker := by
    constructor
    · intro h; rw [h]; exact ⟨rfl, rfl⟩
    · unfold launchCfg dropZX dropSims
      obtain ⟨ex, op, ap, fu, si, pa⟩ := c
      obtain ⟨n1, n2, n3, n4, n5, n6, n7, n8⟩ := ex
      by_cases hm : si.maxSims = 0 <;> cases n5 <;> cases n6 <;> cases n7 <;> cases n8 <;> cases zxOk <;>
        simp [hm, Configuration.onlyZXCheckerConfigured]
  rw [flags]
  unfold launchCfg dropZX dropSims SwitchesOff
  obtain ⟨ex, op, ap, fu, si, pa⟩ := c
  obtain ⟨n1, n2, n3, n4, n5, n6, n7, n8⟩ := ex
  by_cases hm : si.maxSims = 0 <;> cases n5 <;> cases n6 <;> cases n7 <;> cases n8 <;> cases zxOk <;>
    simp [hm, Configuration.onlyZXCheckerConfigured]

/-- **C78**: the configuration the results show is the one left in the manager, except if the flow was parallel and switched a configured checker off;
then it differs from it in nothing but that. -/
theorem recorded_configuration_iff {env : Env} {penv : ParEnv} {time : Rat} {o o' : Obj} {e : Ends} (h : Run env penv time o e o') :
    (o'.cfg = o'.recordedCfg ↔ ¬ (mode env o.cfg = .parallel ∧ SwitchesOff env.zxTransformable o.cfg)) ∧
    o'.cfg.optimizations = o'.recordedCfg.optimizations ∧ o'.cfg.application = o'.recordedCfg.application ∧
    o'.cfg.functionality = o'.recordedCfg.functionality ∧ o'.cfg.simulation = o'.recordedCfg.simulation ∧
    o'.cfg.parameterized = o'.recordedCfg.parameterized ∧
    (∃ sim zx : Bool, o'.cfg.execution = { o'.recordedCfg.execution with
        runSimulationChecker := o'.recordedCfg.execution.runSimulationChecker && sim
        runZXChecker := o'.recordedCfg.execution.runZXChecker && zx }) := by
  obtain ⟨_, _, _, _, _, h6, _, _, h9, _⟩ := run_effect h
  rw [h6, h9]
  by_cases hm : mode env o.cfg = .parallel
  · rw [if_pos hm, launchCfg_iff]
    refine ⟨by simp [hm], ?_⟩
    unfold launchCfg dropZX dropSims
    refine ⟨?_, ?_, ?_, ?_, ?_, !decide (o.cfg.simulation.maxSims = 0),
      env.zxTransformable || (dropSims o.cfg).onlyZXCheckerConfigured, ?_⟩
    iterate 5 (split <;> split <;> rfl)
    obtain ⟨ex, op, ap, fu, si, pa⟩ := o.cfg
    obtain ⟨n1, n2, n3, n4, n5, n6, n7, n8⟩ := ex
    by_cases hx : si.maxSims = 0 <;> cases n5 <;> cases n6 <;> cases n7 <;> cases n8 <;> cases env.zxTransformable <;>
      simp [hx, Configuration.onlyZXCheckerConfigured, dropSims]
  · rw [if_neg hm]
    exact ⟨by simp [hm], rfl, rfl, rfl, rfl, rfl, true, true, by simp⟩

end QCEC.Props
