import Verif.Props.Counterexample
import Verif.Props.SequentialWitness
/-!
# The reports of the checkers (C59)
-/
namespace QCEC.Props
open QCEC QCEC.Mgr QCEC.Spec

/-- The checkers created so far by this run (appended to those of earlier runs): in the order of the stages, each at most once,
only enabled ones, and all that have completed a run. -/
structure Created (s0 : State) (r : Nat) (s : State) (new : List Kind) : Prop where
  table : s.checkers = s0.checkers ++ new
  order : new.Pairwise fun a b => rank a < rank b
  upto : ∀ k ∈ new, Enabled s0.cfg k ∧ rank k ≤ r
  ran : ∀ e ∈ s.log, e.kind ∈ new
  conf : s.cfg = s0.cfg
  reports : s.results.checkerResults = s0.results.checkerResults

theorem Created.mono {s0 s : State} {r r' : Nat} {new : List Kind} (h : Created s0 r s new) (hr : r ≤ r') : Created s0 r' s new :=
  ⟨h.table, h.order, fun k hk => ⟨(h.upto k hk).1, Nat.le_trans (h.upto k hk).2 hr⟩, h.ran, h.conf, h.reports⟩

theorem Created.same {s0 s s' : State} {r : Nat} {new : List Kind} (h : Created s0 r s new) (h1 : s'.checkers = s.checkers)
    (h2 : s'.log = s.log) (h3 : s'.cfg = s.cfg) (h4 : s'.results.checkerResults = s.results.checkerResults) : Created s0 r s' new :=
  ⟨h1.trans h.table, h.order, h.upto, by rw [h2]; exact h.ran, h3.trans h.conf, h4.trans h.reports⟩

/-- The checker of the next stage is created. -/
theorem Created.add {s0 s s' : State} {r : Nat} {new : List Kind} (h : Created s0 r s new) (k : Kind) (hk : r < rank k)
    (he : Enabled s0.cfg k) (h1 : s'.checkers = s.checkers ++ [k]) (h2 : ∀ e ∈ s'.log, e ∈ s.log ∨ e.kind = k)
    (h3 : s'.cfg = s.cfg) (h4 : s'.results.checkerResults = s.results.checkerResults) :
    Created s0 (rank k) s' (new ++ [k]) := by
  refine ⟨by rw [h1, h.table, List.append_assoc], ?_, ?_, ?_, h3.trans h.conf, h4.trans h.reports⟩
  · rw [List.pairwise_append]
    refine ⟨h.order, List.pairwise_singleton _ _, ?_⟩
    intro a ha b hb
    rw [List.mem_singleton.mp hb]
    exact Nat.lt_of_le_of_lt (h.upto a ha).2 hk
  · intro a ha
    rcases List.mem_append.mp ha with ha | ha
    · exact ⟨(h.upto a ha).1, Nat.le_of_lt (Nat.lt_of_le_of_lt (h.upto a ha).2 hk)⟩
    · rw [List.mem_singleton.mp ha]; exact ⟨he, Nat.le_refl _⟩
  · intro e he
    rcases h2 e he with h2 | h2
    · exact List.mem_append_left _ (h.ran e h2)
    · rw [h2]; simp

theorem mem_record {l : List Event} {ev e : Event} (h : e ∈ l ++ [ev]) : e ∈ l ∨ e.kind = ev.kind := by
  rcases List.mem_append.mp h with h | h
  · exact Or.inl h
  · rw [List.mem_singleton.mp h]; exact Or.inr rfl

theorem definitiveStage_created (env : Env) (kind : Kind) (o : Outcome) (enabled : Bool) (s0 s : State) (new : List Kind) (r : Nat)
    (hr : r < rank kind) (hen : enabled = true → Enabled s0.cfg kind) (h : Created s0 r s new) :
    (definitiveStage env kind enabled o s).Holds fun s' => ∃ new', Created s0 (rank kind) s' new' := by
  have hm := h.mono (Nat.le_of_lt hr)
  unfold definitiveStage
  split
  · exact ⟨new, hm⟩
  · rename_i he
    have he' := hen (by simpa using he)
    split
    · exact ⟨new, hm.same rfl rfl rfl rfl⟩
    · cases o with
      | ctorThrows => exact ⟨new, hm.same rfl rfl rfl rfl⟩
      | runThrows =>
        simp only
        split <;> exact ⟨_, h.add kind hr he' rfl (fun e he => Or.inl he) rfl rfl⟩
      | returns c =>
        simp only
        split
        · exact ⟨_, h.add kind hr he' rfl (fun e he => Or.inl he) rfl rfl⟩
        · split
          · exact ⟨_, h.add kind hr he' rfl (fun e he => mem_record (ev := ⟨kind, c⟩) he) rfl rfl⟩
          · exact ⟨_, h.add kind hr he' rfl (fun e he => mem_record (ev := ⟨kind, c⟩) he) rfl rfl⟩

/-- Only the ZX checker is configured and the circuits are not supported. -/
def ZXOnlyUnsupported (env : Env) (cfg : Configuration) : Prop :=
  cfg.onlyZXCheckerConfigured = true ∧ env.zxTransformable = false

theorem zxStage_created (env : Env) (s0 s : State) (new : List Kind) (h : Created s0 2 s new) :
    (zxStage env s).Holds fun s' => (∃ new', Created s0 3 s' new') ∨
      (ZXOnlyUnsupported env s0.cfg ∧ s'.checkers = [] ∧ s'.results.checkerResults = s0.results.checkerResults) := by
  have hm := h.mono (show 2 ≤ 3 by omega)
  unfold zxStage
  split
  · exact Or.inl ⟨new, hm⟩
  · rename_i he
    have he' : Enabled s0.cfg .zx := by
      rw [← h.conf]; simpa [Enabled] using he
    split
    · exact Or.inl ⟨new, hm.same rfl rfl rfl rfl⟩
    · simp only
      split
      · split
        · trivial
        · split <;> exact Or.inl ⟨_, h.add .zx (by simp [rank]) he' rfl (fun e he => Or.inl he) rfl rfl⟩
        · rename_i c _
          split
          · exact Or.inl ⟨_, h.add .zx (by simp [rank]) he' rfl (fun e he => Or.inl he) rfl rfl⟩
          · exact Or.inl ⟨_, h.add .zx (by simp [rank]) he' rfl (fun e he => mem_record (ev := ⟨.zx, c⟩) he) rfl rfl⟩
      · rename_i hz
        split
        · rename_i ho
          have ho' : s0.cfg.onlyZXCheckerConfigured = true := by rw [← h.conf]; exact ho
          exact Or.inr ⟨⟨ho', by simpa using hz⟩, rfl, h.reports⟩
        · exact Or.inl ⟨new, hm.same rfl rfl rfl rfl⟩

theorem stages_created (env : Env) (s0 s : State) (new : List Kind) (h : Created s0 0 s new) (s' : State)
    (hs : stages env s = .returned s') : (∃ new', Created s0 3 s' new') ∨
      (ZXOnlyUnsupported env s0.cfg ∧ s'.checkers = [] ∧ s'.results.checkerResults = s0.results.checkerResults) := by
  unfold stages at hs
  obtain ⟨t2, h2, h3⟩ := andThen_returned hs
  obtain ⟨t1, h1, h2'⟩ := andThen_returned h2
  have g1 := definitiveStage_created env .alternating env.alternating s.cfg.execution.runAlternatingChecker s0 s new 0
    (by simp [rank]) (fun hh => by rw [h.conf] at hh; exact hh) h
  rw [h1] at g1
  obtain ⟨n1, g1⟩ := g1
  have g2 := definitiveStage_created env .construction env.construction t1.cfg.execution.runConstructionChecker s0 t1 n1 1
    (by simp [rank]) (fun hh => by rw [g1.conf] at hh; exact hh) g1
  rw [h2'] at g2
  obtain ⟨n2, g2⟩ := g2
  have g3 := zxStage_created env s0 t2 n2 g2
  rw [h3] at g3
  exact g3

theorem simLoop_created (env : Env) : ∀ fuel k s s', simEndState (simLoop env fuel k s) = some s' →
    s'.checkers = s.checkers ∧ s'.cfg = s.cfg ∧ s'.results.checkerResults = s.results.checkerResults ∧
    ∀ e ∈ s'.log, e ∈ s.log ∨ e.kind = .simulation := by
  intro fuel
  induction fuel with
  | zero => intro k s s' h; simp [simLoop, simEndState] at h
  | succ n ih =>
    intro k s s' h
    unfold simLoop at h
    split at h
    · simp only [simEndState, Option.some.injEq] at h; subst h; exact ⟨rfl, rfl, rfl, fun e he => Or.inl he⟩
    · split at h
      · simp only [simEndState, Option.some.injEq] at h; subst h; exact ⟨rfl, rfl, rfl, fun e he => Or.inl he⟩
      · split at h
        · simp only [simEndState, Option.some.injEq] at h; subst h; exact ⟨rfl, rfl, rfl, fun e he => Or.inl he⟩
        · rename_i r _
          simp only at h
          split at h
          · simp only [simEndState, Option.some.injEq] at h; subst h
            exact ⟨rfl, rfl, rfl, fun e he => mem_record (ev := ⟨.simulation, r⟩) he⟩
          · split at h
            · simp only [simEndState, Option.some.injEq] at h; subst h
              exact ⟨rfl, rfl, rfl, fun e he => mem_record (ev := ⟨.simulation, r⟩) he⟩
            · obtain ⟨h1, h2, h3, h4⟩ := ih _ _ _ h
              refine ⟨h1, h2, h3, fun e he => ?_⟩
              rcases h4 e he with h5 | h5
              · exact mem_record (ev := ⟨.simulation, r⟩) h5
              · exact Or.inr h5

theorem checkSequential_created (env : Env) (fuel : Nat) (s s' : State) (hl : s.log = [])
    (h : checkSequential env fuel s = .returned s') : (∃ new', Created s 3 s' new') ∨
      (ZXOnlyUnsupported env s.cfg ∧ s'.checkers = [] ∧ s'.results.checkerResults = s.results.checkerResults) := by
  have fin : ∀ e : Ending, (match e with | .threw y => leave y (.threw y) | e => e) = .returned s' → e = .returned s' := by
    intro e he
    cases e with
    | threw y => simp only [leave] at he; split at he <;> simp at he
    | returned y => exact he
    | terminated => exact he
    | diverged => exact he
  unfold checkSequential at h
  simp only at h
  split at h
  · rename_i hen
    split at h
    · unfold leave at h; split at h <;> simp at h
    · have hc := simLoop_created env fuel 0 { s with checkers := s.checkers ++ [.simulation] }
      have mk : ∀ x : State, (x.checkers = s.checkers ++ [.simulation] ∧ x.cfg = s.cfg ∧
          x.results.checkerResults = s.results.checkerResults ∧ ∀ e ∈ x.log, e ∈ s.log ∨ e.kind = .simulation) →
          Created s 0 x [.simulation] := by
        rintro x ⟨h1, h2, h3, h4⟩
        refine ⟨h1, List.pairwise_singleton _ _, ?_, ?_, h2, h3⟩
        · intro k hk
          rw [List.mem_singleton.mp hk]
          exact ⟨hen, by simp [rank]⟩
        · intro e he
          rcases h4 e he with h5 | h5
          · rw [hl] at h5; simp at h5
          · rw [h5]; simp
      revert h hc
      cases simLoop env fuel 0 { s with checkers := s.checkers ++ [.simulation] } with
      | diverged => intro h _; simp at h
      | threw x => intro h _; simp only [leave] at h; split at h <;> simp at h
      | aborted x =>
        intro h hc
        have hx : x = s' := by
          simp only [leave] at h
          split at h
          · simp at h
          · simpa using h
        subst hx
        exact Or.inl ⟨_, (mk x (hc x rfl)).mono (by omega)⟩
      | finished x =>
        intro h hc
        have hm := mk x (hc x rfl)
        refine stages_created env s (afterSims x) [.simulation] ?_ s' (fin _ h)
        unfold afterSims
        split <;> exact hm.same rfl rfl rfl rfl
  · refine stages_created env s s [] ?_ s' (fin _ h)
    exact ⟨by simp, List.Pairwise.nil, by simp, by simp [hl], rfl, rfl⟩

/-- **C59** (sequential): the reports of a sequential run are appended to those of earlier runs and describe, in the order of the
stages and each at most once, the checkers that were created, all of them enabled and among them every one that completed a run.
If earlier checkers are still in the table (no `reset()` in between) they are reported again.  If only the ZX checker is enabled and
the circuits are not supported there is no report. -/
theorem sequential_reports {env : Env} {fuel : Nat} {s s' : State} (hm : mode env s.cfg = .sequential)
    (h : run env fuel s = some (.returned s')) :
    (∃ new, s'.checkers = s.checkers ++ new ∧
      s'.results.checkerResults = s.results.checkerResults ++ (s.checkers ++ new) ∧
      (new.Pairwise fun a b => rank a < rank b) ∧ (∀ k ∈ new, Enabled s.cfg k) ∧ (∀ e ∈ s'.log, e.kind ∈ new)) ∨
    (s.cfg.onlyZXCheckerConfigured = true ∧ env.zxTransformable = false ∧ s'.checkers = [] ∧
      s'.results.checkerResults = s.results.checkerResults) := by
  obtain ⟨t, hck, _, rfl⟩ := sequential_checked hm h
  rcases checkSequential_created env fuel s.begin t rfl hck with ⟨new, hc⟩ | ⟨⟨h1, h2⟩, h3, h4⟩
  · refine Or.inl ⟨new, hc.table, ?_, hc.order, fun k hk => (hc.upto k hk).1, hc.ran⟩
    show t.results.checkerResults ++ t.checkers = _
    rw [hc.reports, hc.table]; rfl
  · refine Or.inr ⟨h1, h2, h3, ?_⟩
    show t.results.checkerResults ++ t.checkers = _
    rw [h3, h4, List.append_nil]; rfl

/-- **C59** (symbolic): the only report is that of the ZX checker, if it was created. -/
theorem symbolic_reports {env : Env} {fuel : Nat} {s s' : State} (hm : mode env s.cfg = .symbolic)
    (h : run env fuel s = some (.returned s')) (h0 : s.checkers = []) :
    s'.results.checkerResults = s.results.checkerResults ++ s'.checkers ∧ (s'.checkers = [] ∨ s'.checkers = [.zx]) ∧
    (∀ e ∈ s'.log, s'.checkers = [.zx]) := by
  have hm' : mode env s.begin.cfg = .symbolic := hm
  unfold run at h
  simp only [hm', Option.some.injEq] at h
  obtain ⟨t, ht, hr⟩ := andThen_returned h
  cases hr
  have hb : s.begin.checkers = [] := h0
  have hbr : s.begin.results.checkerResults = s.results.checkerResults := rfl
  unfold checkSymbolic at ht
  have hlv : ∀ x e, leave x e = .returned t → e = .returned t := by
    intro x e he
    unfold leave at he
    split at he
    · simp at he
    · exact he
  split at ht
  · cases ht
    exact ⟨rfl, Or.inl hb, by simp [State.report, State.tick, State.begin]⟩
  · simp only at ht
    split at ht
    · split at ht
      · simp at ht
      · split at ht
        · cases ht
          exact ⟨rfl, Or.inr (by simp [State.report, State.tick, hb]), by simp [State.report, State.tick, State.begin]⟩
        · have := hlv _ _ ht; simp at this
      · split at ht
        · cases ht
          exact ⟨rfl, Or.inr (by simp [State.report, State.tick, hb]), by simp [State.report, State.tick, State.begin]⟩
        · cases ht
          have hz : ∀ x : State, x.checkers = [] → ∀ c : Criterion,
              ({ (({ x.tick with checkers := x.tick.checkers ++ [Kind.zx] } : State).tick.record .zx c).setEq c with done := true } : State).report.checkers
                = [Kind.zx] := by
            intro x hx c
            simp [State.report, State.tick, State.record, State.setEq, hx]
          exact ⟨rfl, Or.inr (hz _ hb _), fun _ _ => hz _ hb _⟩
    · have := hlv _ _ ht
      simp only [Ending.returned.injEq] at this
      subst this
      exact ⟨rfl, Or.inl rfl, by simp [State.report, State.tick, State.begin, State.setEq]⟩

/-! ### Hypotheses are met -/

/-- The second of three simulations finds a counterexample: its vectors are stored and only the simulation checker reports. -/
example : mode (testEnv (fun k => if k = 1 then some .notEquivalent else some .probablyEquivalent) (.returns .equivalent) .ctorThrows .ctorThrows)
      (testCfg true true false false 3 0) = .sequential ∧
    (stateOf (run (testEnv (fun k => if k = 1 then some .notEquivalent else some .probablyEquivalent) (.returns .equivalent) .ctorThrows .ctorThrows) 5
      (State.fresh { testCfg true true false false 3 0 with simulation := { maxSims := 3, storeCEXinput := true } }))).map
      (fun s => (s.log, s.results.cexInput, s.results.cexOutput, s.results.checkerResults)) =
      some ([⟨.simulation, .probablyEquivalent⟩, ⟨.simulation, .notEquivalent⟩], some 1, none, [.simulation]) := ⟨rfl, rfl⟩

/-- **Running again without `reset()` reports earlier checkers once more.** -/
theorem rerun_reports_twice :
    (stateOf (run passing 5 (State.fresh (testCfg false true false false 0 0)))).bind
      (fun s => (stateOf (run passing 5 s)).map fun s => s.results.checkerResults) =
      some [.alternating, .alternating, .alternating] := rfl

/-- A configuration and circuits for which the parallel flow is used. -/
example : mode passing { testCfg true true false true 16 0 with
    execution := { (testCfg true true false true 16 0).execution with parallel := true, nthreads := 2 } } = .parallel := rfl

end QCEC.Props
