import Verif.Lemmas.ParallelHang
import Verif.Props.Sequential
/-!
# The parallel flow (C13-C19, C21)

Every theorem quantifies over all interleavings of the main thread and the workers, all checker behaviours the environment
admits, and all configurations.
-/
namespace QCEC.Props
open QCEC QCEC.Mgr QCEC.Spec QCEC.Par

theorem enabled_of_launch {zxOk : Bool} {c : Configuration} {k : Kind} (h : Enabled (launchCfg zxOk c) k) : Enabled c k := by
  rcases c with ⟨⟨_,_,_,_,rc,rs,ra,rz⟩,_,_,_,⟨_,ms,_,_,_,_⟩,_⟩
  revert h
  unfold Enabled launchCfg dropZX dropSims Configuration.onlyZXCheckerConfigured
  by_cases hm : ms = 0 <;> cases k <;> cases rc <;> cases rs <;> cases ra <;> cases rz <;> cases zxOk <;> simp [hm]

/-- No step leaves a final state. -/
theorem ended_final {env : ParEnv} {s s' : PState} {e : PEnding} (h : s.main = .ended e) : ¬ Step env s s' := by
  intro hst
  cases hst <;> simp_all

/-! ## C13 -/

/-- **C13**: the verdict of a parallel run that returned is explained by the completions it handled: every one of them is the
answer of an enabled checker, a settling answer is the last one handled and determines the verdict, and without one the verdict
is what passed simulations and suspicions of the ZX checker justify. -/
theorem parallel_verdict_explained {env : ParEnv} {cfg : Configuration} {res : Results} {s : PState} (hz : ZXAnswers env)
    (h : Reachable env cfg res s) (_hr : s.main = .ended .returned) :
    ParExplained (s.results.performedSimulations = cfg.simulation.maxSims) s.log s.results.equivalence ∧
    (∀ e ∈ s.log, env.may e.kind e.verdict ∧ Enabled cfg e.kind) ∧
    (∀ l1 e l2, s.log = l1 ++ e :: l2 → Conclusive e ∨ GivesUp e → l2 = []) := by
  have hv := reachable_vinv hz.never h
  have hb := reachable_base h
  refine ⟨?_, ?_, hv.last⟩
  · have := hv.explained
    unfold AllSims at this
    rw [hb.conf, launchCfg_maxSims] at this
    exact this
  · intro e he
    have := hv.prov e he
    rw [hb.conf] at this
    exact ⟨this.1, enabled_of_launch this.2⟩

/-- **C13**: no verdict is invented. -/
theorem parallel_verdict_not_invented {env : ParEnv} {cfg : Configuration} {res : Results} {s : PState} (hz : ZXAnswers env)
    (h : Reachable env cfg res s) (hr : s.main = .ended .returned) :
    match s.results.equivalence with
    | .noInformation => True
    | .probablyEquivalent => (∃ c, c ≠ .noInformation ∧ c ≠ .notEquivalent ∧ env.may .simulation c ∧
        cfg.execution.runSimulationChecker = true) ∨ ∃ e ∈ s.log, Conclusive e ∧ e.verdict = .probablyEquivalent
    | .probablyNotEquivalent => (env.may .zx .probablyNotEquivalent ∧ cfg.execution.runZXChecker = true) ∨
        ∃ e ∈ s.log, Conclusive e ∧ e.verdict = .probablyNotEquivalent
    | v => ∃ e ∈ s.log, Conclusive e ∧ e.verdict = v ∧ env.may e.kind v ∧ Enabled cfg e.kind := by
  obtain ⟨hx, hp, _⟩ := parallel_verdict_explained hz h hr
  by_cases hc : ∃ e ∈ s.log, Conclusive e
  · obtain ⟨e, he, hce⟩ := hc
    have hv := hx.1 e he hce
    have hpe := hp e he
    cases hq : s.results.equivalence <;> rw [hq] at hv <;> simp only
    case probablyEquivalent => exact Or.inr ⟨e, he, hce, hv.symm⟩
    case probablyNotEquivalent => exact Or.inr ⟨e, he, hce, hv.symm⟩
    all_goals exact ⟨e, he, hce, hv.symm, hv ▸ hpe.1, hpe.2⟩
  · by_cases hg : ∃ e ∈ s.log, GivesUp e
    · obtain ⟨e, he, hge⟩ := hg
      rw [hx.2.1 e he hge]
      trivial
    · have hv := hx.2.2 fun e he => ⟨fun h' => hc ⟨e, he, h'⟩, fun h' => hg ⟨e, he, h'⟩⟩
      rw [hv]
      unfold parEvidence
      by_cases hs : ∃ e ∈ s.log, Suspects e
      · rw [if_pos hs]
        by_cases hpf : (∃ e ∈ s.log, Passed e) ∧ s.results.performedSimulations = cfg.simulation.maxSims
        · rw [if_pos hpf]; trivial
        · rw [if_neg hpf]
          obtain ⟨e, he, hk, hve⟩ := hs
          have := hp e he
          rw [hk, hve] at this
          exact Or.inl this
      · rw [if_neg hs]
        by_cases hpass : ∃ e ∈ s.log, Passed e
        · rw [if_pos hpass]
          obtain ⟨e, he, hk, h1, h2⟩ := hpass
          have := hp e he
          rw [hk] at this
          exact Or.inl ⟨_, h1, h2, this.1, this.2⟩
        · rw [if_neg hpass]; trivial

/-- **C13**: a run that returned without a settling answer and before the deadline did so for a reason: the only checker is the
ZX checker and it had its say or cannot be used, or all simulations were performed and either nothing else is configured or the
ZX checker contradicts them. -/
theorem handle_stop_reason {cfg : Configuration} {r : Results} {k : Kind} {c : Criterion}
    (h : (handle cfg r k c).2 = .stop) (hk : k = .zx → c ≠ .notEquivalent) :
    Conclusive ⟨k, c⟩ ∨ GivesUp ⟨k, c⟩ ∨ (k = .zx ∧ cfg.onlyZXCheckerConfigured = true) ∨
    ((handle cfg r k c).1.performedSimulations = cfg.simulation.maxSims ∧
      (cfg.onlySimulationCheckerConfigured = true ∨ (handle cfg r k c).1.equivalence = .noInformation)) := by
  unfold handle at h ⊢
  split at h
  · rename_i hc
    subst hc
    split at h
    · rename_i hkz
      split at h
      · rename_i ho
        exact Or.inr (Or.inr (Or.inl ⟨hkz, ho⟩))
      · simp at h
    · rename_i hkz
      exact Or.inr (Or.inl ⟨hkz, rfl⟩)
  · rename_i hc
    split at h
    · rename_i hne
      subst hne
      left
      cases k <;> simp_all [Conclusive]
    · rename_i hne
      rw [if_neg hc, if_neg hne]
      cases k with
      | alternating => exact Or.inl hc
      | construction => exact Or.inl hc
      | zx =>
        simp only at h ⊢
        unfold handleZX at h ⊢
        split at h
        · rename_i he; exact Or.inl he
        · rename_i he
          split at h
          · rename_i hp
            split at h
            · rename_i hpe
              split at h
              · rename_i hf
                rw [if_neg he, if_pos hp, if_pos hpe, if_pos hf]
                exact Or.inr (Or.inr (Or.inr ⟨by simpa [simsFinished, setEq] using hf, Or.inr rfl⟩))
              · simp at h
            · split at h
              · split at h
                · rename_i ho; exact Or.inr (Or.inr (Or.inl ⟨trivial, ho⟩))
                · simp at h
              · simp at h
          · simp at h
      | simulation =>
        simp only at h ⊢
        unfold handleSim at h ⊢
        split at h
        · rename_i hf
          split at h
          · rename_i ho
            rw [if_pos hf, if_pos ho]
            exact Or.inr (Or.inr (Or.inr ⟨by simpa [simsFinished] using hf, Or.inl ho⟩))
          · rename_i ho
            split at h
            · rename_i hp
              rw [if_pos hf, if_neg ho, if_pos hp]
              exact Or.inr (Or.inr (Or.inr ⟨by simpa [simsFinished, setEq] using hf, Or.inr rfl⟩))
            · simp at h
        · split at h <;> simp at h

/-- **C13**: why the run stopped waiting. -/
theorem parallel_stop_reason {env : ParEnv} {cfg : Configuration} {res : Results} {s : PState} (hz : ZXAnswers env)
    (h : Reachable env cfg res s) (hd : s.done = true) :
    s.timedOut = true ∨ zxGivesUp env.zxTransformable cfg = true ∨
    (∃ l e, s.log = l ++ [e] ∧ (Conclusive e ∨ GivesUp e ∨
      (e.kind = .zx ∧ s.cfg.onlyZXCheckerConfigured = true) ∨
      (s.results.performedSimulations = cfg.simulation.maxSims ∧
        (s.cfg.onlySimulationCheckerConfigured = true ∨ s.results.equivalence = .noInformation)))) := by
  revert hd
  refine h.induct (P := fun s => s.done = true → s.timedOut = true ∨ zxGivesUp env.zxTransformable cfg = true ∨
    (∃ l e, s.log = l ++ [e] ∧ (Conclusive e ∨ GivesUp e ∨
      (e.kind = .zx ∧ s.cfg.onlyZXCheckerConfigured = true) ∨
      (s.results.performedSimulations = cfg.simulation.maxSims ∧
        (s.cfg.onlySimulationCheckerConfigured = true ∨ s.results.equivalence = .noInformation))))) ?_ ?_
  · intro hd
    exact Or.inr (Or.inl hd)
  · intro s s' hb ih hst hd
    rcases step_effect hst with ⟨hr, hl, hc, hd'⟩ | ⟨i, x, q, hm, hq, hx, hf, rfl⟩
    · rcases hd' with ⟨h1, h2⟩ | ⟨_, _, h3, _⟩
      · rw [hr, hl, hc, h2]
        exact ih (h1 ▸ hd)
      · exact Or.inl h3
    · right; right
      have hd0 := hb.ctl.wait hm
      have hpc := hb.head hx hq
      have hmay : env.may x.kind x.eq := by
        rcases ((hb.slots x (List.mem_of_getElem? hx)).result (Or.inr hpc) hf).2 with h' | h'
        · rw [hd0] at h'; simp at h'
        · exact h'
      have hstop : (handle s.cfg s.results x.kind x.eq).2 = .stop := by simpa [PState.popped] using hd
      refine ⟨s.log, ⟨x.kind, x.eq⟩, rfl, ?_⟩
      have := handle_stop_reason hstop (fun hk hc => hz.never (by rw [← hk, ← hc]; exact hmay))
      have hms : cfg.simulation.maxSims = s.cfg.simulation.maxSims := by rw [hb.conf, launchCfg_maxSims]
      rw [hms]
      exact this

/-! ## C16 -/

/-- **C16** (parallel): a suspicion of the ZX checker is reported as such unless a settling answer arrives, a check gives up, or
all simulations pass; it never becomes a negative verdict. -/
theorem parallel_suspicion_reported {env : ParEnv} {cfg : Configuration} {res : Results} {s : PState} (hz : ZXAnswers env)
    (h : Reachable env cfg res s) (hr : s.main = .ended .returned) (hs : ∃ e ∈ s.log, Suspects e)
    (hn : ∀ e ∈ s.log, ¬ Conclusive e ∧ ¬ GivesUp e) :
    s.results.equivalence = .probablyNotEquivalent ∨
    (s.results.equivalence = .noInformation ∧ (∃ e ∈ s.log, Passed e) ∧
      s.results.performedSimulations = cfg.simulation.maxSims) := by
  have := (parallel_verdict_explained hz h hr).1.2.2 hn
  rw [this]
  unfold parEvidence
  rw [if_pos hs]
  split
  · rename_i hp; exact Or.inr ⟨rfl, hp⟩
  · exact Or.inl rfl

/-- **C16** (parallel): an unsuccessful ZX check has no influence on the verdict. -/
theorem parallel_zx_without_answer {env : ParEnv} {cfg : Configuration} {res : Results} {s : PState} (hz : ZXAnswers env)
    (h : Reachable env cfg res s) (hr : s.main = .ended .returned)
    (hno : ∀ e ∈ s.log, e.kind = .zx → e.verdict = .noInformation) :
    ParExplained (s.results.performedSimulations = cfg.simulation.maxSims) (s.log.filter fun e => !decide (e.kind = .zx))
      s.results.equivalence := by
  obtain ⟨hx, _, _⟩ := parallel_verdict_explained hz h hr
  have hmem : ∀ e, e ∈ s.log.filter (fun e => !decide (e.kind = .zx)) ↔ e ∈ s.log ∧ e.kind ≠ .zx := by
    intro e; simp
  have hz' : ∀ e ∈ s.log, e.kind = .zx → ¬ Conclusive e ∧ ¬ GivesUp e ∧ ¬ Suspects e ∧ ¬ Passed e := by
    intro e he hk
    have hv := hno e he hk
    obtain ⟨k, v⟩ := e
    simp only at hk hv
    subst hk hv
    simp [Conclusive, GivesUp, Suspects, Passed]
  refine ⟨fun e he hc => hx.1 e ((hmem e).mp he).1 hc, fun e he hc => hx.2.1 e ((hmem e).mp he).1 hc, fun hn => ?_⟩
  have hall : ∀ e ∈ s.log, ¬ Conclusive e ∧ ¬ GivesUp e := by
    intro e he
    by_cases hk : e.kind = .zx
    · exact ⟨(hz' e he hk).1, (hz' e he hk).2.1⟩
    · exact hn e ((hmem e).mpr ⟨he, hk⟩)
  rw [hx.2.2 hall]
  have h1 : ¬ ∃ e ∈ s.log, Suspects e := by
    rintro ⟨e, he, hs⟩
    exact (hz' e he hs.1).2.2.1 hs
  have h2 : ¬ ∃ e ∈ s.log.filter (fun e => !decide (e.kind = .zx)), Suspects e := by
    rintro ⟨e, he, hs⟩
    exact ((hmem e).mp he).2 hs.1
  unfold parEvidence
  rw [if_neg h1, if_neg h2]
  have h3 : (∃ e ∈ s.log, Passed e) ↔ ∃ e ∈ s.log.filter (fun e => !decide (e.kind = .zx)), Passed e := by
    constructor
    · rintro ⟨e, he, hp⟩
      exact ⟨e, (hmem e).mpr ⟨he, by rw [hp.1]; simp⟩, hp⟩
    · rintro ⟨e, he, hp⟩
      exact ⟨e, ((hmem e).mp he).1, hp⟩
  by_cases hp : ∃ e ∈ s.log, Passed e
  · rw [if_pos hp, if_pos (h3.mp hp)]
  · rw [if_neg hp, if_neg (mt h3.mpr hp)]

/-! ## C17 -/

/-- **C17** (parallel): whatever the interleaving, if the answers of the enabled checkers are right about the pair of circuits,
so is the verdict. -/
theorem parallel_sound {env : ParEnv} {cfg : Configuration} {res : Results} {s : PState} (eqv : Prop) (hz : ZXAnswers env)
    (h : Reachable env cfg res s) (hr : s.main = .ended .returned)
    (hsound : ∀ e : Event, env.may e.kind e.verdict → Enabled cfg e.kind → SoundEvent eqv e) :
    SoundVerdict eqv s.results.equivalence := by
  obtain ⟨hx, hp, _⟩ := parallel_verdict_explained hz h hr
  by_cases hc : ∃ e ∈ s.log, Conclusive e
  · obtain ⟨e, he, hce⟩ := hc
    have hs := hsound e (hp e he).1 (hp e he).2
    rw [hx.1 e he hce]
    unfold SoundEvent at hs
    unfold Conclusive at hce
    cases hk : e.kind <;> simp only [hk] at hs hce
    · exact ⟨fun hv => hs hv, fun hv => by rw [hce] at hv; simp at hv⟩
    · exact hs
    · exact hs
    · refine ⟨fun hv => ?_, fun _ => hs hce⟩
      rw [hv] at hce; simp at hce
  · by_cases hg : ∃ e ∈ s.log, GivesUp e
    · obtain ⟨e, he, hge⟩ := hg
      rw [hx.2.1 e he hge]
      unfold SoundVerdict
      simp
    · rw [hx.2.2 fun e he => ⟨fun h' => hc ⟨e, he, h'⟩, fun h' => hg ⟨e, he, h'⟩⟩]
      unfold parEvidence SoundVerdict
      split <;> split <;> simp

/-- **C17**: a sequential run and a parallel run of checkers that are right about the circuits never contradict each other,
and neither do two parallel runs with different interleavings (take `SoundVerdict` from `parallel_sound` twice). -/
theorem flows_never_contradict {env : Env} {fuel : Nat} {s s' : State} {penv : ParEnv} {cfg : Configuration} {res : Results}
    {p : PState} (eqv : Prop) (hm : mode env s.cfg = .sequential) (h : run env fuel s = some (.returned s'))
    (hsound : ∀ e, FromEnv env e → Enabled s.cfg e.kind → SoundEvent eqv e)
    (hz : ZXAnswers penv) (hp : Reachable penv cfg res p) (hr : p.main = .ended .returned)
    (hpsound : ∀ e : Event, penv.may e.kind e.verdict → Enabled cfg e.kind → SoundEvent eqv e) :
    ¬ (s'.results.equivalence = .notEquivalent ∧ (p.results.equivalence = .equivalent ∨
        p.results.equivalence = .equivalentUpToGlobalPhase ∨ p.results.equivalence = .equivalentUpToPhase)) ∧
    ¬ (p.results.equivalence = .notEquivalent ∧ (s'.results.equivalence = .equivalent ∨
        s'.results.equivalence = .equivalentUpToGlobalPhase ∨ s'.results.equivalence = .equivalentUpToPhase)) := by
  have h1 := sequential_sound eqv hm h hsound
  have h2 := parallel_sound eqv hz hp hr hpsound
  exact ⟨fun ⟨a, b⟩ => h1.1 a (h2.2 b), fun ⟨a, b⟩ => h2.1 a (h1.2 b)⟩

/-! ## C19 -/

/-- **C19**: when the deadline passes, the run reports what the completions handled so far justify, and no settling one is
among them. -/
theorem parallel_timeout_verdict {env : ParEnv} {cfg : Configuration} {res : Results} {s : PState} (hz : ZXAnswers env)
    (h : Reachable env cfg res s) (ht : s.timedOut = true) :
    cfg.execution.timeout > 0 ∧ (∀ e ∈ s.log, ¬ Conclusive e ∧ ¬ GivesUp e) ∧
    s.results.equivalence = parEvidence (s.results.performedSimulations = cfg.simulation.maxSims) s.log ∧
    s.results.equivalence ≠ .notEquivalent ∧ s.results.equivalence ≠ .equivalent := by
  have hv := reachable_vinv hz.never h
  have hb := reachable_base h
  have ho := hv.openRun (Or.inr ht)
  have hx := hv.explained.2.2 ho.none
  unfold AllSims at hx
  rw [hb.conf, launchCfg_maxSims] at hx
  refine ⟨?_, ho.none, hx, ?_, ?_⟩
  · have := (hv.late ht).2
    rw [hb.conf] at this
    have hto : (launchCfg env.zxTransformable cfg).execution.timeout = cfg.execution.timeout := by
      unfold launchCfg dropZX dropSims; split <;> (try split) <;> rfl
    rw [hto] at this
    exact this
  · rw [hx]; unfold parEvidence; split <;> split <;> simp
  · rw [hx]; unfold parEvidence; split <;> split <;> simp

/-- **C19/C50**: once the run has decided to stop, every checker still running has been told so before the run waits for it, and
none begins to run any more. -/
theorem parallel_stop_reaches_running {env : ParEnv} {cfg : Configuration} {res : Results} {s : PState}
    (h : Reachable env cfg res s) (hj : s.main = .joining) :
    (∀ x ∈ s.slots, x.pc = .running → x.signalled = true) ∧
    (∀ (s' : PState) (i : Nat) (x y : Slot), Step env s s' → s.slots[i]? = some x → s'.slots[i]? = some y → y.pc = .running → x.pc = .running) := by
  refine ⟨(reachable_sinv h).all hj, ?_⟩
  intro s' i x y hst hx hy hr
  have hd := (reachable_base h).ctl.joining hj
  have key : ∀ (k : Nat) (f : Slot → Slot) (z : Slot), s.slots[k]? = some z → (f z).pc ≠ .running →
      (s.slots.modify k f)[i]? = some y → x.pc = .running := by
    intro k f z hz hf hy'
    obtain ⟨w, hw, rfl⟩ := (getElem?_modify_iff ..).mp hy'
    rw [hx] at hw; cases hw
    split at hr
    · rename_i hki; subst hki; rw [hx] at hz; cases hz; exact absurd hr hf
    · exact hr
  cases hst with
  | construct k z hz hp hm => exact key k _ z hz (by simp) hy
  | constructThrows k z hz hp hb ht hzz hm => exact key k _ z hz (by simp) hy
  | constructTerminates k z hz hp hb ht hzz hm => change s.slots[i]? = _ at hy; rw [hx] at hy; cases hy; exact hr
  | stimulusThrows k z hz hp hk ht hm => exact key k _ z hz (by simp) hy
  | begin k z hz hp hd' hm => rw [hd] at hd'; simp at hd'
  | skip k z hz hp hd' hm => exact key k _ z hz (by simp) hy
  | runReturns k z c hz hp hc hm => exact key k _ z hz (by simp) hy
  | runThrows k z hz hp ht hm => exact key k _ z hz (by simp) hy
  | push k z hz hp hm => exact key k _ z hz (by simp) hy
  | pop k z q hm => rw [hj] at hm; simp at hm
  | popThrows k z q hm => rw [hj] at hm; simp at hm
  | timeout hm => rw [hj] at hm; simp at hm
  | signal k z hm => rw [hj] at hm; simp at hm
  | signalledAll k hm => rw [hj] at hm; simp at hm
  | join hm hf => change s.slots[i]? = _ at hy; rw [hx] at hy; cases hy; exact hr
  | unwind hm hf => rw [hj] at hm; simp at hm

/-! ## C21 -/

/-- **C21**: completions are counted exactly once: the number of performed simulations is the number of handled simulations with
a verdict, every started simulation is either handled or still in its slot, and (from zero counters) neither counter exceeds the
configured number. -/
theorem parallel_counters {env : ParEnv} {cfg : Configuration} {res : Results} {s : PState} (hz : ZXAnswers env)
    (h : Reachable env cfg res s) (h1 : res.startedSimulations = 0) (h2 : res.performedSimulations = 0) :
    s.results.performedSimulations =
      (s.log.filter fun e => decide (e.kind = .simulation) && !decide (e.verdict = .noInformation)).length ∧
    s.results.startedSimulations = (s.log.filter fun e => decide (e.kind = .simulation)).length +
      (s.slots.filter fun x => decide (x.kind = .simulation ∧ (x.pc ≠ .idle ∨ x.failed = true))).length ∧
    s.results.performedSimulations ≤ s.results.startedSimulations ∧
    s.results.startedSimulations ≤ cfg.simulation.maxSims := by
  have hc := reachable_cinv h
  have hw := reachable_winv hz h2 h1 h
  have hp := hc.performed
  have hs := hc.started
  have hle := performedIn_le s.log
  have hb := hw.bound
  rw [(reachable_base h).conf, launchCfg_maxSims] at hb
  have hcount : ∀ l : List Slot, (l.map simWeight).sum =
      (l.filter fun x => decide (x.kind = .simulation ∧ (x.pc ≠ .idle ∨ x.failed = true))).length := by
    intro l
    induction l with
    | nil => rfl
    | cons a r ih =>
      simp only [List.map_cons, List.sum_cons, List.filter_cons, ih, simWeight]
      by_cases ha : a.kind = .simulation ∧ (a.pc ≠ .idle ∨ a.failed = true)
      · rw [if_pos ha, if_pos (by simpa using ha), List.length_cons]; omega
      · rw [if_neg ha, if_neg (by simpa using ha)]; omega
  have e1 : performedIn s.log = (s.log.filter fun e =>
    decide (e.kind = .simulation) && !decide (e.verdict = .noInformation)).length := rfl
  have e2 : simsIn s.log = (s.log.filter fun e => decide (e.kind = .simulation)).length := rfl
  rw [← hcount, ← e1, ← e2]
  omega

/-- **C21**: each of the other checkers is handled at most once. -/
theorem parallel_definitive_once {env : ParEnv} {cfg : Configuration} {res : Results} {s : PState}
    (h : Reachable env cfg res s) (k : Kind) (hk : k ≠ .simulation) :
    (s.log.filter fun e => decide (e.kind = k)).length ≤ 1 := by
  have hc := (reachable_cinv h).once k hk
  have hb := (reachable_base h).kinds
  have hle : ∀ l : List Slot, (l.map (doneWeight k)).sum ≤ (l.map (·.kind)).count k := by
    intro l
    induction l with
    | nil => simp
    | cons a r ih =>
      simp only [List.map_cons, List.sum_cons, List.count_cons]
      by_cases ha : a.kind = k
      · simp only [doneWeight, ha, true_and, BEq.rfl, if_true]
        split <;> omega
      · simp only [doneWeight, ha, false_and, if_false]
        omega
  have := hle s.slots
  rw [hb] at this
  have hcount : (launchKinds env.zxTransformable cfg).count k ≤ 1 := by
    unfold launchKinds definitiveKinds
    have hrep : List.count k (List.replicate (simsToStart env.zxTransformable cfg) Kind.simulation) = 0 :=
      List.count_eq_zero.mpr fun hm => hk (List.mem_replicate.mp hm).2
    rw [List.count_append, List.count_append, List.count_append, hrep]
    cases k
    · exact absurd rfl hk
    all_goals (split <;> split <;> split <;> simp)
  have e : (s.log.filter fun e => decide (e.kind = k)).length = ofKind k s.log := rfl
  omega

/-- **C21**: an id is never in the queue twice, and what is in the queue is a finished check. -/
theorem parallel_queue {env : ParEnv} {cfg : Configuration} {res : Results} {s : PState} (h : Reachable env cfg res s) :
    s.queue.Nodup ∧ ∀ i ∈ s.queue, ∃ x, s.slots[i]? = some x ∧ x.pc = .queued ∧
      (x.failed = false → x.built = true) := by
  have hb := reachable_base h
  refine ⟨hb.nodup, fun i hi => ?_⟩
  obtain ⟨x, hx, hp⟩ := (hb.queue i).mp hi
  exact ⟨x, hx, hp, fun hf => ((hb.slots x (List.mem_of_getElem? hx)).result (Or.inr hp) hf).1⟩

/-! ## C14 -/

/-- **C14** (partial): if there are at least as many threads as checkers other than simulations to be started, never more than
the configured number of workers exist, and every worker has its own entry in the table of checkers, which is completely
filled.  Missing: with fewer threads the statement is false, see `parallel_too_few_threads`. -/
theorem parallel_thread_bound_partial {env : ParEnv} {cfg : Configuration} {res : Results} {s : PState}
    (h : Reachable env cfg res s) (hn : (definitiveKinds env.zxTransformable cfg).length ≤ cfg.execution.nthreads) :
    s.slots.length ≤ cfg.execution.nthreads ∧ s.slots.length = effectiveThreads env.zxTransformable cfg ∧
    (s.slots.filter fun x => !x.finished).length ≤ cfg.execution.nthreads := by
  have hk := congrArg List.length (reachable_base h).kinds
  rw [List.length_map, launch_fills _ _ hn] at hk
  have h1 : effectiveThreads env.zxTransformable cfg ≤ cfg.execution.nthreads := by unfold effectiveThreads; omega
  have h2 := List.length_filter_le (fun x : Slot => !x.finished) s.slots
  exact ⟨by omega, hk, by omega⟩

/-- **C14**: three threads always suffice. -/
theorem three_threads_suffice (zxOk : Bool) (cfg : Configuration) (h : 3 ≤ cfg.execution.nthreads) :
    (definitiveKinds zxOk cfg).length ≤ cfg.execution.nthreads := by
  have : (definitiveKinds zxOk cfg).length ≤ 3 := by
    unfold definitiveKinds
    split <;> split <;> split <;> simp
  omega

/-- **C14** is false in general: with two threads and the alternating, the construction and the ZX checker enabled, a worker
accesses the table of checkers out of bounds, whatever the circuits. -/
theorem parallel_too_few_threads (env : ParEnv) (cfg : Configuration) (res : Results)
    (ha : cfg.execution.runAlternatingChecker = true) (hc : cfg.execution.runConstructionChecker = true)
    (hzx : cfg.execution.runZXChecker = true) (hok : env.zxTransformable = true) (hn : cfg.execution.nthreads = 2) :
    ∀ s, Reachable env cfg res s → s.main = .ended .undefinedBehaviour := by
  intro s h
  refine h.induct (P := fun s => s.main = .ended .undefinedBehaviour) ?_ (fun s s' _ hm hst => absurd hst (ended_final hm))
  rw [launch_overflow_iff, hn, hok]
  rcases cfg with ⟨⟨_,_,_,_,rc,rs,ra,rz⟩,_,_,_,⟨_,ms,_,_,_,_⟩,_⟩
  simp only at ha hc hzx
  subst ha hc hzx
  unfold definitiveKinds launchCfg zxGivesUp dropZX dropSims Configuration.onlyZXCheckerConfigured
  by_cases hm : ms = 0 <;> cases rs <;> simp [hm]

/-- **C14**: exactly then. -/
theorem parallel_overflow_iff (env : ParEnv) (cfg : Configuration) (res : Results) :
    (launch env.zxTransformable cfg res).main = .ended .undefinedBehaviour ↔
      cfg.execution.nthreads < (definitiveKinds env.zxTransformable cfg).length :=
  launch_overflow_iff _ _ _

/-! ## C15 -/

/-- **C15**: no execution is infinite: a run that waits for `n` simulations makes a bounded number of steps. -/
theorem parallel_finite (env : ParEnv) (cfg : Configuration) (res : Results) (f : Nat → PState)
    (h0 : f 0 = launch env.zxTransformable cfg res) : ¬ ∀ n, Step env (f n) (f (n + 1)) := by
  intro h
  have hreach : ∀ n, Reachable env cfg res (f n) := by
    intro n
    induction n with
    | zero => rw [h0]; exact Steps.refl _
    | succ n ih => exact Steps.tail ih (h n)
  have hdec : ∀ n, measureOf (f n) + n ≤ measureOf (f 0) := by
    intro n
    induction n with
    | zero => simp
    | succ n ih =>
      have := step_decreases (reachable_base (hreach n)) (h n)
      omega
  have := hdec (measureOf (f 0) + 1)
  omega

theorem overflow_ended {env : ParEnv} {cfg : Configuration} {res : Results} {s : PState} (h : Reachable env cfg res s)
    (ho : cfg.execution.nthreads < (definitiveKinds env.zxTransformable cfg).length) :
    s.main = .ended .undefinedBehaviour := by
  refine h.induct (P := fun s => s.main = .ended .undefinedBehaviour) ?_ (fun s s' _ hm hst => absurd hst (ended_final hm))
  rw [launch_overflow_iff]; exact ho

theorem givesUp_done {env : ParEnv} {cfg : Configuration} {res : Results} {s : PState} (h : Reachable env cfg res s)
    (hg : zxGivesUp env.zxTransformable cfg = true) : s.done = true := by
  refine h.induct (P := fun s => s.done = true) ?_ ?_
  · exact hg
  · intro s s' hb hd hst
    rcases step_effect hst with ⟨_, _, _, hd'⟩ | ⟨i, x, q, hm, hq, hx, hf, rfl⟩
    · rcases hd' with ⟨h1, _⟩ | ⟨_, h2, _⟩
      · rw [h1]; exact hd
      · exact h2
    · rw [hb.ctl.wait hm] at hd; simp at hd

/-- The way in which a parallel run can wait forever: no timeout, only simulations and the ZX checker enabled, the ZX checker
gave no answer and all simulations passed. -/
structure WaitsForever (cfg : Configuration) (s : PState) : Prop where
  noTimeout : ¬ cfg.execution.timeout > 0
  noAlternating : cfg.execution.runAlternatingChecker = false
  noConstruction : cfg.execution.runConstructionChecker = false
  zx : cfg.execution.runZXChecker = true
  sims : cfg.execution.runSimulationChecker = true ∧ 0 < cfg.simulation.maxSims
  zxSilent : ∃ e ∈ s.log, e.kind = .zx ∧ e.verdict = .noInformation
  allPassed : s.results.performedSimulations = cfg.simulation.maxSims
  verdict : s.results.equivalence = .probablyEquivalent

theorem launch_flags (zxOk : Bool) (cfg : Configuration) :
    (launchCfg zxOk cfg).execution.runAlternatingChecker = cfg.execution.runAlternatingChecker ∧
    (launchCfg zxOk cfg).execution.runConstructionChecker = cfg.execution.runConstructionChecker ∧
    (launchCfg zxOk cfg).execution.timeout = cfg.execution.timeout := by
  unfold launchCfg dropZX dropSims
  split <;> (try split) <;> simp

theorem launch_something {zxOk : Bool} {cfg : Configuration} (h : cfg.anythingToExecute = true)
    (hg : zxGivesUp zxOk cfg = false) (ha : cfg.execution.runAlternatingChecker = false)
    (hc : cfg.execution.runConstructionChecker = false) :
    ((launchCfg zxOk cfg).execution.runSimulationChecker = true ∧ 0 < cfg.simulation.maxSims) ∨
    ((launchCfg zxOk cfg).execution.runZXChecker = true ∧ (launchCfg zxOk cfg).onlyZXCheckerConfigured = true) := by
  rcases cfg with ⟨⟨_,_,_,_,rc,rs,ra,rz⟩,_,_,_,⟨_,ms,_,_,_,_⟩,_⟩
  simp only at ha hc
  subst ha hc
  revert h hg
  unfold launchCfg zxGivesUp dropZX dropSims Configuration.onlyZXCheckerConfigured Configuration.anythingToExecute
  by_cases hm : ms = 0 <;> cases rs <;> cases rz <;> cases zxOk <;> simp [hm]
  all_goals omega

/-- **C15** (partial): a parallel run whose checkers all end cannot get stuck before its end, except in the way described by
`WaitsForever`.  Together with `parallel_finite`: it ends.  Missing: that exception, which does occur, see
`parallel_can_wait_forever`. -/
theorem parallel_ends_partial {env : ParEnv} {cfg : Configuration} {res : Results} {s : PState} (hp : ParCfg cfg)
    (hz : ZXAnswers env) (hr : RunsEnd env) (h1 : res.startedSimulations = 0) (h2 : res.performedSimulations = 0)
    (h : Reachable env cfg res s) (hst : ∀ s', ¬ Step env s s') :
    (∃ e, s.main = .ended e) ∨ WaitsForever cfg s := by
  have hb := reachable_base h
  rcases stuck_cases hr hb hst with he | ⟨hm, hq, hto, hidle⟩
  · exact Or.inl he
  right
  have hv := reachable_vinv hz.never h
  have hc := reachable_cinv h
  have hw := reachable_winv hz h2 h1 h
  have hei := reachable_einv h
  have hd := hb.ctl.wait hm
  have ho := hv.openRun (Or.inl hd)
  have hclean : ∀ x ∈ s.slots, x.failed = false := fun x hx => hei.clean (Or.inl hm) x hx (hidle x hx)
  have hov : (definitiveKinds env.zxTransformable cfg).length ≤ cfg.execution.nthreads := by
    by_contra hn
    rw [overflow_ended h (by omega)] at hm
    simp at hm
  have hg : zxGivesUp env.zxTransformable cfg = false := by
    cases hg : zxGivesUp env.zxTransformable cfg with
    | false => rfl
    | true => rw [givesUp_done h hg] at hd; simp at hd
  have hslot : ∀ k, k ∈ launchKinds env.zxTransformable cfg → ∃ x ∈ s.slots, x.kind = k := by
    intro k hk
    rw [← hb.kinds] at hk
    obtain ⟨x, hx, rfl⟩ := List.mem_map.mp hk
    exact ⟨x, hx, rfl⟩
  have hevent : ∀ k, k ≠ .simulation → k ∈ launchKinds env.zxTransformable cfg → ∃ e ∈ s.log, e.kind = k := by
    intro k hk hmem
    obtain ⟨x, hx, hkx⟩ := hslot k hmem
    apply ofKind_pos
    rw [hc.once k hk]
    exact sum_doneWeight_pos hx hkx (hidle x hx) (hclean x hx)
  have hsettle : ∀ e ∈ s.log, e.kind ≠ .alternating ∧ e.kind ≠ .construction := by
    intro e he
    have := ho.none e he
    constructor
    · intro hk
      by_cases hv' : e.verdict = .noInformation
      · exact this.2 ⟨by rw [hk]; simp, hv'⟩
      · exact this.1 (by unfold Conclusive; rw [hk]; exact hv')
    · intro hk
      by_cases hv' : e.verdict = .noInformation
      · exact this.2 ⟨by rw [hk]; simp, hv'⟩
      · exact this.1 (by unfold Conclusive; rw [hk]; exact hv')
  have hfl := launch_flags env.zxTransformable cfg
  have ha : (launchCfg env.zxTransformable cfg).execution.runAlternatingChecker = false := by
    cases hA : (launchCfg env.zxTransformable cfg).execution.runAlternatingChecker with
    | false => rfl
    | true =>
      obtain ⟨e, he, hk⟩ := hevent .alternating (by simp) (List.mem_append_left _ (definitive_alternating hA))
      exact absurd hk (hsettle e he).1
  have hcc : (launchCfg env.zxTransformable cfg).execution.runConstructionChecker = false := by
    cases hA : (launchCfg env.zxTransformable cfg).execution.runConstructionChecker with
    | false => rfl
    | true =>
      obtain ⟨e, he, hk⟩ := hevent .construction (by simp) (List.mem_append_left _ (definitive_construction hA))
      exact absurd hk (hsettle e he).2
  have hms : s.cfg.simulation = cfg.simulation := by rw [hb.conf, launchCfg_maxSims]
  rcases launch_something hp.something hg (hfl.1 ▸ ha) (hfl.2.1 ▸ hcc) with ⟨hsim, hpos⟩ | ⟨hzx, honly⟩
  · obtain ⟨x, hx, hkx⟩ := hslot .simulation (sims_launched hp hov hsim hg ha hcc)
    have hstarted := hw.sims hm ⟨x, hx, hkx, hidle x hx⟩
    have hsum : (s.slots.map simWeight).sum = 0 := sum_map_const_zero _ _ fun y hy => by
      simp [simWeight, hidle y hy, hclean y hy]
    have hperf : performedIn s.log = simsIn s.log := by
      unfold performedIn simsIn
      congr 1
      apply List.filter_congr
      intro e he
      by_cases hk : e.kind = .simulation
      · have hnv : e.verdict ≠ .noInformation := fun hv' => (ho.none e he).2 ⟨by rw [hk]; simp, hv'⟩
        simp [hk, hnv]
      · simp [hk]
    have hps := hc.performed
    have hss := hc.started
    rw [hms] at hstarted
    have hall : s.results.performedSimulations = cfg.simulation.maxSims := by omega
    have hex : ∃ e ∈ s.log, e.kind = .simulation := ofKind_pos (k := .simulation) (by
      have : ofKind .simulation s.log = simsIn s.log := rfl
      omega)
    have hnot : s.cfg.onlySimulationCheckerConfigured ≠ true := fun ho' => hw.simOnly hm ho' hex (by rw [hms]; exact hall)
    have hzx : (launchCfg env.zxTransformable cfg).execution.runZXChecker = true := by
      cases hA : (launchCfg env.zxTransformable cfg).execution.runZXChecker with
      | true => rfl
      | false =>
        exfalso
        apply hnot
        unfold Configuration.onlySimulationCheckerConfigured
        rw [hb.conf, ha, hcc, hA, hsim]
        rfl
    obtain ⟨e, he, hke⟩ := hevent .zx (by simp) (List.mem_append_left _ (definitive_zx hzx hg))
    have hnotS : ¬ ∃ e ∈ s.log, Suspects e := by
      intro hs
      obtain ⟨e', he', hk'⟩ := hex
      refine ho.pending hs ⟨e', he', hk', ?_, ?_⟩ (by rw [hms]; exact hall)
      · intro hv'; exact (ho.none e' he').2 ⟨by rw [hk']; simp, hv'⟩
      · intro hv'; exact (ho.none e' he').1 (by unfold Conclusive; rw [hk']; exact hv')
    have hev : e.verdict = .noInformation := by
      have hmay := (hv.prov e he).1
      rw [hke] at hmay
      rcases hz _ hmay with h' | h' | h' | h'
      · exact absurd (show Conclusive e by unfold Conclusive; rw [hke]; exact Or.inl h') (ho.none e he).1
      · exact absurd (show Conclusive e by unfold Conclusive; rw [hke]; exact Or.inr h') (ho.none e he).1
      · exact absurd ⟨e, he, hke, h'⟩ hnotS
      · exact h'
    refine ⟨?_, hfl.1 ▸ ha, hfl.2.1 ▸ hcc, ?_, ⟨?_, hpos⟩, ⟨e, he, hke, hev⟩, hall, ?_⟩
    · rw [hb.conf, hfl.2.2] at hto; exact hto
    · exact enabled_of_launch (k := .zx) hzx
    · exact enabled_of_launch (k := .simulation) hsim
    · rw [ho.verdict, if_neg hnotS, if_pos]
      obtain ⟨e', he', hk'⟩ := hex
      refine ⟨e', he', hk', ?_, ?_⟩
      · intro hv'; exact (ho.none e' he').2 ⟨by rw [hk']; simp, hv'⟩
      · intro hv'; exact (ho.none e' he').1 (by unfold Conclusive; rw [hk']; exact hv')
  · exfalso
    obtain ⟨e, he, hke⟩ := hevent .zx (by simp) (List.mem_append_left _ (definitive_zx hzx hg))
    exact hw.zxOnly hm (by rw [hb.conf]; exact honly) e he hke

/-- **C15** (partial): with a timeout, or with the alternating or construction checker enabled, or without the ZX checker, a
parallel run ends. -/
theorem parallel_terminates_partial {env : ParEnv} {cfg : Configuration} {res : Results} {s : PState} (hp : ParCfg cfg)
    (hz : ZXAnswers env) (hr : RunsEnd env) (h1 : res.startedSimulations = 0) (h2 : res.performedSimulations = 0)
    (h : Reachable env cfg res s) (hst : ∀ s', ¬ Step env s s')
    (hsafe : cfg.execution.timeout > 0 ∨ cfg.execution.runAlternatingChecker = true ∨
      cfg.execution.runConstructionChecker = true ∨ cfg.execution.runZXChecker = false ∨
      cfg.execution.runSimulationChecker = false) : ∃ e, s.main = .ended e := by
  rcases parallel_ends_partial hp hz hr h1 h2 h hst with h' | h'
  · exact h'
  · exfalso
    rcases hsafe with hs | hs | hs | hs | hs
    · exact h'.noTimeout hs
    · rw [h'.noAlternating] at hs; simp at hs
    · rw [h'.noConstruction] at hs; simp at hs
    · rw [h'.zx] at hs; simp at hs
    · rw [h'.sims.1] at hs; simp at hs

/-! ## C18 -/

/-- **C18** (parallel): an exception reaches the caller only if a check raised one, and a run that returns has not consumed a
failed check. -/
theorem parallel_exceptions {env : ParEnv} {cfg : Configuration} {res : Results} {s : PState} (h : Reachable env cfg res s) :
    (s.main = .ended .threw → ∃ x ∈ s.slots, x.failed = true ∧ (env.ctorMayThrow x.kind ∨ env.runMayThrow x.kind)) ∧
    (s.main = .ended .returned → ∀ x ∈ s.slots, x.pc = .idle → x.failed = false) ∧
    (s.main = .ended .terminated → env.ctorMayThrow .zx) := by
  have he := reachable_einv h
  refine ⟨fun hm => ?_, fun hm => he.clean (Or.inr (Or.inr (Or.inr hm))), he.died⟩
  obtain ⟨x, hx, _, hf⟩ := he.rethrown (Or.inr hm)
  exact ⟨x, hx, hf, he.cause x hx hf⟩

/-- **C18** (parallel): once a failed check has been taken from the queue, the run can only end with that exception (or be
terminated by the ZX checker's constructor). -/
theorem parallel_exception_propagates {env : ParEnv} {s s' : PState} (hu : s.main = .unwinding) (h : Steps env s s') :
    s'.main = .unwinding ∨ s'.main = .ended .threw ∨ s'.main = .ended .terminated := by
  induction h with
  | refl => exact Or.inl hu
  | tail _ hst ih =>
    rcases ih with ih | ih | ih
    · cases hst <;> simp_all [PState.upd]
    · exact absurd hst (ended_final ih)
    · exact absurd hst (ended_final ih)

/-- The only step with undefined behaviour: the report reads a table entry that was never filled. -/
theorem step_to_ub {env : ParEnv} {s s' : PState} (h : Step env s s') (hm : s'.main = .ended .undefinedBehaviour) :
    (∀ x ∈ s.slots, x.finished = true) ∧ ∃ x ∈ s.slots, x.built = false := by
  cases h with
  | construct i x hx hp hn => exact absurd hm (hn _)
  | constructThrows i x hx hp hb ht hz hn => exact absurd hm (hn _)
  | constructTerminates i x hx hp hb ht hz hn => simp at hm
  | stimulusThrows i x hx hp hk ht hn => exact absurd hm (hn _)
  | begin i x hx hp hd hn => exact absurd hm (hn _)
  | skip i x hx hp hd hn => exact absurd hm (hn _)
  | runReturns i x c hx hp hc hn => exact absurd hm (hn _)
  | runThrows i x hx hp ht hn => exact absurd hm (hn _)
  | push i x hx hp hn => exact absurd hm (hn _)
  | pop i x q hw hq hx hf =>
    unfold PState.popped at hm
    simp only at hm
    split at hm <;> simp at hm
  | popThrows i x q hw hq hx hf => simp at hm
  | timeout hw ht => simp at hm
  | signal i x hw hx => simp at hm
  | signalledAll i hw hi => simp at hm
  | join hj hf =>
    refine ⟨hf, ?_⟩
    simp only at hm
    split at hm
    · simp at hm
    · rename_i hn
      by_contra hc
      apply hn
      intro x hx
      cases hb : x.built with
      | true => rfl
      | false => exact absurd ⟨x, hx, hb⟩ hc
  | unwind hw hf => simp at hm

/-- **C18** (partial): if no constructor throws, a parallel run with enough threads never has undefined behaviour and is never
terminated, and ends only after all its workers.  Missing: with a throwing constructor it is false, see
`parallel_null_checker`. -/
theorem parallel_no_crash_partial {env : ParEnv} {cfg : Configuration} {res : Results} {s : PState}
    (h : Reachable env cfg res s) (hn : (definitiveKinds env.zxTransformable cfg).length ≤ cfg.execution.nthreads)
    (hct : ∀ k, ¬ env.ctorMayThrow k) :
    s.main ≠ .ended .undefinedBehaviour ∧ s.main ≠ .ended .terminated ∧
    ((∃ e, s.main = .ended e) → ∀ x ∈ s.slots, x.finished = true) := by
  have he := reachable_einv h
  have hub : s.main ≠ .ended .undefinedBehaviour := by
    unfold Reachable at h
    induction h with
    | refl => rw [Ne, launch_overflow_iff]; omega
    | tail h1 hst _ =>
      intro hm'
      obtain ⟨hf, x, hx, hnb⟩ := step_to_ub hst hm'
      have hbuilt := (reachable_einv h1).table hct x hx (by
        intro hp
        have := hf x hx
        simp [Slot.finished, hp] at this)
      rw [hnb] at hbuilt
      simp at hbuilt
  have hterm : s.main ≠ .ended .terminated := fun hm => hct _ (he.died hm)
  exact ⟨hub, hterm, fun he' => (he.over he' hterm).resolve_left hub⟩

end QCEC.Props
