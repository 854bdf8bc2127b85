import Mathlib.Tactic.ByContra
import Verif.Lemmas.Sequential
/-!
# Properties of the sequential and the symbolic flow (C09–C12, C16, C17, C20, C49)

All theorems quantify over all configurations, all checker outcomes (including exceptions), all timeout instants and all states
of the manager from earlier runs.
-/
namespace QCEC.Props
open QCEC QCEC.Mgr QCEC.Spec

/-- A run in sequential mode that returned: everything we know. -/
theorem sequential_returned {env : Env} {fuel : Nat} {s s' : State} (hm : mode env s.cfg = .sequential)
    (h : run env fuel s = some (.returned s')) :
    ∃ t, SeqReturned env s.begin t ∧ s' = t.report := by
  have hm' : mode env s.begin.cfg = .sequential := hm
  unfold run at h
  simp only [hm', Option.some.injEq] at h
  obtain ⟨t, ht, hr⟩ := andThen_returned h
  have hany : s.begin.cfg.anythingToExecute = true := by
    unfold mode at hm'
    split at hm' <;> simp_all
  have hp := checkSequential_post env fuel s.begin (begin_inv env s) rfl rfl hany
  rw [ht] at hp
  cases hr
  exact ⟨t, hp, rfl⟩

/-- C09: the reported verdict is explained by the completed runs, each of which is a configured checker and has the verdict this
checker returned; the checkers were consulted in the order simulation, alternating, construction, ZX. -/
theorem sequential_verdict_explained {env : Env} {fuel : Nat} {s s' : State} (hm : mode env s.cfg = .sequential)
    (h : run env fuel s = some (.returned s')) :
    Explained s'.log s'.results.equivalence ∧
    (∀ e ∈ s'.log, FromEnv env e ∧ Enabled s.cfg e.kind) ∧
    (s'.log.Pairwise fun a b => rank a.kind < rank b.kind ∨ a.kind = .simulation ∧ b.kind = .simulation) := by
  obtain ⟨t, ht, rfl⟩ := sequential_returned hm h
  refine ⟨ht.inv.verdict, ?_, ht.inv.order.imp fun h => h.2⟩
  have := ht.inv.prov
  rw [ht.conf] at this
  exact this

/-- C09: a verdict that is not one of the three defaults was returned by a configured checker of this run. -/
theorem sequential_verdict_not_invented {env : Env} {fuel : Nat} {s s' : State} (hm : mode env s.cfg = .sequential)
    (h : run env fuel s = some (.returned s')) (h1 : s'.results.equivalence ≠ .noInformation)
    (h2 : s'.results.equivalence ≠ .probablyEquivalent) :
    ∃ k, Enabled s.cfg k ∧ FromEnv env ⟨k, s'.results.equivalence⟩ := by
  obtain ⟨hv, hp, _⟩ := sequential_verdict_explained hm h
  by_cases hc : ∃ e ∈ s'.log, Conclusive e
  · obtain ⟨e, he, hce⟩ := hc
    refine ⟨e.kind, (hp e he).2, ?_⟩
    rw [hv.1 e he hce]
    exact (hp e he).1
  · have hn : ∀ e ∈ s'.log, ¬ Conclusive e := fun e he hce => hc ⟨e, he, hce⟩
    have hev := hv.2 hn
    unfold evidence at hev
    split at hev
    · split at hev
      · exact absurd hev h1
      · exact absurd hev h2
    · split at hev
      · rename_i hs
        obtain ⟨e, he, hse⟩ := hs
        refine ⟨e.kind, (hp e he).2, ?_⟩
        rw [hev, ← hse.2]
        exact (hp e he).1
      · exact absurd hev h1

/-- C09: without a timeout no configured checker is skipped unless the question is settled already (or a simulation run gave up
without a verdict, after which the manager gives up as well). -/
theorem sequential_all_consulted {env : Env} {fuel : Nat} {s s' : State} (hm : mode env s.cfg = .sequential)
    (ht : ¬ s.cfg.execution.timeout > 0) (h : run env fuel s = some (.returned s'))
    (hnc : ∀ e ∈ s'.log, ¬ Conclusive e) (hni : ∀ e ∈ s'.log, e.kind = .simulation → e.verdict ≠ .noInformation) :
    ∀ k, k ≠ .simulation → Enabled s.cfg k → (k = .zx → env.zxTransformable = true) → ∃ e ∈ s'.log, e.kind = k := by
  obtain ⟨t, hs, rfl⟩ := sequential_returned hm h
  intro k hk hen hz
  have htm : s.begin.timeoutSet = false := by
    show decide (s.cfg.execution.timeout > 0) = false
    simpa using ht
  rcases hs.covered htm with h1 | (⟨e, he, hc⟩ | h1) | ⟨e, he, h1, h2⟩
  · exact h1 k (by cases k <;> simp_all [rank]) (by cases k <;> simp [rank]) (by rw [hs.conf]; exact hen) hz
  · exact absurd hc (hnc e he)
  · exact absurd (h1 k (by rw [hs.conf]; exact hen)) hk
  · exact absurd h2 (hni e he h1)

/-- C10: a conclusive verdict ends the run: it is the last completed run, its checker is the last one that was created, and its
verdict is the one reported. -/
theorem conclusive_is_final {env : Env} {fuel : Nat} {s s' : State} (hm : mode env s.cfg = .sequential)
    (h : run env fuel s = some (.returned s')) (i : Nat) (e : Event) (hi : s'.log[i]? = some e) (hc : Conclusive e) :
    i + 1 = s'.log.length ∧ s'.checkers.getLast? = some e.kind ∧ s'.results.equivalence = e.verdict := by
  obtain ⟨t, hs, rfl⟩ := sequential_returned hm h
  have hmem : e ∈ t.log := List.mem_of_getElem? hi
  refine ⟨?_, hs.inv.last e hmem hc, hs.inv.verdict.1 e hmem hc⟩
  have hlt : i < t.log.length := by
    by_contra hge
    change t.log[i]? = some e at hi
    rw [List.getElem?_eq_none (by omega)] at hi
    simp at hi
  show i + 1 = t.log.length
  by_contra hne
  have hlt2 : i + 1 < t.log.length := by omega
  have := List.pairwise_iff_getElem.mp hs.inv.order i (i + 1) hlt hlt2 (by omega)
  have he : t.log[i] = e := by
    change t.log[i]? = some e at hi
    rw [List.getElem?_eq_getElem hlt] at hi
    simpa using hi
  rw [he] at this
  exact this.1 hc

/-- C11: starting from zero counters (a fresh or a reset manager), the counters equal the number of simulation runs, which does
not exceed `maxSims`, and the runs are those the simulation checker performed, in order. -/
theorem sequential_counters {env : Env} {fuel : Nat} {s s' : State} (hm : mode env s.cfg = .sequential)
    (h0 : s.results.startedSimulations = 0) (h1 : s.results.performedSimulations = 0)
    (h : run env fuel s = some (.returned s')) :
    s'.results.startedSimulations = (s'.log.filter fun e => e.kind = .simulation).length ∧
    s'.results.performedSimulations = (s'.log.filter fun e => e.kind = .simulation).length ∧
    s'.results.performedSimulations ≤ s.cfg.simulation.maxSims ∧
    (∀ i e, (s'.log.filter fun e => e.kind = .simulation)[i]? = some e → env.sim i = some e.verdict) := by
  obtain ⟨t, hs, rfl⟩ := sequential_returned hm h
  refine ⟨?_, ?_, hs.bound (by show s.results.performedSimulations ≤ _; omega), hs.each⟩
  · show t.results.startedSimulations = (sims t.log).length
    rw [hs.started]
    show s.results.startedSimulations + _ = _
    omega
  · show t.results.performedSimulations = (sims t.log).length
    rw [hs.performed]
    show s.results.performedSimulations + _ = _
    omega

/-- C11: if the simulation checker is switched on, all `maxSims` simulations are performed unless one of them refutes the
equivalence, one gives up, or the timeout has passed. -/
theorem sequential_sims_complete {env : Env} {fuel : Nat} {s s' : State} (hm : mode env s.cfg = .sequential)
    (hen : s.cfg.execution.runSimulationChecker = true) (h : run env fuel s = some (.returned s')) :
    s'.results.performedSimulations = s.cfg.simulation.maxSims ∨
    (∃ e ∈ s'.log, e.kind = .simulation ∧ (e.verdict = .notEquivalent ∨ e.verdict = .noInformation)) ∨
    (s.cfg.execution.timeout > 0 ∧ env.fired s'.clock = true) := by
  obtain ⟨t, hs, rfl⟩ := sequential_returned hm h
  rcases hs.reason hen with h1 | h1 | ⟨h1, h2⟩
  · exact Or.inl h1
  · exact Or.inr (Or.inl h1)
  · exact Or.inr (Or.inr ⟨by simpa [State.timeoutSet, State.begin] using h1, h2⟩)

/-- C11: without a timeout `ProbablyEquivalent` from a reset manager means: the simulation checker is on, all `maxSims` simulations
were performed and passed (or one gave up after at least one had passed), no conclusive answer and no suspicion was obtained. -/
theorem probably_equivalent_meaning {env : Env} {fuel : Nat} {s s' : State} (hm : mode env s.cfg = .sequential)
    (ht : ¬ s.cfg.execution.timeout > 0) (h : run env fuel s = some (.returned s'))
    (hdef : ∀ c, env.alternating = .returns c ∨ env.construction = .returns c → c ≠ .probablyEquivalent)
    (hv : s'.results.equivalence = .probablyEquivalent) :
    s.cfg.execution.runSimulationChecker = true ∧ (∃ e ∈ s'.log, Passed e) ∧
    (∀ e ∈ s'.log, ¬ Conclusive e ∧ ¬ Suspects e) ∧
    (s'.results.performedSimulations = s.cfg.simulation.maxSims ∨
      ∃ e ∈ s'.log, e.kind = .simulation ∧ e.verdict = .noInformation) := by
  obtain ⟨hx, hp, _⟩ := sequential_verdict_explained hm h
  have hnc : ∀ e ∈ s'.log, ¬ Conclusive e := by
    intro e he hc
    have h1 := hx.1 e he hc
    rw [hv] at h1
    have h2 := (hp e he).1
    unfold Conclusive at hc
    unfold FromEnv at h2
    cases hk : e.kind <;> simp only [hk] at hc h2
    · rw [← h1] at hc; simp at hc
    · exact hdef _ (Or.inl h2) h1.symm
    · exact hdef _ (Or.inr h2) h1.symm
    · rw [← h1] at hc; simp at hc
  have hev := hx.2 hnc
  rw [hv] at hev
  unfold evidence at hev
  split at hev
  · rename_i hpass
    split at hev
    · simp at hev
    · rename_i hsus
      obtain ⟨e, he, hpe⟩ := hpass
      have hen : s.cfg.execution.runSimulationChecker = true := by
        have := (hp e he).2
        rw [hpe.1] at this
        exact this
      refine ⟨hen, ⟨e, he, hpe⟩, fun e he => ⟨hnc e he, fun hs => hsus ⟨e, he, hs⟩⟩, ?_⟩
      rcases sequential_sims_complete hm hen h with h1 | ⟨e', he', h1, h2 | h2⟩ | ⟨h1, _⟩
      · exact Or.inl h1
      · refine absurd ?_ (hnc e' he')
        unfold Conclusive
        rw [h1]; exact h2
      · exact Or.inr ⟨e', he', h1, h2⟩
      · exact absurd h1 ht
  · split at hev <;> simp at hev

/-- C17 (sequential): if the checkers that were run are right about the pair of circuits, so is the verdict. -/
theorem sequential_sound {env : Env} {fuel : Nat} {s s' : State} (eqv : Prop) (hm : mode env s.cfg = .sequential)
    (h : run env fuel s = some (.returned s')) (hsound : ∀ e, FromEnv env e → Enabled s.cfg e.kind → SoundEvent eqv e) :
    SoundVerdict eqv s'.results.equivalence := by
  obtain ⟨hx, hp, _⟩ := sequential_verdict_explained hm h
  by_cases hc : ∃ e ∈ s'.log, Conclusive e
  · obtain ⟨e, he, hce⟩ := hc
    have hs := hsound e (hp e he).1 (hp e he).2
    rw [hx.1 e he hce]
    unfold SoundEvent at hs
    unfold Conclusive at hce
    cases hk : e.kind <;> simp only [hk] at hs hce
    · exact ⟨fun hv => hs hv, fun hv => by rw [hce] at hv; simp at hv⟩
    · exact hs
    · exact hs
    · refine ⟨fun hv => ?_, fun _ => hs hce⟩
      rw [hv] at hce; simp at hce
  · have hn : ∀ e ∈ s'.log, ¬ Conclusive e := fun e he hce => hc ⟨e, he, hce⟩
    rw [hx.2 hn]
    unfold evidence SoundVerdict
    split <;> split <;> simp

/-- C16 (sequential): with only simulations and the ZX checker, all simulations passing and the ZX checker suspecting a
difference, no information is reported. -/
theorem sequential_conflicting_evidence {env : Env} {fuel : Nat} {s s' : State} (hm : mode env s.cfg = .sequential)
    (h : run env fuel s = some (.returned s')) (ha : s.cfg.execution.runAlternatingChecker = false)
    (hc : s.cfg.execution.runConstructionChecker = false)
    (hsim : ∀ k, env.sim k ≠ some .notEquivalent) (hpass : ∃ e ∈ s'.log, Passed e)
    (hz : ⟨.zx, .probablyNotEquivalent⟩ ∈ s'.log) : s'.results.equivalence = .noInformation := by
  obtain ⟨hx, hp, _⟩ := sequential_verdict_explained hm h
  have hnc : ∀ e ∈ s'.log, ¬ Conclusive e := by
    intro e he hce
    obtain ⟨h1, h2⟩ := hp e he
    obtain ⟨hz1, _⟩ := hp _ hz
    unfold Conclusive at hce
    unfold FromEnv at h1
    cases hk : e.kind <;> rw [hk] at h2 <;> simp only [hk] at hce h1 <;> simp only [Enabled] at h2
    · obtain ⟨k, h1⟩ := h1; rw [hce] at h1; exact hsim k h1
    · rw [ha] at h2; simp at h2
    · rw [hc] at h2; simp at h2
    · have hz2 : env.zx = .returns .probablyNotEquivalent := hz1
      rw [hz2] at h1
      simp only [Outcome.returns.injEq] at h1
      rw [← h1] at hce; simp at hce
  rw [hx.2 hnc]
  unfold evidence
  rw [if_pos hpass, if_pos ⟨_, hz, rfl, rfl⟩]

/-- C16 (sequential): the suspicion alone is reported as such. -/
theorem sequential_suspicion_reported {env : Env} {fuel : Nat} {s s' : State} (hm : mode env s.cfg = .sequential)
    (h : run env fuel s = some (.returned s')) (hz : ⟨.zx, .probablyNotEquivalent⟩ ∈ s'.log)
    (hnp : ∀ e ∈ s'.log, ¬ Passed e) : s'.results.equivalence = .probablyNotEquivalent := by
  obtain ⟨hx, hp, ho⟩ := sequential_verdict_explained hm h
  have hnc : ∀ e ∈ s'.log, ¬ Conclusive e := by
    intro e he hce
    obtain ⟨i, hi⟩ := List.mem_iff_getElem?.mp he
    obtain ⟨j, hj⟩ := List.mem_iff_getElem?.mp hz
    obtain ⟨hl, _, hv⟩ := conclusive_is_final hm h i e hi hce
    have hjl : j < s'.log.length := by
      by_contra hge
      rw [List.getElem?_eq_none (by omega)] at hj; simp at hj
    have hil : i < s'.log.length := by omega
    by_cases hij : j = i
    · subst hij
      rw [hi] at hj
      simp only [Option.some.injEq] at hj
      rw [hj] at hce
      simp [Conclusive] at hce
    · -- the ZX run would come before a conclusive run, but it is the last one
      have := List.pairwise_iff_getElem.mp ho j i hjl hil (by omega)
      have hje : s'.log[j] = ⟨.zx, .probablyNotEquivalent⟩ := by
        rw [List.getElem?_eq_getElem hjl] at hj; simpa using hj
      rw [hje] at this
      have h3 : rank s'.log[i].kind ≤ 3 := by cases s'.log[i].kind <;> simp [rank]
      rcases this with h4 | h4
      · have : rank Kind.zx = 3 := rfl
        simp only [this] at h4
        omega
      · simp at h4
  rw [hx.2 hnc]
  unfold evidence
  rw [if_neg (by rintro ⟨e, he, hp⟩; exact hnp e he hp), if_pos ⟨_, hz, rfl, rfl⟩]

end QCEC.Props
