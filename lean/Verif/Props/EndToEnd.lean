import Verif.Lemmas.Stimulus
import Verif.Props.SequentialEnd
import Verif.Lemmas.ParallelCalm
/-!
# C61: the verdict of a run is true of the circuits

Joins the models of the checkers (`DD`, `Sem`, `ZX`, `StateGen`) with those of the manager (`Mgr`, `Par`).
-/
namespace QCEC.Props
open QCEC QCEC.DD QCEC.Sem QCEC.Gen QCEC.ZX QCEC.Spec QCEC.Spec.ZX QCEC.Mgr QCEC.Prep QCEC.Par Matrix

variable {m n : Nat}

/-- What the single answers mean. -/
def AnswerMeans (S : Setting m n) (quiet : Bool) (k : Kind) (c : Criterion) : Prop :=
  match k with
  | .simulation => (c = .notEquivalent → ¬ SameUpToPhase (flags m n) S.qc1 S.ω1 S.qc2 S.ω2) ∧ (quiet = true → c ≠ .noInformation)
  | .alternating | .construction => (quiet = false ∧ c = .noInformation) ∨ Correct c (flags m n) S.qc1 S.ω1 S.qc2 S.ω2
  | .zx => c ∈ [.equivalent, .equivalentUpToGlobalPhase, .probablyNotEquivalent, .noInformation] ∧
      Sound c (flags m n) S.qc1 S.ω1 S.qc2 S.ω2

theorem alternating_means (S : Setting m n) {quiet : Bool} {stop : Nat → Bool} (hm : Mono stop)
    (hq : quiet = true → ∀ i, stop i = false) {fuel : Nat} (hf : S.qc1.ops.length + S.qc2.ops.length + 2 ≤ fuel)
    (handled : ∀ q : Fin n, m ≤ q.val → Idle S.qc1 S.ω1 q ∨ Idle S.qc2 S.ω2 q) {c s}
    (h : runAlt (exactMatrix n S.garb) S.T.isId S.opEq S.schA (altVerdict S.T.close S.T.wOne) stop .noInformation S.qc1 S.qc2
        (altInit (exactMatrix n S.garb) 1 n S.qc1 S.qc2) fuel = .ok (c, s)) : AnswerMeans S quiet .alternating c := by
  obtain ⟨v, s', hr, ho⟩ := alternating_outcome S.garb S.qc1 S.qc2 S.ω1 S.ω2 S.wf1 S.wf2 S.T S.opEq S.schA S.cancel
    S.confA (altVerdict S.T.close S.T.wOne) stop hm .noInformation fuel hf
  rw [hr] at h
  cases h
  rcases ho with ⟨hs, hv⟩ | ⟨_, hd, hv⟩
  · refine Or.inl ⟨?_, hv⟩
    cases quiet with
    | false => rfl
    | true => rw [hq rfl] at hs; cases hs
  · right
    have hi : altInit (exactMatrix n S.garb) 1 n S.qc1 S.qc2 = ancProj (altAncillary n S.qc1.ancillary S.qc2.ancillary) := by
      simp [altInit, exactMatrix, reduceAncillae]
    rw [hv, hd, hi]
    have hfl : ∀ q : Fin n, (altAncillary n S.qc1.ancillary S.qc2.ancillary).getD q.val false = (flags m n).getD q.val false := by
      intro q
      rw [altAncillary_flag, S.anc1, S.anc2, Bool.and_self]
    refine (altVerdict_correct S.T _ S.qc1 S.qc2 S.ω1 S.ω2 S.wf1.ops S.wf2.ops ?_).congr hfl
    intro q hq'
    rw [hfl, flags_get m n S.data] at hq'
    exact handled q (of_decide_eq_true hq')

theorem construction_means (S : Setting m n) {quiet : Bool} {stop : Nat → Bool} (hm : Mono stop)
    (hq : quiet = true → ∀ i, stop i = false) {fuel : Nat} (hf : S.qc1.ops.length + S.qc2.ops.length + 2 ≤ fuel) {c s}
    (h : runTwo (exactMatrix n S.garb) S.schC false (equalsMatrix S.T.ptrEq S.T.wEq S.T.close fun e f => e * fᴴ) stop .noInformation
        S.qc1 S.qc2 (constructionInit (exactMatrix n S.garb) 1 S.qc1) (constructionInit (exactMatrix n S.garb) 1 S.qc2) fuel =
          .ok (c, s)) : AnswerMeans S quiet .construction c := by
  obtain ⟨hs⟩ := S.confC
  obtain ⟨s', ⟨h0, hr⟩ | ⟨_, hr, _⟩⟩ := runTwo_spec (exactMatrix n S.garb) S.schC false
    (equalsMatrix S.T.ptrEq S.T.wEq S.T.close fun e f => e * fᴴ) stop hm .noInformation S.qc1 S.qc2 hs.good
    (constructionInit (exactMatrix n S.garb) 1 S.qc1) (constructionInit (exactMatrix n S.garb) 1 S.qc2) fuel hf
  · rw [hr] at h
    cases h
    refine Or.inl ⟨?_, rfl⟩
    cases quiet with
    | false => rfl
    | true => rw [hq rfl] at h0; cases h0
  · rw [hr] at h
    cases h
    right
    rw [construction_object S.garb S.wf1, construction_object S.garb S.wf2, ancProj_congr _ _ S.anc1, ancProj_congr _ _ S.anc2]
    exact equalsMatrix_correct S.T (flags m n) S.qc1 S.qc2 S.ω1 S.ω2 S.wf1.ops S.wf2.ops

theorem equalsVector_cases (V : VectorTests n) (e f : Basis n → ℂ) :
    equalsVector V.ptrEq V.wEq V.realClose V.fidClose e f = .equivalent ∨
    equalsVector V.ptrEq V.wEq V.realClose V.fidClose e f = .equivalentUpToPhase ∨
    equalsVector V.ptrEq V.wEq V.realClose V.fidClose e f = .notEquivalent := by
  unfold equalsVector
  split
  · split <;> simp
  · split
    · simp
    · split <;> simp

theorem simRun_means (S : Setting m n) {quiet : Bool} {prev c : Criterion}
    (hp : prev = .notEquivalent → ¬ SameUpToPhase (flags m n) S.qc1 S.ω1 S.qc2 S.ω2) (h : SimRun S quiet prev c) :
    AnswerMeans S quiet .simulation c := by
  obtain ⟨R, g, g', st, x, stop, fuel, s, hgen, hden, hm, hq, hf, hrun⟩ := h
  obtain ⟨hs⟩ := S.confS
  obtain ⟨hnorm, hanc⟩ := stimulus_state S.data hgen S.cliff_normalised hden
  obtain ⟨s', ⟨h0, hr⟩ | ⟨h0, hr, _⟩⟩ := runTwo_spec (exactVector n S.garbV) S.schS false
    (equalsVector S.V.ptrEq S.V.wEq S.V.realClose S.V.fidClose) stop hm prev S.qc1 S.qc2 hs.good x x fuel hf
  · rw [hr] at hrun
    cases hrun
    refine ⟨hp, fun hqt => ?_⟩
    rw [hq hqt] at h0; cases h0
  · rw [hr] at hrun
    cases hrun
    rw [simulation_object S.garbV S.wf1, simulation_object S.garbV S.wf2]
    refine ⟨fun hne hsame => ?_, fun _ => ?_⟩
    · obtain ⟨v, s'', hr', hv⟩ := simulation_never_refutes_equivalent S.garbV S.qc1 S.qc2 S.ω1 S.ω2 S.wf1 S.wf2 S.V S.threshold
        S.schS hs (flags m n) hsame prev x hnorm hanc
      obtain ⟨s3, hr3, _, _⟩ := simulation_true_output S.garbV S.qc1 S.qc2 S.ω1 S.ω2 S.wf1 S.wf2 S.schS hs
        (equalsVector S.V.ptrEq S.V.wEq S.V.realClose S.V.fidClose) prev x
      rw [hr3] at hr'
      cases hr'
      exact hv hne
    · rcases equalsVector_cases S.V (output S.qc1 S.ω1 x) (output S.qc2 S.ω2 x) with h | h | h <;> rw [h] <;> simp

/-- **C61**: what the answers of the single checkers mean. -/
theorem answer_means (S : Setting m n) {quiet : Bool} {k : Kind} {c : Criterion} (h : Answer S quiet k c) : AnswerMeans S quiet k c := by
  induction h with
  | alternating stop hm hq fuel hf handled c s h => exact alternating_means S hm hq hf handled h
  | construction stop hm hq fuel hf c s h => exact construction_means S hm hq hf h
  | simulation c h => exact simRun_means S (by simp) h
  | simulationAgain prev c _ h ih => exact simRun_means S ih.1 h
  | zx hr1 hr2 hc1 hc2 outs1 outs2 ho1 ho2 M g θ hR hg done hq c h =>
    refine ⟨?_, zx_sound_ancilla S.data S.wf1.ops S.wf2.ops hr1 hr2 hc1 hc2 ho1 ho2 hR hg h⟩
    rcases zx_never_notEquivalent h with h | h | h | h <;> simp [h]

theorem correct_cases {S : Setting m n} {c : Criterion} (h : Correct c (flags m n) S.qc1 S.ω1 S.qc2 S.ω2) :
    c = .equivalent ∨ c = .equivalentUpToGlobalPhase ∨ c = .notEquivalent := by
  by_cases hs : Same (flags m n) S.qc1 S.ω1 S.qc2 S.ω2
  · exact Or.inl (h.equivalent.2 hs)
  · by_cases hp : SameUpToPhase (flags m n) S.qc1 S.ω1 S.qc2 S.ω2
    · exact Or.inr (Or.inl (h.phase.2 ⟨hp, hs⟩))
    · exact Or.inr (Or.inr (h.notEquivalent.2 hp))

/-- The verdict of a conclusive run has its meaning. -/
theorem conclusive_means (S : Setting m n) {quiet : Bool} {e : Event} (hc : Conclusive e) (h : AnswerMeans S quiet e.kind e.verdict) :
    Meaning S e.verdict := by
  rcases e with ⟨k, v⟩
  cases k <;> simp only [Conclusive, AnswerMeans] at hc h
  · subst hc
    exact ⟨by simp, by simp, h.1, by simp⟩
  · rcases h with h | h
    · exact absurd h.2 hc
    · exact ⟨h.equivalent.1, h.phase.1, h.notEquivalent.1, by rcases correct_cases h with h | h | h <;> simp [h]⟩
  · rcases h with h | h
    · exact absurd h.2 hc
    · exact ⟨h.equivalent.1, h.phase.1, h.notEquivalent.1, by rcases correct_cases h with h | h | h <;> simp [h]⟩
  · refine ⟨h.2.equivalent, h.2.phase, ?_, ?_⟩ <;> rcases hc with hc | hc <;> simp [hc]

/-- A conclusive answer of a checker nobody interrupted is the right verdict. -/
theorem conclusive_correct (S : Setting m n) {quiet : Bool} {e : Event} (hce : Conclusive e) (hme : AnswerMeans S quiet e.kind e.verdict) :
    Correct e.verdict (flags m n) S.qc1 S.ω1 S.qc2 S.ω2 := by
  have hmn := conclusive_means S hce hme
  rcases e with ⟨k, v⟩
  cases k <;> simp only [Conclusive, AnswerMeans] at hce hme hmn ⊢
  · subst hce
    have := hme.1 rfl
    exact ⟨⟨by simp, fun h => absurd ⟨1, by simp, h⟩ this⟩, ⟨by simp, fun h => absurd h.1 this⟩, by simpa using this⟩
  · rcases hme with hme | hme
    · exact absurd hme.2 hce
    · exact hme
  · rcases hme with hme | hme
    · exact absurd hme.2 hce
    · exact hme
  · rcases hce with h | h
    · have hsame := hmn.equivalent h
      subst h
      exact ⟨by simpa using hsame, by simpa using fun _ => hsame, by simpa using ⟨1, by simp, hsame⟩⟩
    · have hsame := hmn.phase h
      subst h
      exact ⟨by simpa using hsame.2, by simpa using hsame, by simpa using hsame.1⟩

theorem default_means (S : Setting m n) {v : Criterion} (h : v = .noInformation ∨ v = .probablyEquivalent ∨ v = .probablyNotEquivalent) :
    Meaning S v := by
  rcases h with h | h | h <;> subst h <;> exact ⟨by simp, by simp, by simp, by simp⟩

theorem evidence_default (log : List Event) :
    evidence log = .noInformation ∨ evidence log = .probablyEquivalent ∨ evidence log = .probablyNotEquivalent := by
  unfold evidence
  split <;> split <;> simp

theorem parEvidence_default (f : Prop) (log : List Event) :
    parEvidence f log = .noInformation ∨ parEvidence f log = .probablyEquivalent ∨ parEvidence f log = .probablyNotEquivalent := by
  unfold parEvidence
  split
  · split <;> simp
  · split <;> simp

/-- **C61** (sequential): if the checkers answer what they compute on the two circuits – interrupted or not, whenever the timeout fires –
then the verdict of a run that returns is true: `Equivalent` only for circuits with the same output on every input (ancillary qubits in
|0⟩), `EquivalentUpToGlobalPhase` only if they differ by exactly a global phase, `NotEquivalent` only if no global phase makes them equal. -/
theorem sequential_verdict_true (S : Setting m n) {env : Env} {fuel : Nat} {s s' : State} (hm : mode env s.cfg = .sequential)
    (h : run env fuel s = some (.returned s'))
    (hans : ∀ e : Event, FromEnv env e → Enabled s.cfg e.kind → Answer S false e.kind e.verdict) :
    Meaning S s'.results.equivalence := by
  obtain ⟨hx, hp, _⟩ := sequential_verdict_explained hm h
  by_cases hc : ∃ e ∈ s'.log, Conclusive e
  · obtain ⟨e, he, hce⟩ := hc
    rw [hx.1 e he hce]
    exact conclusive_means S hce (answer_means S (hans e (hp e he).1 (hp e he).2))
  · rw [hx.2 fun e he hce => hc ⟨e, he, hce⟩]
    exact default_means S (evidence_default _)

theorem adjust_zx (S : Setting m n) {quiet : Bool} {env : ParEnv} {cfg : Configuration}
    (hans : ∀ k c, Enabled cfg k → env.may k c → Answer S quiet k c) : ZXAnswers (adjust cfg env) := by
  rintro c (⟨he, hc⟩ | ⟨_, rfl⟩)
  · have := (answer_means S (hans .zx c he hc)).1
    simpa using this
  · simp

/-- **C61** (parallel): the same for every schedule of the threads. -/
theorem parallel_verdict_true (S : Setting m n) {env : ParEnv} {cfg : Configuration} {res : Results} {s : PState}
    (h : Reachable env cfg res s) (hr : s.main = .ended .returned)
    (hans : ∀ k c, Enabled cfg k → env.may k c → Answer S false k c) : Meaning S s.results.equivalence := by
  obtain ⟨hx, hp, _⟩ := parallel_verdict_explained (adjust_zx S hans) (adjust_reachable h) hr
  have hmean : ∀ e ∈ s.log, AnswerMeans S false e.kind e.verdict := fun e he =>
    answer_means S (hans _ _ (hp e he).2 ((adjust_may (hp e he).2 _).mp (hp e he).1))
  by_cases hc : ∃ e ∈ s.log, Conclusive e
  · obtain ⟨e, he, hce⟩ := hc
    rw [hx.1 e he hce]
    exact conclusive_means S hce (hmean e he)
  · have hn : ∀ e ∈ s.log, ¬ Conclusive e := fun e he hce => hc ⟨e, he, hce⟩
    by_cases hg : ∃ e ∈ s.log, GivesUp e
    · obtain ⟨e, he, hge⟩ := hg
      rw [hx.2.1 e he hge]
      exact default_means S (Or.inl rfl)
    · rw [hx.2.2 fun e he => ⟨hn e he, fun hge => hg ⟨e, he, hge⟩⟩]
      exact default_means S (parEvidence_default _ _)

/-- **C61** (the question is decided): with the alternating or the construction checker switched on, no timeout and no exception, a run
in which nobody interrupts the checkers returns, and its verdict is the right one of the three. -/
theorem sequential_verdict_decides (S : Setting m n) {env : Env} {fuel : Nat} {s : State} (hm : mode env s.cfg = .sequential)
    (hc : CountersOk s) (ht : ¬ s.cfg.execution.timeout > 0) (hfuel : s.cfg.simulation.maxSims < fuel)
    (hen : Enabled s.cfg .alternating ∨ Enabled s.cfg .construction) (hfail : ¬ SomeCheckerFails env s.cfg)
    (hans : ∀ e : Event, FromEnv env e → Enabled s.cfg e.kind → Answer S true e.kind e.verdict) :
    ∃ s', run env fuel s = some (.returned s') ∧ Correct s'.results.equivalence (flags m n) S.qc1 S.ω1 S.qc2 S.ω2 := by
  have hg : ¬ SomeSimGivesUp env s.cfg := by
    rintro ⟨he, k, hk⟩
    exact (answer_means S (hans ⟨.simulation, .noInformation⟩ ⟨k, hk⟩ he)).2 rfl rfl
  obtain ⟨s', hs'⟩ := sequential_returns_partial env s hm hc hfail hg fuel hfuel
  refine ⟨s', hs', ?_⟩
  obtain ⟨hx, hp, _⟩ := sequential_verdict_explained hm hs'
  have hmean : ∀ e ∈ s'.log, AnswerMeans S true e.kind e.verdict := fun e he => answer_means S (hans e (hp e he).1 (hp e he).2)
  have hcon : ∃ e ∈ s'.log, Conclusive e := by
    by_contra hcon
    have hn : ∀ e ∈ s'.log, ¬ Conclusive e := fun e he hce => hcon ⟨e, he, hce⟩
    have hall := sequential_all_consulted hm ht hs' hn (fun e he hk => by
      have := hmean e he
      rw [hk] at this
      exact this.2 rfl)
    have hne : ∀ k, (k = .alternating ∨ k = .construction) → Enabled s.cfg k → False := by
      intro k hk hek
      obtain ⟨e, he, hke⟩ := hall k (by rcases hk with rfl | rfl <;> simp) hek (by rcases hk with rfl | rfl <;> simp)
      have hme := hmean e he
      have hnc := hn e he
      rcases hk with rfl | rfl <;> rw [hke] at hme <;> rcases hme with hme | hme
      · exact absurd hme.1 (by simp)
      · apply hnc; rcases e with ⟨ke, ve⟩; cases hke
        rcases correct_cases hme with h | h | h <;> simp only at h <;> subst h <;> simp [Conclusive]
      · exact absurd hme.1 (by simp)
      · apply hnc; rcases e with ⟨ke, ve⟩; cases hke
        rcases correct_cases hme with h | h | h <;> simp only at h <;> subst h <;> simp [Conclusive]
    rcases hen with h | h
    · exact hne _ (Or.inl rfl) h
    · exact hne _ (Or.inr rfl) h
  obtain ⟨e, he, hce⟩ := hcon
  rw [hx.1 e he hce]
  exact conclusive_correct S hce (hmean e he)

/-- **C61** (the question is decided, parallel): with the alternating or the construction checker switched on, a run that returns before its
deadline and in which nobody interrupts the checkers as long as the main thread waits has the right one of the three verdicts – except
that it gives up, with `NoInformation`, as soon as all simulations have passed and the ZX checker has expressed a doubt. -/
theorem parallel_verdict_decides (S : Setting m n) {env quiet : ParEnv} {cfg : Configuration} {res : Results} {s : PState}
    (hq : quiet.zxTransformable = env.zxTransformable) (hrun : CalmSteps env quiet (launch env.zxTransformable cfg res) s)
    (hr : s.main = .ended .returned) (ht : s.timedOut = false) (hen : Enabled cfg .alternating ∨ Enabled cfg .construction)
    (hans : ∀ k c, Enabled cfg k → quiet.may k c → Answer S true k c) :
    Correct s.results.equivalence (flags m n) S.qc1 S.ω1 S.qc2 S.ω2 ∨
    (s.results.equivalence = .noInformation ∧ (∃ e ∈ s.log, Suspects e) ∧ (∃ e ∈ s.log, Passed e) ∧
      s.results.performedSimulations = cfg.simulation.maxSims) := by
  have hz := adjust_zx S hans
  obtain ⟨s1, h1, hd, hl, hres, hc, hto, _⟩ := CalmSteps.quiet (env := adjust cfg env) (quiet := adjust cfg quiet) hq (adjust_calm hrun)
  have hdone : s1.done = true := by rw [hd]; exact returned_done hrun.steps hr
  have hv := reachable_vinv hz.never h1
  have hb := reachable_base h1
  rw [← hres, ← hl]
  have hmean : ∀ e ∈ s1.log, AnswerMeans S true e.kind e.verdict := by
    intro e he
    have hp := hv.prov e he
    have hen' : Enabled cfg e.kind := enabled_of_launch (hb.conf ▸ hp.2)
    exact answer_means S (hans _ _ hen' ((adjust_may hen' _).mp hp.1))
  obtain ⟨n1, n2, n3⟩ := not_only (zxOk := (adjust cfg quiet).zxTransformable) hen
  rw [← hb.conf] at n2 n3
  have hnever : ∀ e ∈ s1.log, ¬ GivesUp e := by
    rintro ⟨k, v⟩ he ⟨hk, hv'⟩
    have := hmean _ he
    simp only at hk hv'
    subst hv'
    cases k <;> simp only [AnswerMeans] at this
    · exact absurd rfl (this.2 trivial)
    · rcases this with h | h
      · exact absurd h.1 (by simp)
      · rcases correct_cases h with h | h | h <;> simp at h
    · rcases this with h | h
      · exact absurd h.1 (by simp)
      · rcases correct_cases h with h | h | h <;> simp at h
    · exact hk rfl
  by_cases hcon : ∃ e ∈ s1.log, Conclusive e
  · obtain ⟨e, he, hce⟩ := hcon
    left
    rw [hv.explained.1 e he hce]
    exact conclusive_correct S hce (hmean e he)
  · rcases stop_reason_open hz h1 hdone with h | h | h | ⟨e, he, h⟩ | h | h | h
    · rw [hto, ht] at h; simp at h
    · rw [n1] at h; simp at h
    · exact absurd h hcon
    · exact absurd h (hnever e he)
    · rw [n2] at h; simp at h
    · rw [n3] at h; simp at h
    · right
      have hms : s1.cfg.simulation.maxSims = cfg.simulation.maxSims := by rw [hb.conf, launchCfg_maxSims]
      refine ⟨?_, h.1, h.2.1, by rw [h.2.2, hms]⟩
      rw [hv.explained.2.2 fun e he => ⟨fun hce => hcon ⟨e, he, hce⟩, hnever e he⟩]
      unfold parEvidence
      rw [if_pos h.1, if_pos ⟨h.2.1, h.2.2⟩]

end QCEC.Props
