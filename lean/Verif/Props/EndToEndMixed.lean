import Verif.Spec.EndToEndMixed
import Verif.Props.EndToEnd
/-!
# C61 for circuits that declare different qubits as ancillary
-/
namespace QCEC.Props
open QCEC QCEC.DD QCEC.Sem QCEC.Gen QCEC.ZX QCEC.Spec QCEC.Spec.ZX QCEC.Mgr QCEC.Prep QCEC.Par Matrix

variable {m n : Nat}

/-- Every qubit marked in `g` is marked in `f`. -/
def Covers (n : Nat) (f g : List Bool) : Prop := ∀ q : Fin n, g.getD q.val false = true → f.getD q.val false = true

theorem marks_get (n : Nat) (f : Nat → Bool) (q : Fin n) : (marks n f).getD q.val false = f q.val := by
  unfold marks
  simp [List.getD]

theorem zero_covers {f g : List Bool} (h : Covers n f g) {v : Basis n → ℂ} (hv : AncillasZero f v) : AncillasZero g v :=
  fun x hx q hq => hv x hx q (h q hq)

theorem sameUpTo_covers {f g : List Bool} (h : Covers n f g) {c : ℂ} {qc1 qc2 : QC n} {ω1 ω2 : Equiv.Perm (Fin n)}
    (hs : SameUpTo c g qc1 ω1 qc2 ω2) : SameUpTo c f qc1 ω1 qc2 ω2 := fun v hv => hs v (zero_covers h hv)

theorem phase_covers {f g : List Bool} (h : Covers n f g) {qc1 qc2 : QC n} {ω1 ω2 : Equiv.Perm (Fin n)}
    (hs : SameUpToPhase g qc1 ω1 qc2 ω2) : SameUpToPhase f qc1 ω1 qc2 ω2 := by
  obtain ⟨c, hc, h'⟩ := hs
  exact ⟨c, hc, sameUpTo_covers h h'⟩

/-- A global phase is the same for all sets of inputs. -/
theorem same_of_phase {f g : List Bool} (h : Covers n f g) {qc1 qc2 : QC n} {ω1 ω2 : Equiv.Perm (Fin n)} (h2 : ∀ o ∈ qc2.ops, o.Valid)
    (hs : SameUpToPhase g qc1 ω1 qc2 ω2) (hz : Same f qc1 ω1 qc2 ω2) : Same g qc1 ω1 qc2 ω2 := by
  obtain ⟨c, hc, h'⟩ := hs
  have u2 := funcOf_unitary qc2 ω2 h2
  have e1 := (sameUpTo_iff c f qc1 qc2 ω1 ω2).1 (sameUpTo_covers h h')
  have e2 := (same_iff f qc1 qc2 ω1 ω2).1 hz
  have hne := func_ancProj_ne_zero _ u2 f
  rw [e2] at e1
  have : c = 1 := by
    by_contra hcne
    apply hne
    have e3 : (1 - c) • (funcOf qc2 ω2 * ancProj f) = 0 := by rw [sub_smul, one_smul, ← e1, sub_self]
    exact (smul_eq_zero.1 e3).resolve_left (sub_ne_zero.2 (Ne.symm hcne))
  subst this
  exact h'

/-- The qubits that are ancillary in both circuits. -/
def commonAnc (S : Mixed m n) : List Bool := altAncillary n S.qc1.ancillary S.qc2.ancillary

theorem some_covers_common (S : Mixed m n) (zx : Bool) : Covers n (S.someAnc zx) (commonAnc S) := by
  intro q hq
  rw [commonAnc, altAncillary_flag, Bool.and_eq_true] at hq
  rw [Mixed.someAnc, marks_get, hq.1]
  rfl

theorem common_covers_both (S : Mixed m n) (sim : Bool) : Covers n (commonAnc S) (S.bothAnc sim) := by
  intro q hq
  rw [Mixed.bothAnc, marks_get, Bool.and_eq_true] at hq
  rw [commonAnc, altAncillary_flag]
  exact hq.1

theorem some_covers_last (S : Mixed m n) : Covers n (S.someAnc true) (flags m n) := by
  intro q hq
  rw [flags_get m n S.data] at hq
  rw [Mixed.someAnc, marks_get, hq]
  simp

theorem last_covers_both (S : Mixed m n) : Covers n (flags m n) (S.bothAnc true) := by
  intro q hq
  rw [Mixed.bothAnc, marks_get, Bool.and_eq_true] at hq
  rw [flags_get m n S.data]
  simpa using hq.2

/-- For circuits with the same ancillary qubits the answers are those of `Spec/EndToEnd.lean`. -/
theorem answer_mixed {m n : Nat} (S : Setting m n) {quiet : Bool} {k : Kind} {c : Criterion} (h : Answer S quiet k c) : MAnswer S.mixed quiet k c := by
  induction h with
  | alternating stop hm hq fuel hf handled c s h =>
    refine .alternating (S := S.mixed) stop hm hq fuel hf (fun q a => (handled q ?_).imp Idle.leftAlone Idle.leftAlone) c s h
    have e : S.qc1.ancillary.getD q.val false = true := a.1
    rw [S.anc1 q, flags_get m n S.data] at e
    exact of_decide_eq_true e
  | construction stop hm hq fuel hf c s h => exact .construction stop hm hq fuel hf c s h
  | simulation c h => exact .simulation c h
  | simulationAgain prev c _ h ih => exact .simulationAgain prev c ih h
  | zx hr1 hr2 hc1 hc2 outs1 outs2 ho1 ho2 M g θ hR hg done hq c h =>
    exact .zx (S := S.mixed) hr1 hr2 hc1 hc2 outs1 outs2 ho1 ho2 M g θ hR hg done hq c h

/-- What the single answers mean. -/
def MAnswerMeans (S : Mixed m n) (quiet : Bool) (k : Kind) (c : Criterion) : Prop :=
  match k with
  | .simulation => (c = .notEquivalent → ¬ SameUpToPhase (flags m n) S.qc1 S.ω1 S.qc2 S.ω2) ∧ (quiet = true → c ≠ .noInformation)
  | .alternating => (quiet = false ∧ c = .noInformation) ∨ Correct c (commonAnc S) S.qc1 S.ω1 S.qc2 S.ω2
  | .construction => (quiet = false ∧ c = .noInformation) ∨ ((c = .equivalent ∨ c = .equivalentUpToGlobalPhase ∨ c = .notEquivalent) ∧
      (c ≠ .notEquivalent → SameUpToPhase (S.someAnc false) S.qc1 S.ω1 S.qc2 S.ω2) ∧ (S.SameFlags → Correct c (commonAnc S) S.qc1 S.ω1 S.qc2 S.ω2))
  | .zx => c ∈ [.equivalent, .equivalentUpToGlobalPhase, .probablyNotEquivalent, .noInformation] ∧
      Sound c (flags m n) S.qc1 S.ω1 S.qc2 S.ω2

/-- What is known about the qubits the alternating checker takes for ancillary. -/
theorem known_of_settled {qc1 qc2 : QC n} {ω1 ω2 : Equiv.Perm (Fin n)}
    (h : (∀ q, SharedAncilla qc1 qc2 q → Idle qc1 ω1 q ∨ Idle qc2 ω2 q) ∨ (∀ q, SharedAncilla qc1 qc2 q → LeftAlone qc1 q) ∨
      ∀ q, SharedAncilla qc1 qc2 q → LeftAlone qc2 q) : Known (altAncillary n qc1.ancillary qc2.ancillary) qc1 ω1 qc2 ω2 := by
  have f : ∀ q : Fin n, (altAncillary n qc1.ancillary qc2.ancillary).getD q.val false = true → SharedAncilla qc1 qc2 q := by
    intro q hq
    rw [altAncillary_flag, Bool.and_eq_true] at hq
    exact hq
  exact h.imp (fun h q hq => h q (f q hq)) (Or.imp (fun h q hq => h q (f q hq)) fun h q hq => h q (f q hq))

theorem mixed_alternating_means (S : Mixed m n) (hsafe : S.Safe) {quiet : Bool} {stop : Nat → Bool} (hm : Mono stop)
    (hq : quiet = true → ∀ i, stop i = false) {fuel : Nat} (hf : S.qc1.ops.length + S.qc2.ops.length + 2 ≤ fuel)
    (accepted : Accepted S.qc1 S.qc2) {c s}
    (h : runAlt (exactMatrix n S.garb) S.T.isId S.opEq S.schA (altVerdict S.T.close S.T.wOne) stop .noInformation S.qc1 S.qc2
        (altInit (exactMatrix n S.garb) 1 n S.qc1 S.qc2) fuel = .ok (c, s)) : MAnswerMeans S quiet .alternating c := by
  obtain ⟨v, s', hr, ho⟩ := alternating_outcome S.garb S.qc1 S.qc2 S.ω1 S.ω2 S.wf1 S.wf2 S.T S.opEq S.schA hsafe.1.1
    (S.confA.configured hsafe.1) (altVerdict S.T.close S.T.wOne) stop hm .noInformation fuel hf
  rw [hr] at h
  cases h
  rcases ho with ⟨hs, hv⟩ | ⟨_, hd, hv⟩
  · refine Or.inl ⟨?_, hv⟩
    cases quiet with
    | false => rfl
    | true => rw [hq rfl] at hs; cases hs
  · right
    have hi : altInit (exactMatrix n S.garb) 1 n S.qc1 S.qc2 = ancProj (altAncillary n S.qc1.ancillary S.qc2.ancillary) := by
      simp [altInit, exactMatrix, reduceAncillae]
    rw [hv, hd, hi]
    exact altVerdict_known S.T _ S.qc1 S.qc2 S.ω1 S.ω2 S.wf1.ops S.wf2.ops (known_of_settled (hsafe.2 accepted))

theorem mixed_construction_means (S : Mixed m n) {quiet : Bool} {stop : Nat → Bool} (hm : Mono stop)
    (hq : quiet = true → ∀ i, stop i = false) {fuel : Nat} (hf : S.qc1.ops.length + S.qc2.ops.length + 2 ≤ fuel) {c s}
    (h : runTwo (exactMatrix n S.garb) S.schC false (equalsMatrix S.T.ptrEq S.T.wEq S.T.close fun e f => e * fᴴ) stop .noInformation
        S.qc1 S.qc2 (constructionInit (exactMatrix n S.garb) 1 S.qc1) (constructionInit (exactMatrix n S.garb) 1 S.qc2) fuel =
          .ok (c, s)) : MAnswerMeans S quiet .construction c := by
  obtain ⟨hs⟩ := S.confC
  obtain ⟨s', ⟨h0, hr⟩ | ⟨_, hr, _⟩⟩ := runTwo_spec (exactMatrix n S.garb) S.schC false
    (equalsMatrix S.T.ptrEq S.T.wEq S.T.close fun e f => e * fᴴ) stop hm .noInformation S.qc1 S.qc2 hs.good
    (constructionInit (exactMatrix n S.garb) 1 S.qc1) (constructionInit (exactMatrix n S.garb) 1 S.qc2) fuel hf
  · rw [hr] at h
    cases h
    refine Or.inl ⟨?_, rfl⟩
    cases quiet with
    | false => rfl
    | true => rw [hq rfl] at h0; cases h0
  · rw [hr] at h
    cases h
    right
    rw [construction_object S.garb S.wf1, construction_object S.garb S.wf2]
    refine ⟨equalsMatrix_three .., ?_, ?_⟩
    · refine equalsMatrix_union S.T S.qc1.ancillary S.qc2.ancillary (S.someAnc false) ?_ S.qc1 S.qc2 S.ω1 S.ω2 S.wf1.ops S.wf2.ops
      intro q
      rw [Mixed.someAnc, marks_get]
      simp
    · intro e
      have hc : ∀ q : Fin n, S.qc2.ancillary.getD q.val false = (commonAnc S).getD q.val false := fun q => by
        rw [commonAnc, altAncillary_flag, e q, Bool.and_self]
      rw [ancProj_congr S.qc1.ancillary (commonAnc S) fun q => (e q).trans (hc q), ancProj_congr S.qc2.ancillary (commonAnc S) hc]
      exact equalsMatrix_correct S.T (commonAnc S) S.qc1 S.qc2 S.ω1 S.ω2 S.wf1.ops S.wf2.ops

theorem mixed_simRun_means (S : Mixed m n) {quiet : Bool} {prev c : Criterion}
    (hp : prev = .notEquivalent → ¬ SameUpToPhase (flags m n) S.qc1 S.ω1 S.qc2 S.ω2) (h : MSimRun S quiet prev c) :
    MAnswerMeans S quiet .simulation c := by
  obtain ⟨R, g, g', st, x, stop, fuel, s, hgen, hden, hm, hq, hf, hrun⟩ := h
  obtain ⟨hs⟩ := S.confS
  obtain ⟨hnorm, hanc⟩ := stimulus_state S.data hgen S.cliff_normalised hden
  obtain ⟨s', ⟨h0, hr⟩ | ⟨h0, hr, _⟩⟩ := runTwo_spec (exactVector n S.garbV) S.schS false
    (equalsVector S.V.ptrEq S.V.wEq S.V.realClose S.V.fidClose) stop hm prev S.qc1 S.qc2 hs.good x x fuel hf
  · rw [hr] at hrun
    cases hrun
    refine ⟨hp, fun hqt => ?_⟩
    rw [hq hqt] at h0; cases h0
  · rw [hr] at hrun
    cases hrun
    rw [simulation_object S.garbV S.wf1, simulation_object S.garbV S.wf2]
    refine ⟨fun hne hsame => ?_, fun _ => ?_⟩
    · obtain ⟨v, s'', hr', hv⟩ := simulation_never_refutes_equivalent S.garbV S.qc1 S.qc2 S.ω1 S.ω2 S.wf1 S.wf2 S.V S.threshold
        S.schS hs (flags m n) hsame prev x hnorm hanc
      obtain ⟨s3, hr3, _, _⟩ := simulation_true_output S.garbV S.qc1 S.qc2 S.ω1 S.ω2 S.wf1 S.wf2 S.schS hs
        (equalsVector S.V.ptrEq S.V.wEq S.V.realClose S.V.fidClose) prev x
      rw [hr3] at hr'
      cases hr'
      exact hv hne
    · rcases equalsVector_cases S.V (output S.qc1 S.ω1 x) (output S.qc2 S.ω2 x) with h | h | h <;> rw [h] <;> simp

/-- **C61**: what the answers of the single checkers mean when the circuits declare different ancillary qubits. -/
theorem mixed_answer_means (S : Mixed m n) {quiet : Bool} {k : Kind} {c : Criterion} (hs : k = .alternating → S.Safe) (h : MAnswer S quiet k c) :
    MAnswerMeans S quiet k c := by
  induction h with
  | alternating stop hm hq fuel hf accepted c s h => exact mixed_alternating_means S (hs rfl) hm hq hf accepted h
  | construction stop hm hq fuel hf c s h => exact mixed_construction_means S hm hq hf h
  | simulation c h => exact mixed_simRun_means S (by simp) h
  | simulationAgain prev c _ h ih => exact mixed_simRun_means S (ih hs).1 h
  | zx hr1 hr2 hc1 hc2 outs1 outs2 ho1 ho2 M g θ hR hg done hq c h =>
    refine ⟨?_, zx_sound_ancilla S.data S.wf1.ops S.wf2.ops hr1 hr2 hc1 hc2 ho1 ho2 hR hg h⟩
    rcases zx_never_notEquivalent h with h | h | h | h <;> simp [h]

/-- A verdict right for a set of inputs, as positive statement about fewer inputs. -/
theorem meaning_of_correct {S : Mixed m n} {cfg : Configuration} {v : Criterion} (h : Correct v (commonAnc S) S.qc1 S.ω1 S.qc2 S.ω2) :
    MMeaning S cfg v := by
  have lo := some_covers_common S cfg.execution.runZXChecker
  have hi := common_covers_both S cfg.execution.runSimulationChecker
  refine ⟨?_, fun e _ => sameUpTo_covers lo (h.equivalent.1 e), fun e _ hs => ?_, fun e _ hp => h.notEquivalent.1 e (phase_covers hi hp), fun e => ?_⟩
  · rintro (e | e)
    · exact ⟨1, by simp, sameUpTo_covers lo (h.equivalent.1 e)⟩
    · exact phase_covers lo (h.phase.1 e).1
  · exact (h.phase.1 e).2 (same_of_phase lo S.wf2.ops (h.phase.1 e).1 hs)
  · subst e
    by_cases hs : Same (commonAnc S) S.qc1 S.ω1 S.qc2 S.ω2
    · exact absurd (h.equivalent.2 hs) (by simp)
    · by_cases hp : SameUpToPhase (commonAnc S) S.qc1 S.ω1 S.qc2 S.ω2
      · exact absurd (h.phase.2 ⟨hp, hs⟩) (by simp)
      · exact absurd (h.notEquivalent.2 hp) (by simp)

theorem some_covers_some (S : Mixed m n) (zx : Bool) : Covers n (S.someAnc zx) (S.someAnc false) := by
  intro q hq
  rw [Mixed.someAnc, marks_get, Bool.false_and, Bool.or_false] at hq
  rw [Mixed.someAnc, marks_get, hq]
  rfl

/-- The verdict of a conclusive run has its meaning. -/
theorem mixed_conclusive_means (S : Mixed m n) {cfg : Configuration} {quiet : Bool} {e : Event} (hc : Conclusive e) (hen : Enabled cfg e.kind)
    (h : MAnswerMeans S quiet e.kind e.verdict) : MMeaning S cfg e.verdict := by
  rcases e with ⟨k, v⟩
  cases k <;> simp only [Conclusive, MAnswerMeans] at hc h hen ⊢
  · subst hc
    refine ⟨by simp, by simp, by simp, fun _ _ hp => h.1 rfl (phase_covers ?_ hp), by simp⟩
    rw [show cfg.execution.runSimulationChecker = true from hen]
    exact last_covers_both S
  · rcases h with h | h
    · exact absurd h.2 hc
    · exact meaning_of_correct h
  · rcases h with h | ⟨h3, hpos, heq⟩
    · exact absurd h.2 hc
    · have full : S.SameFlags → MMeaning S cfg v := fun e => meaning_of_correct (heq e)
      refine ⟨?_, fun e hm => (full (hm hen)).equivalent e hm, fun e hm => (full (hm hen)).phase e hm, fun e hm => (full (hm hen)).notEquivalent e hm, ?_⟩
      · rintro (e | e) <;> exact phase_covers (some_covers_some S _) (hpos (by simp [e]))
      · rcases h3 with e | e | e <;> simp [e]
  · have hz := h.2
    have hle : Covers n (S.someAnc cfg.execution.runZXChecker) (flags m n) := by
      rw [show cfg.execution.runZXChecker = true from hen]
      exact some_covers_last S
    refine ⟨?_, fun e _ => sameUpTo_covers hle (hz.equivalent e), fun e _ hs => ?_, ?_, ?_⟩
    · rintro (e | e)
      · exact ⟨1, by simp, sameUpTo_covers hle (hz.equivalent e)⟩
      · exact phase_covers hle (hz.phase e).1
    · exact (hz.phase e).2 (same_of_phase hle S.wf2.ops (hz.phase e).1 hs)
    · rcases hc with hc | hc <;> simp [hc]
    · rcases hc with hc | hc <;> simp [hc]

theorem mixed_default_means (S : Mixed m n) {cfg : Configuration} {v : Criterion}
    (h : v = .noInformation ∨ v = .probablyEquivalent ∨ v = .probablyNotEquivalent) : MMeaning S cfg v := by
  rcases h with h | h | h <;> subst h <;> exact ⟨by simp, by simp, by simp, by simp, by simp⟩

/-- **C61** (sequential, different ancillary qubits): the verdict of a run that returns is true of the circuits. -/
theorem mixed_sequential_verdict (S : Mixed m n) {env : Env} {fuel : Nat} {s s' : State} (hs : Enabled s.cfg .alternating → S.Safe)
    (hm : mode env s.cfg = .sequential)
    (h : run env fuel s = some (.returned s'))
    (hans : ∀ e : Event, FromEnv env e → Enabled s.cfg e.kind → MAnswer S false e.kind e.verdict) :
    MMeaning S s.cfg s'.results.equivalence := by
  obtain ⟨hx, hp, _⟩ := sequential_verdict_explained hm h
  by_cases hc : ∃ e ∈ s'.log, Conclusive e
  · obtain ⟨e, he, hce⟩ := hc
    rw [hx.1 e he hce]
    exact mixed_conclusive_means S hce (hp e he).2 (mixed_answer_means S (fun ek => hs (ek ▸ (hp e he).2)) (hans e (hp e he).1 (hp e he).2))
  · rw [hx.2 fun e he hce => hc ⟨e, he, hce⟩]
    exact mixed_default_means S (evidence_default _)

theorem mixed_adjust_zx (S : Mixed m n) {quiet : Bool} {env : ParEnv} {cfg : Configuration}
    (hans : ∀ k c, Enabled cfg k → env.may k c → MAnswer S quiet k c) : ZXAnswers (adjust cfg env) := by
  rintro c (⟨he, hc⟩ | ⟨_, rfl⟩)
  · have := (mixed_answer_means S (by simp) (hans .zx c he hc)).1
    simpa using this
  · simp

/-- **C61** (parallel, different ancillary qubits): the same for every schedule of the threads. -/
theorem mixed_parallel_verdict (S : Mixed m n) {env : ParEnv} {cfg : Configuration} {res : Results} {s : PState}
    (hs : Enabled cfg .alternating → S.Safe) (h : Reachable env cfg res s) (hr : s.main = .ended .returned)
    (hans : ∀ k c, Enabled cfg k → env.may k c → MAnswer S false k c) : MMeaning S cfg s.results.equivalence := by
  obtain ⟨hx, hp, _⟩ := parallel_verdict_explained (mixed_adjust_zx S hans) (adjust_reachable h) hr
  have hmean : ∀ e ∈ s.log, Enabled cfg e.kind ∧ MAnswerMeans S false e.kind e.verdict := fun e he =>
    ⟨(hp e he).2, mixed_answer_means S (fun ek => hs (ek ▸ (hp e he).2)) (hans _ _ (hp e he).2 ((adjust_may (hp e he).2 _).mp (hp e he).1))⟩
  by_cases hc : ∃ e ∈ s.log, Conclusive e
  · obtain ⟨e, he, hce⟩ := hc
    rw [hx.1 e he hce]
    exact mixed_conclusive_means S hce (hmean e he).1 (hmean e he).2
  · have hn : ∀ e ∈ s.log, ¬ Conclusive e := fun e he hce => hc ⟨e, he, hce⟩
    by_cases hg : ∃ e ∈ s.log, GivesUp e
    · obtain ⟨e, he, hge⟩ := hg
      rw [hx.2.1 e he hge]
      exact mixed_default_means S (Or.inl rfl)
    · rw [hx.2.2 fun e he => ⟨hn e he, fun hge => hg ⟨e, he, hge⟩⟩]
      exact mixed_default_means S (parEvidence_default _ _)

end QCEC.Props
