import Verif.Spec.EndToEndRoundingPartial
import Verif.Props.RoundingPartial
import Verif.Props.EndToEndRounding
import Verif.Props.EndToEndPartial
/-!
# C93: what the verdict of a run with `check_partial_equivalence` means when the decision-diagram package rounds
-/
namespace QCEC.Props
open QCEC QCEC.DD QCEC.Sem QCEC.Gen QCEC.ZX QCEC.Spec QCEC.Spec.ZX QCEC.Mgr QCEC.Prep QCEC.Par Matrix

variable {m n : Nat}

theorem prUnread_get (S : InexactPartial m n) (q : Fin n) :
    S.unread.getD q.val false = (S.qc1.garbage.getD q.val false && S.qc2.garbage.getD q.val false) := by
  rw [InexactPartial.unread, marks_get]

theorem partiallyWithin_covers {f g u : List Bool} (h : Covers n f g) {e e' : ℝ} (he : e ≤ e') {qc1 qc2 : QC n} {ω1 ω2 : Equiv.Perm (Fin n)}
    (hp : PartiallyWithin e u g qc1 ω1 qc2 ω2) : PartiallyWithin e' u f qc1 ω1 qc2 ω2 :=
  fun v hv hn A hA => le_trans (hp v (zero_covers h hv) hn A hA) he

theorem partiallyEquivalent_covers {f g u : List Bool} (h : Covers n f g) {qc1 qc2 : QC n} {ω1 ω2 : Equiv.Perm (Fin n)}
    (hp : PartiallyEquivalent u g qc1 ω1 qc2 ω2) : PartiallyEquivalent u f qc1 ω1 qc2 ω2 := fun v hv => hp v (zero_covers h hv)

theorem blocks_congr {g g' : List Bool} (h : ∀ q : Fin n, g.getD q.val false = g'.getD q.val false) {B : Mat n} (hB : Blocks g B) : Blocks g' B :=
  fun x y hx q hq => hB x y hx q (by rw [h, hq])

theorem partiallyWithin_congr {g g' anc : List Bool} (h : ∀ q : Fin n, g.getD q.val false = g'.getD q.val false) {e : ℝ} {qc1 qc2 : QC n}
    {ω1 ω2 : Equiv.Perm (Fin n)} (hp : PartiallyWithin e g anc qc1 ω1 qc2 ω2) : PartiallyWithin e g' anc qc1 ω1 qc2 ω2 :=
  fun v hv hn A hA => hp v hv hn A fun x y hxy => hA x y fun q hq => hxy q (by rw [h, hq])

theorem prReported_unread (S : InexactPartial m n) {v : Basis n → ℂ} (hv : AncillasZero (flags m n) v) (k : Basis n) :
    reported S.qc1.garbage (output S.qc1 S.ω1 v) k = reported S.unread (output S.qc1 S.ω1 v) k ∧
      reported S.qc2.garbage (output S.qc2 S.ω2 v) k = reported S.unread (output S.qc2 S.ω2 v) k := by
  have ha : ∀ q : Fin n, m ≤ q.val → (flags m n).getD q.val false = true := fun q hq => by rw [flags_get m n S.data]; exact decide_eq_true hq
  constructor
  · refine reported_unused (fun q => ?_) k
    rw [prUnread_get]
    rcases S.garbage q with e | ⟨h0, _, _, ⟨hg, hi⟩ | ⟨hg, hi⟩⟩
    · left; rw [e, Bool.and_self]
    · rw [hg, Bool.true_and]
      cases e : S.qc2.garbage.getD q.val false
      · exact Or.inr ⟨rfl, rfl, idle_output_zero hi fun x hx => hv x hx q (ha q h0)⟩
      · exact Or.inl rfl
    · left; rw [hg, Bool.and_true]
  · refine reported_unused (fun q => ?_) k
    rw [prUnread_get]
    rcases S.garbage q with e | ⟨h0, _, _, ⟨hg, hi⟩ | ⟨hg, hi⟩⟩
    · left; rw [e, Bool.and_self]
    · left; rw [hg, Bool.true_and]
    · rw [hg, Bool.and_true]
      cases e : S.qc1.garbage.getD q.val false
      · exact Or.inr ⟨rfl, rfl, idle_output_zero hi fun x hx => hv x hx q (ha q h0)⟩
      · exact Or.inl rfl

theorem _root_.QCEC.Spec.InexactPartial.Unmistaken.configured {S : InexactPartial m n} (h : S.Unmistaken) : AltConfigured S.qc1 S.qc2 S.schA := by
  have h2 := h.2
  have h3 := S.confA
  revert h2 h3
  generalize S.schA = sch
  intro h2 h3
  cases h3 with
  | counts sch hs => exact .counts sch hs
  | lookahead size => exact .lookahead size (h2 fun x => x).1 (h2 fun x => x).2

/-! ## The answers -/

/-- What the single answers mean. -/
def PRAnswerMeans (S : InexactPartial m n) (quiet : Bool) (k : Kind) (c : Criterion) : Prop :=
  match k with
  | .simulation => (c = .notEquivalent → S.ReducedBudget → ¬ PartiallyEquivalent S.unread (flags m n) S.qc1 S.ω1 S.qc2 S.ω2) ∧
      (quiet = true → c ≠ .noInformation)
  | .alternating => (quiet = false ∧ c = .noInformation) ∨ ((c = .equivalent ∨ c = .equivalentUpToGlobalPhase ∨ c = .notEquivalent) ∧
      (c ≠ .notEquivalent → PartiallyWithin (4 * S.drift) S.unread (rCommon S.toInexact) S.qc1 S.ω1 S.qc2 S.ω2) ∧
      (c = .notEquivalent → S.ReducedBudget → S.OneIdle → ¬ PartiallyEquivalent S.unread (rCommon S.toInexact) S.qc1 S.ω1 S.qc2 S.ω2))
  | .construction => True
  | .zx => c ∈ [.equivalent, .equivalentUpToGlobalPhase, .probablyNotEquivalent, .noInformation] ∧
      (c = .equivalent ∨ c = .equivalentUpToGlobalPhase → PartiallyEquivalent S.unread (flags m n) S.qc1 S.ω1 S.qc2 S.ω2)

theorem rounded_partial_alternating_means (S : InexactPartial m n) (hsafe : S.Unmistaken) {quiet : Bool} {stop : Nat → Bool} (hm : Mono stop)
    (hq : quiet = true → ∀ i, stop i = false) {fuel : Nat} (hf : S.qc1.ops.length + S.qc2.ops.length + 2 ≤ fuel) {c s}
    (h : runAlt S.bM S.T.isId S.opEq S.schA (altCheck true S.G.closeG S.T.close S.T.wOne n S.qc1 S.qc2) stop .noInformation S.qc1 S.qc2
        (altInit S.bM S.ident n S.qc1 S.qc2) fuel = .ok (c, s)) : PRAnswerMeans S quiet .alternating c := by
  have h0 : Stretch S.ε (S.valM (altInit S.bM S.ident n S.qc1 S.qc2) - ancProj (rCommon S.toInexact)) := by
    have := S.roundM.ancillae (rCommon S.toInexact) true S.ident 1 (by rw [S.ident_val]; exact stretch_one)
    have e : reduceAncillae (rCommon S.toInexact) true (S.valM S.ident) = ancProj (rCommon S.toInexact) := by rw [S.ident_val]; simp [reduceAncillae]
    rwa [e, mul_one] at this
  have hacc : accumulated S.ε S.ε (cost S.qc1 + cost S.qc2) = accumulated S.ε 0 (cost S.qc1 + cost S.qc2 + 1) := by
    unfold accumulated; rw [pow_succ]; ring
  have hcan : S.schA.Cancels → NearSafeFrom (accumulated S.ε S.ε (cost S.qc1 + cost S.qc2)) (ancProj (rCommon S.toInexact)) S.opEq S.qc1 S.qc2 :=
    fun hk => ((hsafe.1 hk).from S.wf1.ops S.wf2.ops).mono (by rw [hacc]; linarith [drift_alt S.toInexact, S.θ_nonneg])
  obtain ⟨v, s', hr, ho⟩ := alternating_rounded_outcome S.roundM.nonneg S.roundM S.qc1 S.qc2 S.ω1 S.ω2 S.wf1 S.wf2 S.T.isId S.T.isId_sound
    S.opEq S.schA hsafe.configured (altCheck true S.G.closeG S.T.close S.T.wOne n S.qc1 S.qc2) stop hm .noInformation _ _ hcan (stretch_ancProj _) h0
    fuel hf
  rw [hr] at h
  cases h
  rcases ho with ⟨hs, hv⟩ | ⟨_, hv, hst⟩
  · refine Or.inl ⟨?_, hv⟩
    cases quiet with
    | false => rfl
    | true => rw [hq rfl] at hs; cases hs
  right
  rw [hacc] at hst
  have hg : ∀ q : Fin n, (altGarbage n S.qc1.garbage S.qc2.garbage).getD q.val false = S.unread.getD q.val false := fun q => by
    rw [altGarbage_flag, prUnread_get]
  have hdr := drift_alt S.toInexact
  refine ⟨?_, fun hne => ?_, fun he hB hidle hp => ?_⟩
  · rw [hv]
    unfold altCheck altVerdict
    simp only [if_true]
    split
    · split <;> simp
    · simp
  · have hcl : S.G.closeG (altGarbage n S.qc1.garbage S.qc2.garbage) s.d = true := by
      by_contra hn
      apply hne
      rw [hv]
      unfold altCheck altVerdict
      simp only [if_true]
      rw [if_neg hn]
    obtain ⟨B, hB, hB'⟩ := S.G.closeG_sound _ _ hcl
    have hnear := near_block_sound (anc := rCommon S.toInexact) S.wf1.ops S.wf2.ops (blocks_congr hg hB) (hst.comm.tri hB')
    exact partiallyWithin_covers (fun q hq => hq) (by linarith) hnear
  · have hp' := (partially_congr hg (fun _ => rfl) S.qc1 S.qc2 S.ω1 S.ω2 (anc := rCommon S.toInexact)).2 hp
    have hblk : Blocks (altGarbage n S.qc1.garbage S.qc2.garbage)
        (funcOf S.qc1 S.ω1 * ancProj (rCommon S.toInexact) * (funcOf S.qc2 S.ω2)ᴴ) := by
      refine (block_iff _ _).mpr (block_complete _ _ S.qc1 S.qc2 S.ω1 S.ω2 S.wf1.ops S.wf2.ops ?_ hp')
      rcases hidle with h | h
      · refine Or.inl fun q hq => ?_
        rw [rCommon, altAncillary_flag, Bool.and_eq_true] at hq
        exact h q hq.1 hq.2
      · refine Or.inr fun q hq => ?_
        rw [rCommon, altAncillary_flag, Bool.and_eq_true] at hq
        exact h q hq.1 hq.2
    have hcl := S.G.closeG_complete _ _ _ hblk (hst.mono hB.1)
    rw [hv] at he
    unfold altCheck altVerdict at he
    simp only [if_true] at he
    rw [if_pos hcl] at he
    split at he <;> cases he

theorem rounded_partial_simRun_means (S : InexactPartial m n) {quiet : Bool} {prev c : Criterion}
    (hp : prev = .notEquivalent → S.ReducedBudget → ¬ PartiallyEquivalent S.unread (flags m n) S.qc1 S.ω1 S.qc2 S.ω2) (h : PRSimRun S quiet prev c) :
    PRAnswerMeans S quiet .simulation c := by
  obtain ⟨R, g, g', st, x, d, stop, fuel, s, hgen, hden, hdx, hm, hq, hf, hrun⟩ := h
  obtain ⟨hs⟩ := S.confS
  obtain ⟨hnorm, hanc⟩ := stimulus_state S.data hgen S.cliff_normalised hden
  obtain ⟨s', ⟨h0, hr⟩ | ⟨h0, hr, _⟩⟩ := runTwo_spec S.bV S.schS true
    (equalsVector S.V.ptrEq S.V.wEq S.V.realClose S.V.fidClose) stop hm prev S.qc1 S.qc2 hs.good d d fuel hf
  · rw [hr] at hrun
    cases hrun
    refine ⟨hp, fun hqt => ?_⟩
    rw [hq hqt] at h0; cases h0
  · rw [hr] at hrun
    cases hrun
    refine ⟨fun hne hB hpart => ?_, fun _ => ?_⟩
    · obtain ⟨v, s'', hr', hv, _⟩ := rounding_partial_simulation S.ηV_nonneg S.roundV S.roundG S.V S.qc1 S.qc2 S.ω1 S.ω2 S.wf1 S.wf2 S.schS hs prev x
        hnorm d hdx
      obtain ⟨s3, ⟨h3, _⟩ | ⟨_, hr3, _⟩⟩ := runTwo_spec S.bV S.schS true
        (equalsVector S.V.ptrEq S.V.wEq S.V.realClose S.V.fidClose) (fun _ => false) (fun _ _ _ h => h) prev S.qc1 S.qc2 hs.good d d _ (Nat.le_refl _)
      · cases h3
      · rw [hr3] at hr'
        cases hr'
        obtain ⟨k, hk⟩ := hv hne hB.2
        apply hk
        obtain ⟨e1, e2⟩ := prReported_unread S hanc k
        rw [e1, e2]
        unfold reported
        rw [hpart x hanc k]
    · unfold equalsVector
      repeat' split
      all_goals simp

/-- **C93**: what the answers of the single checkers mean. -/
theorem rounded_partial_answer_means (S : InexactPartial m n) {quiet : Bool} {k : Kind} {c : Criterion} (hsafe : k = .alternating → S.Unmistaken)
    (h : PRAnswer S quiet k c) : PRAnswerMeans S quiet k c := by
  induction h with
  | alternating stop hm hq fuel hf c s h => exact rounded_partial_alternating_means S (hsafe rfl) hm hq hf h
  | construction stop hm hq fuel hf c s h => trivial
  | simulation c h => exact rounded_partial_simRun_means S (by simp) h
  | simulationAgain prev c _ h ih => exact rounded_partial_simRun_means S (ih (by simp)).1 h
  | zx c h =>
    have := rounded_answer_means S.toInexact (by simp) h
    refine ⟨this.1, ?_⟩
    rintro (h | h)
    · exact same_partially _ _ _ _ _ _ ⟨1, by simp, this.2.equivalent h⟩
    · exact same_partially _ _ _ _ _ _ (this.2.phase h).1

/-! ## The verdict -/

theorem prLast_covers_both (S : InexactPartial m n) : Covers n (flags m n) (S.bothAnc true) := rLast_covers_both S.toInexact

theorem rounded_partial_conclusive (S : InexactPartial m n) {cfg : Configuration} {quiet : Bool} {e : Event} (hen : Enabled cfg e.kind)
    (hc : Conclusive e) (h : PRAnswerMeans S quiet e.kind e.verdict) : PRMeaning S cfg e.verdict := by
  have lo := rSome_covers_common S.toInexact cfg.execution.runZXChecker
  have hi := rCommon_covers_both S.toInexact cfg.execution.runSimulationChecker
  have d0 := drift_nonneg S.toInexact
  rcases e with ⟨k, v⟩
  cases k <;> simp only [Conclusive, PRAnswerMeans] at hc h hen ⊢
  · subst hc
    refine ⟨by simp, fun _ _ hB _ hp => h.1 rfl hB (partiallyEquivalent_covers ?_ hp), by simp⟩
    rw [show cfg.execution.runSimulationChecker = true from hen]
    exact prLast_covers_both S
  · rcases h with h | ⟨h1, h2, h3⟩
    · exact absurd h.2 hc
    · refine ⟨fun hv _ => ?_, fun hv _ hB ho hp => h3 hv hB (ho hen) (partiallyEquivalent_covers hi hp), fun _ => ?_⟩
      · exact partiallyWithin_covers lo le_rfl (h2 (by rcases hv with e | e <;> simp [e]))
      · rcases h1 with h | h | h <;> simp [h]
  · exact ⟨fun _ hn => absurd hen hn, fun _ hn => absurd hen hn, fun hn => absurd hen hn⟩
  · have hle : Covers n (S.someAnc cfg.execution.runZXChecker) (flags m n) := by
      rw [show cfg.execution.runZXChecker = true from hen]
      exact rSome_covers_last S.toInexact
    refine ⟨fun hv _ => ?_, ?_, fun _ => ?_⟩
    · exact partiallyWithin_covers hle (by linarith) ((partially_within_zero _ _ _ _ _ _).2 (h.2 hv))
    · rcases hc with h | h <;> simp [h]
    · rcases hc with h | h <;> simp [h]

theorem rounded_partial_default (S : InexactPartial m n) (cfg : Configuration) {v : Criterion}
    (h : v = .noInformation ∨ v = .probablyEquivalent ∨ v = .probablyNotEquivalent) : PRMeaning S cfg v := by
  rcases h with h | h | h <;> subst h <;> exact ⟨by simp, by simp, by simp⟩

/-- **C93** (sequential): the verdict of a run that returns, interrupted or not. -/
theorem rounded_partial_sequential_verdict (S : InexactPartial m n) {env : Env} {fuel : Nat} {s s' : State}
    (hsafe : Enabled s.cfg .alternating → S.Unmistaken) (hm : mode env s.cfg = .sequential) (h : run env fuel s = some (.returned s'))
    (hans : ∀ e : Event, FromEnv env e → Enabled s.cfg e.kind → PRAnswer S false e.kind e.verdict) :
    PRMeaning S s.cfg s'.results.equivalence := by
  obtain ⟨hx, hp, _⟩ := sequential_verdict_explained hm h
  by_cases hc : ∃ e ∈ s'.log, Conclusive e
  · obtain ⟨e, he, hce⟩ := hc
    rw [hx.1 e he hce]
    exact rounded_partial_conclusive S (hp e he).2 hce
      (rounded_partial_answer_means S (fun hk => hsafe (hk ▸ (hp e he).2)) (hans e (hp e he).1 (hp e he).2))
  · rw [hx.2 fun e he hce => hc ⟨e, he, hce⟩]
    exact rounded_partial_default S _ (evidence_default _)

theorem rounded_partial_adjust_zx (S : InexactPartial m n) {quiet : Bool} {env : ParEnv} {cfg : Configuration}
    (hans : ∀ k c, Enabled cfg k → env.may k c → PRAnswer S quiet k c) : ZXAnswers (adjust cfg env) := by
  rintro c (⟨he, hc⟩ | ⟨_, rfl⟩)
  · have := (rounded_partial_answer_means S (by simp) (hans .zx c he hc)).1
    simpa using this
  · simp

/-- **C93** (parallel): the same for every schedule of the threads. -/
theorem rounded_partial_parallel_verdict (S : InexactPartial m n) {env : ParEnv} {cfg : Configuration} {res : Results} {s : PState}
    (hsafe : Enabled cfg .alternating → S.Unmistaken) (h : Reachable env cfg res s) (hr : s.main = .ended .returned)
    (hans : ∀ k c, Enabled cfg k → env.may k c → PRAnswer S false k c) : PRMeaning S cfg s.results.equivalence := by
  obtain ⟨hx, hp, _⟩ := parallel_verdict_explained (rounded_partial_adjust_zx S hans) (adjust_reachable h) hr
  by_cases hc : ∃ e ∈ s.log, Conclusive e
  · obtain ⟨e, he, hce⟩ := hc
    rw [hx.1 e he hce]
    exact rounded_partial_conclusive S (hp e he).2 hce (rounded_partial_answer_means S (fun hk => hsafe (hk ▸ (hp e he).2))
      (hans _ _ (hp e he).2 ((adjust_may (hp e he).2 _).mp (hp e he).1)))
  · have hn : ∀ e ∈ s.log, ¬ Conclusive e := fun e he hce => hc ⟨e, he, hce⟩
    by_cases hg : ∃ e ∈ s.log, GivesUp e
    · obtain ⟨e, he, hge⟩ := hg
      rw [hx.2.1 e he hge]
      exact rounded_partial_default S _ (Or.inl rfl)
    · rw [hx.2.2 fun e he => ⟨hn e he, fun hge => hg ⟨e, he, hge⟩⟩]
      exact rounded_partial_default S _ (parEvidence_default _ _)

/-- **C93** (the question is decided): with the alternating but not the construction checker switched on, no timeout and no exception, an uninterrupted run
returns one of the three verdicts, with its meaning.  With errors within the budget and a circuit that does not act on the common ancillary qubits, partially
equivalent circuits are not refuted; circuits of which some observable event differs in its probability by more than four times the drift are. -/
theorem rounded_partial_sequential_decides (S : InexactPartial m n) {env : Env} {fuel : Nat} {s : State} (hsafe : S.Unmistaken)
    (hm : mode env s.cfg = .sequential) (hc : CountersOk s) (ht : ¬ s.cfg.execution.timeout > 0) (hfuel : s.cfg.simulation.maxSims < fuel)
    (hen : Enabled s.cfg .alternating) (hcon : ¬ Enabled s.cfg .construction) (hfail : ¬ SomeCheckerFails env s.cfg)
    (hans : ∀ e : Event, FromEnv env e → Enabled s.cfg e.kind → PRAnswer S true e.kind e.verdict) :
    ∃ s', run env fuel s = some (.returned s') ∧
      (s'.results.equivalence = .equivalent ∨ s'.results.equivalence = .equivalentUpToGlobalPhase ∨ s'.results.equivalence = .notEquivalent) ∧
      (S.ReducedBudget → S.OneIdle → PartiallyEquivalent S.unread (S.bothAnc s.cfg.execution.runSimulationChecker) S.qc1 S.ω1 S.qc2 S.ω2 →
        s'.results.equivalence ≠ .notEquivalent) ∧
      (¬ PartiallyWithin (4 * S.drift) S.unread (S.someAnc s.cfg.execution.runZXChecker) S.qc1 S.ω1 S.qc2 S.ω2 →
        s'.results.equivalence = .notEquivalent) := by
  have hg : ¬ SomeSimGivesUp env s.cfg := by
    rintro ⟨he, k, hk⟩
    exact (rounded_partial_answer_means S (by simp) (hans ⟨.simulation, .noInformation⟩ ⟨k, hk⟩ he)).2 rfl rfl
  obtain ⟨s', hs'⟩ := sequential_returns_partial env s hm hc hfail hg fuel hfuel
  refine ⟨s', hs', ?_⟩
  obtain ⟨hx, hp, _⟩ := sequential_verdict_explained hm hs'
  have hmean : ∀ e ∈ s'.log, PRAnswerMeans S true e.kind e.verdict := fun e he =>
    rounded_partial_answer_means S (fun _ => hsafe) (hans e (hp e he).1 (hp e he).2)
  have hex : ∃ e ∈ s'.log, Conclusive e := by
    by_contra hno
    have hn : ∀ e ∈ s'.log, ¬ Conclusive e := fun e he hce => hno ⟨e, he, hce⟩
    obtain ⟨e, he, hke⟩ := sequential_all_consulted hm ht hs' hn (fun e he hk => by
      have := hmean e he
      rw [hk] at this
      exact this.2 rfl) .alternating (by simp) hen (by simp)
    have hme := hmean e he
    rw [hke] at hme
    rcases hme with hme | hme
    · exact absurd hme.1 (by simp)
    · apply hn e he
      rcases e with ⟨ke, ve⟩
      cases hke
      rcases hme.1 with h | h | h <;> simp only at h <;> subst h <;> simp [Conclusive]
  obtain ⟨e, he, hce⟩ := hex
  have hM := rounded_partial_conclusive S (hp e he).2 hce (hmean e he)
  have h3 : e.verdict = .equivalent ∨ e.verdict = .equivalentUpToGlobalPhase ∨ e.verdict = .notEquivalent := by
    have hme := hmean e he
    have hek := (hp e he).2
    rcases e with ⟨k, v⟩
    cases k <;> simp only [Conclusive, PRAnswerMeans] at hce hme hek ⊢
    · exact Or.inr (Or.inr hce)
    · rcases hme with h | h
      · exact absurd h.1 (by simp)
      · exact h.1
    · exact absurd hek hcon
    · rcases hce with h | h <;> simp [h]
  rw [hx.1 e he hce]
  refine ⟨h3, fun hB hidle hpart hv => hM.negative hv hcon hB (fun _ => hidle) hpart, fun hfar => ?_⟩
  by_contra hne
  exact hfar (hM.positive (by rcases h3 with h | h | h <;> simp_all) hcon)

/-- **C93** (the question is decided, parallel): for every schedule of the threads, a run that is not timed out and does not use the construction checker
returns one of the three verdicts, as in the sequential flow, unless simulations were suspicious and all passed before the alternating checker finished. -/
theorem rounded_partial_parallel_decides (S : InexactPartial m n) {env quiet : ParEnv} {cfg : Configuration} {res : Results} {s : PState}
    (hsafe : S.Unmistaken) (hq : quiet.zxTransformable = env.zxTransformable) (hrun : CalmSteps env quiet (launch env.zxTransformable cfg res) s)
    (hr : s.main = .ended .returned) (ht : s.timedOut = false) (hen : Enabled cfg .alternating) (hcon : ¬ Enabled cfg .construction)
    (hans : ∀ k c, Enabled cfg k → quiet.may k c → PRAnswer S true k c) :
    ((s.results.equivalence = .equivalent ∨ s.results.equivalence = .equivalentUpToGlobalPhase ∨ s.results.equivalence = .notEquivalent) ∧
      (S.ReducedBudget → S.OneIdle → PartiallyEquivalent S.unread (S.bothAnc cfg.execution.runSimulationChecker) S.qc1 S.ω1 S.qc2 S.ω2 →
        s.results.equivalence ≠ .notEquivalent) ∧
      (¬ PartiallyWithin (4 * S.drift) S.unread (S.someAnc cfg.execution.runZXChecker) S.qc1 S.ω1 S.qc2 S.ω2 →
        s.results.equivalence = .notEquivalent)) ∨
    (s.results.equivalence = .noInformation ∧ (∃ e ∈ s.log, Suspects e) ∧ (∃ e ∈ s.log, Passed e) ∧
      s.results.performedSimulations = cfg.simulation.maxSims) := by
  have hz := rounded_partial_adjust_zx S hans
  obtain ⟨s1, h1, hd, hl, hres, hc, hto, _⟩ := CalmSteps.quiet (env := adjust cfg env) (quiet := adjust cfg quiet) hq (adjust_calm hrun)
  have hdone : s1.done = true := by rw [hd]; exact returned_done hrun.steps hr
  have hv := reachable_vinv hz.never h1
  have hb := reachable_base h1
  rw [← hres, ← hl]
  have henabled : ∀ e ∈ s1.log, Enabled cfg e.kind := fun e he => enabled_of_launch (hb.conf ▸ (hv.prov e he).2)
  have hmean : ∀ e ∈ s1.log, PRAnswerMeans S true e.kind e.verdict := fun e he =>
    rounded_partial_answer_means S (fun _ => hsafe) (hans _ _ (henabled e he) ((adjust_may (henabled e he) _).mp (hv.prov e he).1))
  obtain ⟨n1, n2, n3⟩ := not_only (zxOk := (adjust cfg quiet).zxTransformable) (Or.inl hen)
  rw [← hb.conf] at n2 n3
  have hnever : ∀ e ∈ s1.log, ¬ GivesUp e := by
    rintro ⟨k, v⟩ he ⟨hk, hv'⟩
    have := hmean _ he
    have hek := henabled _ he
    simp only at hk hv' hek
    subst hv'
    cases k <;> simp only [PRAnswerMeans] at this
    · exact absurd rfl (this.2 trivial)
    · rcases this with h | h
      · exact absurd h.1 (by simp)
      · simp at h
    · exact absurd hek hcon
    · exact hk rfl
  by_cases hex : ∃ e ∈ s1.log, Conclusive e
  · obtain ⟨e, he, hce⟩ := hex
    left
    have hM := rounded_partial_conclusive S (henabled e he) hce (hmean e he)
    have h3 : e.verdict = .equivalent ∨ e.verdict = .equivalentUpToGlobalPhase ∨ e.verdict = .notEquivalent := by
      have hme := hmean e he
      have hek := henabled e he
      rcases e with ⟨k, v⟩
      cases k <;> simp only [Conclusive, PRAnswerMeans] at hce hme hek ⊢
      · exact Or.inr (Or.inr hce)
      · rcases hme with h | h
        · exact absurd h.1 (by simp)
        · exact h.1
      · exact absurd hek hcon
      · rcases hce with h | h <;> simp [h]
    rw [hv.explained.1 e he hce]
    refine ⟨h3, fun hB hidle hpart hv => hM.negative hv hcon hB (fun _ => hidle) hpart, fun hfar => ?_⟩
    by_contra hne
    exact hfar (hM.positive (by rcases h3 with h | h | h <;> simp_all) hcon)
  · rcases stop_reason_open hz h1 hdone with h | h | h | ⟨e, he, h⟩ | h | h | h
    · rw [hto, ht] at h; simp at h
    · rw [n1] at h; simp at h
    · exact absurd h hex
    · exact absurd h (hnever e he)
    · rw [n2] at h; simp at h
    · rw [n3] at h; simp at h
    · right
      have hms : s1.cfg.simulation.maxSims = cfg.simulation.maxSims := by rw [hb.conf, launchCfg_maxSims]
      refine ⟨?_, h.1, h.2.1, by rw [h.2.2, hms]⟩
      rw [hv.explained.2.2 fun e he => ⟨fun hce => hex ⟨e, he, hce⟩, hnever e he⟩]
      unfold parEvidence
      rw [if_pos h.1, if_pos ⟨h.2.1, h.2.2⟩]

/-! ## With the real queue and with late visibility -/

/-- **C93** (parallel, threads using the real queue). -/
theorem rounded_partial_composed_verdict (S : InexactPartial m n) {env : ParEnv} {D : Nat} {cfg : Configuration} {res : Results} {c : ParQ.CState}
    (hsafe : Enabled cfg .alternating → S.Unmistaken) (h : ParQ.Reachable env D cfg res c) (hr : c.p.main = .ended .returned)
    (hans : ∀ k c, Enabled cfg k → env.may k c → PRAnswer S false k c) : PRMeaning S cfg c.p.results.equivalence :=
  rounded_partial_parallel_verdict S hsafe (composed_refines h) hr hans

/-- **C93** (parallel, plain variables becoming visible late). -/
theorem rounded_partial_delayed_verdict (S : InexactPartial m n) {env : ParEnv} {cfg : Configuration} {res : Results} {s : PState}
    (hsafe : Enabled cfg .alternating → S.Unmistaken) (h : ParR.RReachable env cfg res s) (hr : s.main = .ended .returned)
    (hans : ∀ k c, Enabled cfg k → env.may k c → PRAnswer S false k c) : PRMeaning S cfg s.results.equivalence := by
  obtain ⟨t, ht, hm, hres⟩ := (delayed_same_outcomes env cfg res _ _).1 ⟨s, h, hr, rfl⟩
  rw [← hres]
  exact rounded_partial_parallel_verdict S hsafe ht hm hans

/-- **C86** (parallel, threads using the real queue). -/
theorem rounded_composed_verdict (S : Inexact m n) {env : ParEnv} {D : Nat} {cfg : Configuration} {res : Results} {c : ParQ.CState}
    (hsafe : Enabled cfg .alternating → S.Safe) (h : ParQ.Reachable env D cfg res c) (hr : c.p.main = .ended .returned)
    (hans : ∀ k c, Enabled cfg k → env.may k c → RAnswer S false k c) : RMeaning S cfg c.p.results.equivalence :=
  rounded_parallel_verdict S hsafe (composed_refines h) hr hans

/-- **C86** (parallel, plain variables becoming visible late). -/
theorem rounded_delayed_verdict (S : Inexact m n) {env : ParEnv} {cfg : Configuration} {res : Results} {s : PState}
    (hsafe : Enabled cfg .alternating → S.Safe) (h : ParR.RReachable env cfg res s) (hr : s.main = .ended .returned)
    (hans : ∀ k c, Enabled cfg k → env.may k c → RAnswer S false k c) : RMeaning S cfg s.results.equivalence := by
  obtain ⟨t, ht, hm, hres⟩ := (delayed_same_outcomes env cfg res _ _).1 ⟨s, h, hr, rfl⟩
  rw [← hres]
  exact rounded_parallel_verdict S hsafe ht hm hans

end QCEC.Props
