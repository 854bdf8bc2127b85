import Verif.Spec.VerifyPartialDecides
import Verif.Props.VerifyDecides
import Verif.Props.AncillasOneSide
/-!
# Properties: a `verify()` with partial equivalence that nobody interrupts decides (C74, C82)
-/
namespace QCEC.Props
open QCEC QCEC.DD QCEC.Sem QCEC.Gen QCEC.ZX QCEC.Spec QCEC.Spec.ZX QCEC.Mgr QCEC.Prep QCEC.Par QCEC.Spec.Wide Matrix

variable {m n : Nat}

/-- An uninterrupted alternating or construction checker always has an answer. -/
theorem partial_definite (S : PSetting m n) {k : Kind} {c : Criterion} (hk : k = .alternating ∨ k = .construction) (h : PAnswerMeans S true k c) :
    Definite c := by
  rcases hk with rfl | rfl <;> rcases h with h | h
  · exact absurd h.1 (by simp)
  · exact h.1
  · exact absurd h.1 (by simp)
  · exact h.1

theorem partial_conclusive_definite (S : PSetting m n) {e : Event} (hc : Conclusive e) (h : PAnswerMeans S true e.kind e.verdict) : Definite e.verdict := by
  rcases e with ⟨k, v⟩
  cases k
  · exact Or.inr (Or.inr hc)
  · exact partial_definite S (Or.inl rfl) h
  · exact partial_definite S (Or.inr rfl) h
  · rcases hc with hc | hc
    · exact Or.inl hc
    · exact Or.inr (Or.inl hc)

/-- **C74** (sequential, any ancillary qubits): with the alternating or the construction checker enabled and no timeout, a run that returns has a definitive
verdict. -/
theorem partial_sequential_definite (S : PSetting m n) {env : Env} {fuel : Nat} {s s' : State} (hm : mode env s.cfg = .sequential)
    (ht : ¬ s.cfg.execution.timeout > 0) (h : run env fuel s = some (.returned s')) (hen : Enabled s.cfg .alternating ∨ Enabled s.cfg .construction)
    (hans : ∀ e : Event, FromEnv env e → Enabled s.cfg e.kind → PAnswer S.toPBase true e.kind e.verdict) : Definite s'.results.equivalence := by
  obtain ⟨hx, hp, _⟩ := sequential_verdict_explained hm h
  have hmean : ∀ e ∈ s'.log, PAnswerMeans S true e.kind e.verdict := fun e he => partial_answer_means S (hans e (hp e he).1 (hp e he).2)
  have hcon : ∃ e ∈ s'.log, Conclusive e := by
    by_contra hcon
    have hn : ∀ e ∈ s'.log, ¬ Conclusive e := fun e he hce => hcon ⟨e, he, hce⟩
    have hall := sequential_all_consulted hm ht h hn (fun e he hk => by
      have := hmean e he
      rw [hk] at this
      exact this.2 rfl)
    have hne : ∀ k, (k = .alternating ∨ k = .construction) → Enabled s.cfg k → False := by
      intro k hk hek
      obtain ⟨e, he, hke⟩ := hall k (by rcases hk with rfl | rfl <;> simp) hek (by rcases hk with rfl | rfl <;> simp)
      have hd : Definite e.verdict := partial_definite S (hke ▸ hk) (hmean e he)
      exact hn e he (definite_conclusive (hke ▸ hk) hd)
    rcases hen with h | h
    · exact hne _ (Or.inl rfl) h
    · exact hne _ (Or.inr rfl) h
  obtain ⟨e, he, hce⟩ := hcon
  rw [hx.1 e he hce]
  exact partial_conclusive_definite S hce (hmean e he)

/-- **C74** (parallel, any ancillary qubits): the same for every schedule, except that a run gives up, with `NoInformation`, as soon as all simulations have
passed and the ZX checker has expressed a doubt. -/
theorem partial_parallel_definite (S : PSetting m n) {env quiet : ParEnv} {cfg : Configuration} {res : Results} {s : PState}
    (hq : quiet.zxTransformable = env.zxTransformable) (hrun : CalmSteps env quiet (launch env.zxTransformable cfg res) s)
    (hr : s.main = .ended .returned) (ht : s.timedOut = false) (hen : Enabled cfg .alternating ∨ Enabled cfg .construction)
    (hans : ∀ k c, Enabled cfg k → quiet.may k c → PAnswer S.toPBase true k c) :
    Definite s.results.equivalence ∨ s.results.equivalence = .noInformation ∧ Enabled cfg .simulation ∧ Enabled cfg .zx := by
  have hz := partial_adjust_zx S hans
  obtain ⟨s1, h1, hd, hl, hres, hc, hto, _⟩ := CalmSteps.quiet (env := adjust cfg env) (quiet := adjust cfg quiet) hq (adjust_calm hrun)
  have hdone : s1.done = true := by rw [hd]; exact returned_done hrun.steps hr
  have hv := reachable_vinv hz.never h1
  have hb := reachable_base h1
  rw [← hres]
  have hen' : ∀ e ∈ s1.log, Enabled cfg e.kind := fun e he => enabled_of_launch (hb.conf ▸ (hv.prov e he).2)
  have hmean : ∀ e ∈ s1.log, PAnswerMeans S true e.kind e.verdict := fun e he =>
    partial_answer_means S (hans _ _ (hen' e he) ((adjust_may (hen' e he) _).mp (hv.prov e he).1))
  obtain ⟨n1, n2, n3⟩ := not_only (zxOk := (adjust cfg quiet).zxTransformable) hen
  rw [← hb.conf] at n2 n3
  have hnever : ∀ e ∈ s1.log, ¬ GivesUp e := by
    rintro ⟨k, v⟩ he ⟨hk, hv'⟩
    have := hmean _ he
    simp only at hk hv'
    subst hv'
    cases k
    · exact absurd rfl (this.2 rfl)
    · rcases partial_definite S (Or.inl rfl) this with h | h | h <;> simp at h
    · rcases partial_definite S (Or.inr rfl) this with h | h | h <;> simp at h
    · exact hk rfl
  by_cases hcon : ∃ e ∈ s1.log, Conclusive e
  · obtain ⟨e, he, hce⟩ := hcon
    left
    rw [hv.explained.1 e he hce]
    exact partial_conclusive_definite S hce (hmean e he)
  · rcases stop_reason_open hz h1 hdone with h | h | h | ⟨e, he, h⟩ | h | h | h
    · rw [hto, ht] at h; simp at h
    · rw [n1] at h; simp at h
    · exact absurd h hcon
    · exact absurd h (hnever e he)
    · rw [n2] at h; simp at h
    · rw [n3] at h; simp at h
    · right
      obtain ⟨⟨e1, he1, k1⟩, ⟨e2, he2, k2⟩, hcount⟩ := h
      refine ⟨?_, k2.1 ▸ hen' e2 he2, k1.1 ▸ hen' e1 he1⟩
      rw [hv.explained.2.2 fun e he => ⟨fun hce => hcon ⟨e, he, hce⟩, hnever e he⟩]
      unfold parEvidence
      rw [if_pos ⟨e1, he1, k1⟩, if_pos ⟨⟨e2, he2, k2⟩, hcount⟩]

/-! ## A manager -/

theorem panswer_any (S : PBase m n) {k : Kind} {c : Criterion} (h : PAnswer S true k c) : PAnswer S false k c := by
  induction h with
  | alternating stop hm hq fuel hf c s h => exact .alternating stop hm (by simp) fuel hf c s h
  | construction stop hm hq fuel hf c s h => exact .construction stop hm (by simp) fuel hf c s h
  | simulation c h =>
    obtain ⟨R, g, g', st, x, stop, fuel, s, a, b, d, _, e, f⟩ := h
    exact .simulation c ⟨R, g, g', st, x, stop, fuel, s, a, b, d, by simp, e, f⟩
  | simulationAgain prev c _ h ih =>
    obtain ⟨R, g, g', st, x, stop, fuel, s, a, b, d, _, e, f⟩ := h
    exact .simulationAgain prev c ih ⟨R, g, g', st, x, stop, fuel, s, a, b, d, by simp, e, f⟩
  | zx c h => exact .zx c (manswer_any S.toMixed h)

/-- Runs that nobody interrupts are runs. -/
theorem calm_pmanager_run {c1 c2 : Circ WOp} {cfg : Configuration} {setters : List Param.Setter} {v : Criterion}
    (h : CalmPManagerRun lib c1 c2 cfg setters v) : PManagerRun lib c1 c2 cfg setters v := by
  have hacts := lib.reliable
  obtain ⟨hP, M, hm, m, n, hd, S, e1, e2, hn1, hn2, hsch, hop, hrun⟩ := h
  refine ⟨hP, M, hm, m, n, hd, S, e1, e2, hn1, hn2, hsch, hop, ?_⟩
  cases hrun with
  | nothing env fuel s' hmode h => exact .nothing env fuel s' hmode h
  | empty env fuel s' he hmode h => exact .empty env fuel s' he hmode h
  | sequential env fuel s' hmode ht h hans => exact .sequential env fuel s' hmode h fun e a b => panswer_any S (hans e a b)
  | parallel env quiet s hp hq hrun hr ht hans hquiet => exact .parallel env s hrun.steps hr hans

/-- The verdict is definitive, in a setting in which the alternating checker is safe. -/
theorem partial_definite_of_setting {c1 c2 : Circ WOp} {cfg : Configuration} {v : Criterion} {lib : Library} {M : Made WOp}
    (hm : Prep.construct lib.acts lib.passes cfg c1 c2 = .made M) (S : PSetting m n) {e : Prop}
    (hrun : CalmRuns (PAnswer S.toPBase) (afterSetters M.cfg []) e v) (hen : Enabled cfg .alternating ∨ Enabled cfg .construction) :
    Definite v ∨ v = .noInformation ∧ ParallelWithBoth cfg := by
  have hc : Enabled M.cfg .alternating ∨ Enabled M.cfg .construction := by
    have := fallback_keeps_functionality_check hm
    have e : (cfg.execution.runAlternatingChecker || cfg.execution.runConstructionChecker) = true := by
      rcases hen with h | h
      · rw [show cfg.execution.runAlternatingChecker = true from h]; rfl
      · rw [show cfg.execution.runConstructionChecker = true from h, Bool.or_true]
    rw [e, Bool.or_eq_true] at this
    exact this
  have hany : M.cfg.anythingToExecute = true := by
    unfold Configuration.anythingToExecute
    rcases hc with h | h
    · rw [show M.cfg.execution.runAlternatingChecker = true from h]; simp
    · rw [show M.cfg.execution.runConstructionChecker = true from h]; simp
  change CalmRuns (PAnswer S.toPBase) M.cfg _ _ at hrun
  cases hrun with
  | nothing env fuel s' hmode h =>
    unfold mode at hmode
    rw [hany] at hmode
    simp only [Bool.not_true, Bool.false_eq_true, if_false] at hmode
    split at hmode
    · exact absurd hmode (by simp)
    · split at hmode
      · split at hmode <;> exact absurd hmode (by simp)
      · exact absurd hmode (by simp)
  | empty env fuel s' he hmode h =>
    have hb : (State.fresh M.cfg).begin.cfg = M.cfg := rfl
    unfold Mgr.run at h
    simp only [hb, hmode, Option.some.injEq, Ending.returned.injEq] at h
    subst h
    exact Or.inl (Or.inl rfl)
  | sequential env fuel s' hmode ht h hans => exact Or.inl (partial_sequential_definite S (s := State.fresh M.cfg) hmode ht h hc hans)
  | parallel env quiet s hp hq hrun hr ht hans hquiet =>
    rcases partial_parallel_definite S hq hrun hr ht hc hquiet with h | ⟨h, hs, hz⟩
    · exact Or.inl h
    · right
      obtain ⟨k, _, hk⟩ := construct_fallback hm
      rw [hk] at hp hs hz
      exact ⟨h, hp, hs, hz⟩

/-- The verdict is definitive, unless the circuits mislead the alternating checker. -/
theorem calm_partial_definite {c1 c2 : Circ WOp} (r1 : Runnable c1) (r2 : Runnable c2) (hg : SameGarbage c1 c2) {cfg : Configuration} {v : Criterion}
    (h : CalmPManagerRun lib c1 c2 cfg [] v) (hen : Enabled cfg .alternating ∨ Enabled cfg .construction) :
    Definite v ∨ v = .noInformation ∧ ParallelWithBoth cfg ∨ Misled lib c1 c2 cfg [] := by
  by_cases hno : Misled lib c1 c2 cfg []
  · exact Or.inr (Or.inr hno)
  rw [or_iff_left hno]
  have hacts := lib.reliable
  obtain ⟨hP, M, hm, _, n, rfl, S', e1, e2, hn1, hn2, hsch, hop, hrun⟩ := h
  have hP' : ∀ p ∈ planned cfg.optimizations true, Faithful lib.passes p := fun p hp => (hP p hp).1
  obtain ⟨w1, w2, _⟩ := construct_preserves hacts r1 r2 hP' hm
  obtain ⟨S, _, _, hS⟩ := partial_setting hP' hm S' w1 w2 hn1 hn2 hsch hop hno (constructed_same_garbage hacts r1 r2 hP hm hg S' hn1 hn2)
  exact partial_definite_of_setting hm S (calmRuns_mono hS hrun) hen

/-- **C82, C74.** With partial equivalence, a manager whose checkers nobody interrupts, with the alternating or the construction checker enabled, decides
partial equivalence of circuits with the same garbage qubits and without declared ancillary qubits (they may have different widths) – if it does not use the
construction checker, whose positive verdicts only concern the basis states, and the circuits do not mislead the alternating checker. -/
theorem manager_partially_decides {c1 c2 : Circ WOp} (r1 : Runnable c1) (r2 : Runnable c2) (hg : SameGarbage c1 c2) (n1 : ∀ q, c1.isAncillary q = false)
    (n2 : ∀ q, c2.isAncillary q = false) {cfg : Configuration} {v : Criterion} (h : CalmPManagerRun lib c1 c2 cfg [] v)
    (hen : Enabled cfg .alternating ∨ Enabled cfg .construction) :
    PartiallyDecided c1 c2 v ∨ (ConstructionUsed lib c1 c2 cfg [] ∧ (v = .notEquivalent ∧ ¬ PartiallyEqual c1 c2 ∨
      (v = .equivalent ∨ v = .equivalentUpToGlobalPhase) ∧ EqualOnBasis c1 c2)) ∨ (v = .equivalent ∧ CrossedShortcut lib c1 c2 cfg) ∨
      (v = .noInformation ∧ ParallelWithBoth cfg) ∨ Misled lib c1 c2 cfg [] := by
  rcases calm_partial_definite r1 r2 hg h hen with hd | hd
  · rcases manager_partial_verdict r1 r2 hg (calm_pmanager_run h) with hv | hv
    · obtain ⟨neg, pos⟩ := partial_verdict_no_ancillas r1 r2 n1 n2 hv
      by_cases hc : ConstructionUsed lib c1 c2 cfg []
      · right; left
        refine ⟨hc, ?_⟩
        rcases hd with e | e | e
        · exact Or.inr ⟨Or.inl e, (pos (Or.inl e)).1⟩
        · exact Or.inr ⟨Or.inr e, (pos (Or.inr e)).1⟩
        · exact Or.inl ⟨e, neg e⟩
      · left
        have pos' := fun e => (pos e).2.resolve_right hc
        refine ⟨⟨neg, fun hn => ?_⟩, ⟨pos', fun hp => ?_⟩⟩
        · rcases hd with e | e | e
          · exact absurd (pos' (Or.inl e)) hn
          · exact absurd (pos' (Or.inr e)) hn
          · exact e
        · rcases hd with e | e | e
          · exact Or.inl e
          · exact Or.inr e
          · exact absurd hp (neg e)
    · rcases hv with hv | hv
      · exact Or.inr (Or.inr (Or.inl hv))
      · exact Or.inr (Or.inr (Or.inr (Or.inr hv)))
  · exact Or.inr (Or.inr (Or.inr hd))

variable {imp : Param.Subject → Option (Circ WOp)} {w : Param.World} {cfg : Configuration} {i₁ i₂ : Param.Input} {res : Param.Res}

/-- **C82, C74.** `verify` with `check_partial_equivalence` decides, under the conditions of `manager_partially_decides`. -/
theorem verify_partially_decides (hw : CalmPRealises lib imp w) (hp : cfg.functionality.checkPartialEquivalence = true) (hs1 : ¬ Spec.Param.Symbolic i₁)
    (hs2 : ¬ Spec.Param.Symbolic i₂) (hen : Enabled cfg .alternating ∨ Enabled cfg .construction)
    {c1 c2 : Circ WOp} (h1 : imp (.given i₁) = some c1) (h2 : imp (.given i₂) = some c2) (r1 : Runnable c1) (r2 : Runnable c2)
    (hg : SameGarbage c1 c2) (n1 : ∀ q, c1.isAncillary q = false) (n2 : ∀ q, c2.isAncillary q = false) (h : Param.verify w cfg i₁ i₂ = .ok res) :
    PartiallyDecided c1 c2 res.equivalence ∨ (ConstructionUsed lib c1 c2 cfg [] ∧ (res.equivalence = .notEquivalent ∧ ¬ PartiallyEqual c1 c2 ∨
      (res.equivalence = .equivalent ∨ res.equivalence = .equivalentUpToGlobalPhase) ∧ EqualOnBasis c1 c2)) ∨
      (res.equivalence = .equivalent ∧ CrossedShortcut lib c1 c2 cfg) ∨ (res.equivalence = .noInformation ∧ ParallelWithBoth cfg) ∨
      Misled lib c1 c2 cfg [] := by
  obtain ⟨a, _, b⟩ := verify_choice (w := w) (cfg := cfg) (i₁ := i₁) (i₂ := i₂)
  have v1 : Spec.Param.Verifiable i₁ := by
    by_contra hn
    rw [b (Or.inl hn)] at h
    exact absurd h (by simp)
  have v2 : Spec.Param.Verifiable i₂ := by
    by_contra hn
    rw [b (Or.inr ⟨hn, hs1⟩)] at h
    exact absurd h (by simp)
  rw [a v1 v2 hs1 hs2] at h
  exact manager_partially_decides r1 r2 hg n1 n2 (hw _ _ _ _ _ _ _ _ hp h1 h2 h) hen

end QCEC.Props
