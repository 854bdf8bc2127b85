import Verif.Spec.VerifyDecides
import Verif.Props.VerifyEndToEnd
import Verif.Props.EndToEndParallel
/-!
# Properties: a `verify()` that nobody interrupts decides equivalence (C61, C81)
-/
namespace QCEC.Props
open QCEC QCEC.DD QCEC.Sem QCEC.Gen QCEC.ZX QCEC.Spec QCEC.Spec.ZX QCEC.Mgr QCEC.Prep QCEC.Par QCEC.Spec.Wide Matrix

variable {m n : Nat}

/-- One of the three definitive verdicts. -/
def Definite (v : Criterion) : Prop := v = .equivalent ∨ v = .equivalentUpToGlobalPhase ∨ v = .notEquivalent

theorem correct_definite {anc : List Bool} {qc1 qc2 : QC n} {ω1 ω2 : Equiv.Perm (Fin n)} {v : Criterion} (h : Correct v anc qc1 ω1 qc2 ω2) :
    Definite v := by
  by_cases hs : Same anc qc1 ω1 qc2 ω2
  · exact Or.inl (h.equivalent.2 hs)
  · by_cases hp : SameUpToPhase anc qc1 ω1 qc2 ω2
    · exact Or.inr (Or.inl (h.phase.2 ⟨hp, hs⟩))
    · exact Or.inr (Or.inr (h.notEquivalent.2 hp))

/-- An uninterrupted alternating or construction checker always has an answer. -/
theorem mixed_definite (S : Mixed m n) {k : Kind} {c : Criterion} (hk : k = .alternating ∨ k = .construction) (h : MAnswerMeans S true k c) : Definite c := by
  rcases hk with rfl | rfl <;> rcases h with h | h
  · exact absurd h.1 (by simp)
  · exact correct_definite h
  · exact absurd h.1 (by simp)
  · exact h.1

theorem conclusive_definite (S : Mixed m n) {e : Event} (hc : Conclusive e) (h : MAnswerMeans S true e.kind e.verdict) : Definite e.verdict := by
  rcases e with ⟨k, v⟩
  cases k
  · exact Or.inr (Or.inr hc)
  · exact mixed_definite S (Or.inl rfl) h
  · exact mixed_definite S (Or.inr rfl) h
  · rcases hc with hc | hc
    · exact Or.inl hc
    · exact Or.inr (Or.inl hc)

theorem definite_conclusive {e : Event} (hk : e.kind = .alternating ∨ e.kind = .construction) (h : Definite e.verdict) : Conclusive e := by
  rcases e with ⟨k, v⟩
  simp only at hk h
  rcases hk with rfl | rfl <;> rcases h with rfl | rfl | rfl <;> simp [Conclusive]

/-- **C61** (sequential, any ancillary qubits): with the alternating or the construction checker enabled and no timeout, a run that returns has a definitive
verdict. -/
theorem mixed_sequential_definite (S : Mixed m n) {env : Env} {fuel : Nat} {s s' : State} (hsafe : Enabled s.cfg .alternating → S.Safe) (hm : mode env s.cfg = .sequential)
    (ht : ¬ s.cfg.execution.timeout > 0) (h : run env fuel s = some (.returned s')) (hen : Enabled s.cfg .alternating ∨ Enabled s.cfg .construction)
    (hans : ∀ e : Event, FromEnv env e → Enabled s.cfg e.kind → MAnswer S true e.kind e.verdict) : Definite s'.results.equivalence := by
  obtain ⟨hx, hp, _⟩ := sequential_verdict_explained hm h
  have hmean : ∀ e ∈ s'.log, MAnswerMeans S true e.kind e.verdict := fun e he =>
    mixed_answer_means S (fun ek => hsafe (ek ▸ (hp e he).2)) (hans e (hp e he).1 (hp e he).2)
  have hcon : ∃ e ∈ s'.log, Conclusive e := by
    by_contra hcon
    have hn : ∀ e ∈ s'.log, ¬ Conclusive e := fun e he hce => hcon ⟨e, he, hce⟩
    have hall := sequential_all_consulted hm ht h hn (fun e he hk => by
      have := hmean e he
      rw [hk] at this
      exact this.2 rfl)
    have hne : ∀ k, (k = .alternating ∨ k = .construction) → Enabled s.cfg k → False := by
      intro k hk hek
      obtain ⟨e, he, hke⟩ := hall k (by rcases hk with rfl | rfl <;> simp) hek (by rcases hk with rfl | rfl <;> simp)
      have hd : Definite e.verdict := mixed_definite S (hke ▸ hk) (hmean e he)
      exact hn e he (definite_conclusive (hke ▸ hk) hd)
    rcases hen with h | h
    · exact hne _ (Or.inl rfl) h
    · exact hne _ (Or.inr rfl) h
  obtain ⟨e, he, hce⟩ := hcon
  rw [hx.1 e he hce]
  exact conclusive_definite S hce (hmean e he)

/-- **C61** (parallel, any ancillary qubits): the same for every schedule, except that a run gives up, with `NoInformation`, as soon as all simulations have
passed and the ZX checker has expressed a doubt. -/
theorem mixed_parallel_definite (S : Mixed m n) {env quiet : ParEnv} {cfg : Configuration} {res : Results} {s : PState}
    (hsafe : Enabled cfg .alternating → S.Safe) (hq : quiet.zxTransformable = env.zxTransformable) (hrun : CalmSteps env quiet (launch env.zxTransformable cfg res) s)
    (hr : s.main = .ended .returned) (ht : s.timedOut = false) (hen : Enabled cfg .alternating ∨ Enabled cfg .construction)
    (hans : ∀ k c, Enabled cfg k → quiet.may k c → MAnswer S true k c) :
    Definite s.results.equivalence ∨ s.results.equivalence = .noInformation ∧ Enabled cfg .simulation ∧ Enabled cfg .zx := by
  have hz := mixed_adjust_zx S hans
  obtain ⟨s1, h1, hd, hl, hres, hc, hto, _⟩ := CalmSteps.quiet (env := adjust cfg env) (quiet := adjust cfg quiet) hq (adjust_calm hrun)
  have hdone : s1.done = true := by rw [hd]; exact returned_done hrun.steps hr
  have hv := reachable_vinv hz.never h1
  have hb := reachable_base h1
  rw [← hres]
  have hen' : ∀ e ∈ s1.log, Enabled cfg e.kind := fun e he => enabled_of_launch (hb.conf ▸ (hv.prov e he).2)
  have hmean : ∀ e ∈ s1.log, MAnswerMeans S true e.kind e.verdict := fun e he =>
    mixed_answer_means S (fun ek => hsafe (ek ▸ hen' e he)) (hans _ _ (hen' e he) ((adjust_may (hen' e he) _).mp (hv.prov e he).1))
  obtain ⟨n1, n2, n3⟩ := not_only (zxOk := (adjust cfg quiet).zxTransformable) hen
  rw [← hb.conf] at n2 n3
  have hnever : ∀ e ∈ s1.log, ¬ GivesUp e := by
    rintro ⟨k, v⟩ he ⟨hk, hv'⟩
    have := hmean _ he
    simp only at hk hv'
    subst hv'
    cases k
    · exact absurd rfl (this.2 rfl)
    · rcases mixed_definite S (Or.inl rfl) this with h | h | h <;> simp at h
    · rcases mixed_definite S (Or.inr rfl) this with h | h | h <;> simp at h
    · exact hk rfl
  by_cases hcon : ∃ e ∈ s1.log, Conclusive e
  · obtain ⟨e, he, hce⟩ := hcon
    left
    rw [hv.explained.1 e he hce]
    exact conclusive_definite S hce (hmean e he)
  · rcases stop_reason_open hz h1 hdone with h | h | h | ⟨e, he, h⟩ | h | h | h
    · rw [hto, ht] at h; simp at h
    · rw [n1] at h; simp at h
    · exact absurd h hcon
    · exact absurd h (hnever e he)
    · rw [n2] at h; simp at h
    · rw [n3] at h; simp at h
    · right
      obtain ⟨⟨e1, he1, k1⟩, ⟨e2, he2, k2⟩, hcount⟩ := h
      refine ⟨?_, k2.1 ▸ hen' e2 he2, k1.1 ▸ hen' e1 he1⟩
      rw [hv.explained.2.2 fun e he => ⟨fun hce => hcon ⟨e, he, hce⟩, hnever e he⟩]
      unfold parEvidence
      rw [if_pos ⟨e1, he1, k1⟩, if_pos ⟨⟨e2, he2, k2⟩, hcount⟩]

/-! ## A manager -/

theorem manswer_any (S : Mixed m n) {k : Kind} {c : Criterion} (h : MAnswer S true k c) : MAnswer S false k c := by
  induction h with
  | alternating stop hm hq fuel hf handled c s h => exact .alternating stop hm (by simp) fuel hf handled c s h
  | construction stop hm hq fuel hf c s h => exact .construction stop hm (by simp) fuel hf c s h
  | simulation c h =>
    obtain ⟨R, g, g', st, x, stop, fuel, s, a, b, d, _, e, f⟩ := h
    exact .simulation c ⟨R, g, g', st, x, stop, fuel, s, a, b, d, by simp, e, f⟩
  | simulationAgain prev c _ h ih =>
    obtain ⟨R, g, g', st, x, stop, fuel, s, a, b, d, _, e, f⟩ := h
    exact .simulationAgain prev c ih ⟨R, g, g', st, x, stop, fuel, s, a, b, d, by simp, e, f⟩
  | zx hr1 hr2 hc1 hc2 outs1 outs2 ho1 ho2 M g θ hR hg done hq c h =>
    exact .zx hr1 hr2 hc1 hc2 outs1 outs2 ho1 ho2 M g θ hR hg done (by simp) c h

/-- Runs that nobody interrupts are runs. -/
theorem calm_manager_run {c1 c2 : Circ WOp} {cfg : Configuration} {setters : List Param.Setter} {v : Criterion}
    (h : CalmManagerRun lib c1 c2 cfg setters v) : ManagerRun lib c1 c2 cfg setters v := by
  have hacts := lib.reliable
  obtain ⟨hP, M, hm, m, n, hd, S, e1, e2, hn1, hn2, hsch, hop, hrun⟩ := h
  refine ⟨hP, M, hm, m, n, hd, S, e1, e2, hn1, hn2, hsch, hop, ?_⟩
  cases hrun with
  | nothing env fuel s' hmode h => exact .nothing env fuel s' hmode h
  | empty env fuel s' he hmode h => exact .empty env fuel s' he hmode h
  | sequential env fuel s' hmode ht h hans => exact .sequential env fuel s' hmode h fun e a b => manswer_any S (hans e a b)
  | parallel env quiet s hp hq hrun hr ht hans hquiet => exact .parallel env s hrun.steps hr hans

/-- The verdict is definitive, up to the shortcut for empty circuits. -/
theorem definite_of_safe {lib : Library} {c1 c2 : Circ WOp} {cfg : Configuration} {v : Criterion} {M : Made WOp} (hm : Prep.construct lib.acts lib.passes cfg c1 c2 = .made M) {m n : Nat}
    (S : Mixed m n) (hsafe : Enabled M.cfg .alternating → S.Safe) (hrun : CalmRuns (MAnswer S) (afterSetters M.cfg []) (M.qc1.ops = [] ∧ M.qc2.ops = []) v)
    (hen : Enabled cfg .alternating ∨ Enabled cfg .construction) : Definite v ∨ v = .noInformation ∧ ParallelWithBoth cfg := by
  have hc : Enabled M.cfg .alternating ∨ Enabled M.cfg .construction := by
    have := fallback_keeps_functionality_check hm
    have e : (cfg.execution.runAlternatingChecker || cfg.execution.runConstructionChecker) = true := by
      rcases hen with h | h
      · rw [show cfg.execution.runAlternatingChecker = true from h]; rfl
      · rw [show cfg.execution.runConstructionChecker = true from h, Bool.or_true]
    rw [e, Bool.or_eq_true] at this
    exact this
  have hany : M.cfg.anythingToExecute = true := by
    unfold Configuration.anythingToExecute
    rcases hc with h | h
    · rw [show M.cfg.execution.runAlternatingChecker = true from h]; simp
    · rw [show M.cfg.execution.runConstructionChecker = true from h]; simp
  change CalmRuns (MAnswer S) M.cfg _ _ at hrun
  cases hrun with
  | nothing env fuel s' hmode h =>
    unfold mode at hmode
    rw [hany] at hmode
    simp only [Bool.not_true, Bool.false_eq_true, if_false] at hmode
    split at hmode
    · exact absurd hmode (by simp)
    · split at hmode
      · split at hmode <;> exact absurd hmode (by simp)
      · exact absurd hmode (by simp)
  | empty env fuel s' he hmode h =>
    have hb : (State.fresh M.cfg).begin.cfg = M.cfg := rfl
    unfold Mgr.run at h
    simp only [hb, hmode, Option.some.injEq, Ending.returned.injEq] at h
    subst h
    exact Or.inl (Or.inl rfl)
  | sequential env fuel s' hmode ht h hans => exact Or.inl (mixed_sequential_definite S (s := State.fresh M.cfg) hsafe hmode ht h hc hans)
  | parallel env quiet s hp hq hrun hr ht hans hquiet =>
    rcases mixed_parallel_definite S hsafe hq hrun hr ht hc hquiet with h | ⟨h, hs, hz⟩
    · exact Or.inl h
    · right
      obtain ⟨k, _, hk⟩ := construct_fallback hm
      rw [hk] at hp hs hz
      exact ⟨h, hp, hs, hz⟩

/-- The same for circuits that do not mislead the alternating checker. -/
theorem calm_definite {c1 c2 : Circ WOp} (r1 : Runnable c1) (r2 : Runnable c2) {cfg : Configuration} {v : Criterion} (h : CalmManagerRun lib c1 c2 cfg [] v)
    (hmis : ¬ Misled lib c1 c2 cfg [])
    (hen : Enabled cfg .alternating ∨ Enabled cfg .construction) : Definite v ∨ v = .noInformation ∧ ParallelWithBoth cfg := by
  have hacts := lib.reliable
  obtain ⟨hP, M, hm, m, n, hd, S, e1, e2, hn1, hn2, hsch, hop, hrun⟩ := h
  have hsafe : Enabled M.cfg .alternating → S.Safe := by
    obtain ⟨w1, w2, _, _⟩ := construct_preserves hacts r1 r2 hP hm
    exact safe_of_not_misled hP hm S w1 w2 hn1 hn2 hsch hop hmis
  exact definite_of_safe hm S hsafe hrun hen

/-- **C81.** A manager whose checkers nobody interrupts, with the alternating or the construction checker enabled, decides the equivalence of circuits whose
ancillary qubits are the same ones, and the last ones. -/
theorem manager_decides {c1 c2 : Circ WOp} (r1 : Runnable c1) (r2 : Runnable c2) (ha : SameAncillas c1 c2) (hl : AncillasLast c1)
    {cfg : Configuration} {v : Criterion} (h : CalmManagerRun lib c1 c2 cfg [] v) (hen : Enabled cfg .alternating ∨ Enabled cfg .construction) :
    Decided c1 c2 v ∨ (v = .equivalent ∧ CrossedShortcut lib c1 c2 cfg) ∨ (v = .noInformation ∧ ParallelWithBoth cfg) ∨ Misled lib c1 c2 cfg [] := by
  by_cases hmis : Misled lib c1 c2 cfg []
  · exact Or.inr (Or.inr (Or.inr hmis))
  rcases calm_definite r1 r2 h hmis hen with hd | hd
  · rcases manager_verdict_true r1 r2 (calm_manager_run h) with hv | hv
    · left
      have ht := verdict_same_ancillas r1 r2 ha hl hv
      have up : Equal c1 c2 → EqualUpToPhase c1 c2 := fun h => ⟨1, by simp, h⟩
      rcases hd with e | e | e <;> subst e
      · have := ht.equivalent rfl
        exact ⟨⟨fun _ => this, fun _ => rfl⟩, ⟨fun h => absurd h (by simp), fun h => absurd this h.2⟩,
          ⟨fun h => absurd h (by simp), fun h => absurd (up this) h⟩⟩
      · have := ht.phase rfl
        exact ⟨⟨fun h => absurd h (by simp), fun h => absurd h this.2⟩, ⟨fun _ => this, fun _ => rfl⟩,
          ⟨fun h => absurd h (by simp), fun h => absurd this.1 h⟩⟩
      · have := ht.notEquivalent rfl
        exact ⟨⟨fun h => absurd h (by simp), fun h => absurd (up h) this⟩, ⟨fun h => absurd h (by simp), fun h => absurd h.1 this⟩,
          ⟨fun _ => this, fun _ => rfl⟩⟩
    · rcases hv with hv | hv
      · exact Or.inr (Or.inl hv)
      · exact absurd hv hmis
  · exact Or.inr (Or.inr (Or.inl hd))

variable {imp : Param.Subject → Option (Circ WOp)} {w : Param.World} {cfg : Configuration} {i₁ i₂ : Param.Input} {res : Param.Res}

/-- **C81.** `verify` decides: with the alternating or the construction checker enabled and nobody interrupting the checkers, the verdict on circuits without
symbolic parameters is the right one of the three. -/
theorem verify_decides (hw : CalmRealises lib imp w) (hp : cfg.functionality.checkPartialEquivalence = false) (hs1 : ¬ Spec.Param.Symbolic i₁)
    (hs2 : ¬ Spec.Param.Symbolic i₂) (hen : Enabled cfg .alternating ∨ Enabled cfg .construction)
    {c1 c2 : Circ WOp} (h1 : imp (.given i₁) = some c1) (h2 : imp (.given i₂) = some c2) (r1 : Runnable c1) (r2 : Runnable c2)
    (ha : SameAncillas c1 c2) (hl : AncillasLast c1) (h : Param.verify w cfg i₁ i₂ = .ok res) :
    Decided c1 c2 res.equivalence ∨ (res.equivalence = .equivalent ∧ CrossedShortcut lib c1 c2 cfg) ∨
      (res.equivalence = .noInformation ∧ ParallelWithBoth cfg) ∨ Misled lib c1 c2 cfg [] := by
  obtain ⟨a, _, b⟩ := verify_choice (w := w) (cfg := cfg) (i₁ := i₁) (i₂ := i₂)
  have v1 : Spec.Param.Verifiable i₁ := by
    by_contra hn
    rw [b (Or.inl hn)] at h
    exact absurd h (by simp)
  have v2 : Spec.Param.Verifiable i₂ := by
    by_contra hn
    rw [b (Or.inr ⟨hn, hs1⟩)] at h
    exact absurd h (by simp)
  rw [a v1 v2 hs1 hs2] at h
  exact manager_decides r1 r2 ha hl (hw _ _ _ _ _ _ _ _ hp h1 h2 h) hen

end QCEC.Props
