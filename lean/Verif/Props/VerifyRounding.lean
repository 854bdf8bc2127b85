import Verif.Spec.VerifyRounding
import Verif.Lemmas.WideRounding
import Verif.Lemmas.MisledRounding
import Verif.Props.EndToEndRounding
import Verif.Props.VerifyDecides
/-!
# Properties: what the verdict of `verify()` says about the user's circuits although the package rounds (C87)
-/
namespace QCEC.Props
open QCEC QCEC.Mgr QCEC.Prep QCEC.Par QCEC.Spec QCEC.Spec.Wide QCEC.Spec.ZX QCEC.Wide QCEC.Sem QCEC.Spec.Param

variable {m n : Nat}

theorem wide_within_mono {F : Nat → Prop} {e e' : ℝ} {k : ℂ} {c1 c2 : Circ WOp} (h : e ≤ e') (hw : Within F e k c1 c2) : Within F e' k c1 c2 := by
  intro v hz z
  exact le_trans (hw v hz z) (mul_le_mul_of_nonneg_right h (size_nonneg _ _ _))

/-- What the counted versions of the prepared circuits do, in terms of the given circuits. -/
theorem inexact_constructed {acts : WOp → Nat → Bool} (hacts : Reliable acts) {P : Passes (Circ WOp)} {cfg : Configuration}
    {c1 c2 : Circ WOp} (h1 : Runnable c1) (h2 : Runnable c2) (hP : ∀ p ∈ planned cfg.optimizations true, Faithful P p) {M : Made WOp}
    (h : Prep.construct acts P cfg c1 c2 = .made M) (S : Inexact m n) {e1 e2 : Nat → Fin n} (hn1 : Numbered e1 M.qc1 S.qc1)
    (hn2 : Numbered e2 M.qc2 S.qc2) :
    ∀ k b, (b = true → ∀ q, q < n → M.qc1.isAncillary q = decide (m ≤ q)) →
      (∀ d, 0 ≤ d → OutputsWithinOn (S.someAnc b) d k S.qc1 S.ω1 S.qc2 S.ω2 → Within (Fixed c1 c2) d k c1 c2) ∧
      (SameUpTo k (S.bothAnc b) S.qc1 S.ω1 S.qc2 S.ω2 ↔ EqualOn (FixedInBoth c1 c2) k c1 c2) := by
  obtain ⟨w1, w2, _, ke⟩ := construct_preserves hacts h1 h2 hP h
  have kc := construct_preserves_common hacts h1 h2 hP h
  intro k b hb
  rw [S.wf1.labels, S.wf2.labels]
  refine ⟨fun d hd hw => within_constructed hacts h1 h2 hP h stable_fixed hd
      (within_numbered w1 w2 hn1 hn2 (S.someAnc b) (F := Fixed M.qc1 M.qc2) ?_ hw),
    (sameOn_numbered w1 w2 hn1 hn2 (S.bothAnc b) (F := FixedInBoth M.qc1 M.qc2) ?_ k).trans (kc k)⟩
  · intro q hq
    have e := marks_get n (fun q => S.qc1.ancillary.getD q false || S.qc2.ancillary.getD q false || (b && decide (m ≤ q))) ⟨q, hq⟩
    simp only at e
    unfold Fixed
    rw [Inexact.someAnc, e, hn1.ancillary q hq, hn2.ancillary q hq, hn1.width, hn2.width]
    cases b with
    | false => simp; omega
    | true => rw [← hb rfl q hq]; cases M.qc1.isAncillary q <;> simp <;> omega
  · intro q hq
    have e := marks_get n (fun q => S.qc1.ancillary.getD q false && S.qc2.ancillary.getD q false && (!b || decide (m ≤ q))) ⟨q, hq⟩
    simp only at e
    unfold FixedInBoth
    rw [Inexact.bothAnc, e, hn1.ancillary q hq, hn2.ancillary q hq, hn1.width, hn2.width]
    cases b with
    | false => simp; omega
    | true => rw [← hb rfl q hq]; cases M.qc1.isAncillary q <;> simp <;> omega

theorem within_of_equal {F : Nat → Prop} {e : ℝ} (he : 0 ≤ e) {k : ℂ} {c1 c2 : Circ WOp} (h : EqualOn F k c1 c2) : Within F e k c1 c2 := by
  intro v hz z
  have : size (max c1.nqubits c2.nqubits) (fun x => Wide.output c1 v x - k * Wide.output c2 v x) z = 0 := by
    unfold size
    simp [h v hz]
  rw [this]
  exact mul_nonneg he (size_nonneg _ _ _)

/-- **C87.** What the verdict of a manager that is constructed for two circuits and run says about them, in all flows and schedules and whenever a
timeout fires – unless it is the `Equivalent` of the shortcut for circuits of which no operation is left, or the circuits can lead the alternating checker
astray. -/
theorem manager_verdict_rounded {c1 c2 : Circ WOp} (h1 : Runnable c1) (h2 : Runnable c2) {cfg : Configuration} {setters : List Param.Setter} {d : ℝ}
    {small : Prop} {v : Criterion} (h : RManagerRun lib c1 c2 cfg setters d small v) :
    RVerdict lib c1 c2 cfg setters d small v ∨ (v = .equivalent ∧ CrossedShortcut lib c1 c2 cfg) ∨ NearlyMisled lib c1 c2 cfg setters d := by
  have hacts := lib.reliable
  by_cases hmis : NearlyMisled lib c1 c2 cfg setters d
  · exact Or.inr (Or.inr hmis)
  rw [← or_assoc]
  left
  obtain ⟨hP, M, hm, _, n, rfl, S, e1, e2, hn1, hn2, hdr, hbu, hsch, hop, hrun⟩ := h
  have hsafe : Enabled (afterSetters M.cfg setters) .alternating → S.Safe := by
    obtain ⟨w1, w2, _⟩ := construct_preserves hacts h1 h2 hP hm
    exact safe_of_not_nearly_misled hP hm S w1 w2 hn1 hn2 hsch hop hdr hmis
  have quiet : RVerdict lib c1 c2 cfg setters d small .noInformation := ⟨by simp, by simp, by simp, by simp, by simp⟩
  have hd0 := drift_nonneg S
  have key := inexact_constructed hacts h1 h2 hP hm S hn1 hn2
  have counted := (construct_last h1 h2 hP hm).1
  have carry : ∀ v, RMeaning S (afterSetters M.cfg setters) v → RVerdict lib c1 c2 cfg setters d small v := by
    intro v hv
    have last : ∀ k : Kind, Enabled (afterSetters M.cfg setters) k → ¬ Displaced lib c1 c2 cfg setters k →
        ∀ q, q < n → M.qc1.isAncillary q = decide (M.qc1.ndata ≤ q) := by
      intro k hk hd q hq
      have hl : AncillasLast M.qc1 := by
        by_contra hl
        exact hd ⟨M, hP, hm, hk, hl⟩
      exact last_flags counted hl (by rwa [hn1.width])
    have used : Enabled (afterSetters M.cfg setters) .construction → ConstructionRuns lib c1 c2 cfg setters :=
      fun hc => ⟨M, hP, hm, hc⟩
    have eight : 8 * S.drift ≤ 8 * d := by linarith
    -- the flag `simulation or ZX`
    have both : ¬ Displaced lib c1 c2 cfg setters .simulation → ¬ Displaced lib c1 c2 cfg setters .zx →
        ((afterSetters M.cfg setters).execution.runSimulationChecker || (afterSetters M.cfg setters).execution.runZXChecker) = true →
        ∀ q, q < n → M.qc1.isAncillary q = decide (M.qc1.ndata ≤ q) := by
      intro ds dz hb
      rcases Bool.or_eq_true_iff.1 hb with hb | hb
      · exact last .simulation hb ds
      · exact last .zx hb dz
    refine ⟨fun e hd => ?_, fun e hd => ?_, fun e hs => ?_, fun e hs => ?_, hv.never⟩
    · by_cases hx : Displaced lib c1 c2 cfg setters .zx
      · exact Or.inr hx
      · obtain ⟨k, hk, hw⟩ := hv.positive e (by linarith)
        exact Or.inl ⟨k, by linarith, wide_within_mono eight ((key k _ (fun hb => last .zx hb hx)).1 _ (by linarith) hw)⟩
    · by_cases hx : Displaced lib c1 c2 cfg setters .zx
      · exact Or.inr (Or.inr hx)
      · by_cases hc : Enabled (afterSetters M.cfg setters) .construction
        · exact Or.inr (Or.inl (used hc))
        · exact Or.inl (wide_within_mono eight ((key 1 _ (fun hb => last .zx hb hx)).1 _ (by linarith) (hv.equivalent e hc (by linarith))))
    · by_cases hx : Displaced lib c1 c2 cfg setters .zx
      · exact Or.inr (Or.inr (Or.inr hx))
      · by_cases hx' : Displaced lib c1 c2 cfg setters .simulation
        · exact Or.inr (Or.inr (Or.inl hx'))
        · by_cases hc : Enabled (afterSetters M.cfg setters) .construction
          · exact Or.inr (Or.inl (used hc))
          · exact Or.inl fun h => hv.phase e hc (hbu hs) ((key 1 _ (both hx' hx)).2.2 h)
    · by_cases hx : Displaced lib c1 c2 cfg setters .zx
      · exact Or.inr (Or.inr (Or.inr hx))
      · by_cases hx' : Displaced lib c1 c2 cfg setters .simulation
        · exact Or.inr (Or.inr (Or.inl hx'))
        · by_cases hc : Enabled (afterSetters M.cfg setters) .construction
          · exact Or.inr (Or.inl (used hc))
          · left
            rintro ⟨k, hk, h⟩
            exact hv.notEquivalent e hc (hbu hs) ⟨k, hk, (key k _ (both hx' hx)).2.2 h⟩
  cases hrun with
  | nothing env fuel s' hmode h =>
    left
    have hb : (State.fresh (afterSetters M.cfg setters)).begin.cfg = afterSetters M.cfg setters := rfl
    unfold Mgr.run at h
    simp only [hb, hmode, Option.some.injEq, Ending.returned.injEq] at h
    subst h
    exact quiet
  | empty env fuel s' he hmode h =>
    have hb : (State.fresh (afterSetters M.cfg setters)).begin.cfg = afterSetters M.cfg setters := rfl
    unfold Mgr.run at h
    simp only [hb, hmode, Option.some.injEq, Ending.returned.injEq] at h
    subst h
    by_cases hw : ∃ q, wire M.qc1 q ≠ wire M.qc2 q
    · exact Or.inr ⟨rfl, M, hP, hm, he.1, he.2, hw⟩
    · left
      have hq : ∀ q, wire M.qc1 q = wire M.qc2 q := fun q => by_contra fun h => hw ⟨q, h⟩
      have heq := ((construct_preserves hacts h1 h2 hP hm).2.2.2 1).1 (equal_no_ops he.1 he.2 hq)
      have hw8 : Within (Fixed c1 c2) (8 * d) 1 c1 c2 := within_of_equal (by linarith) heq
      exact ⟨fun _ _ => Or.inl ⟨1, by rw [norm_one, sub_self, abs_zero]; linarith, hw8⟩, fun _ _ => Or.inl hw8, by simp [State.setEq],
        by simp [State.setEq], by simp [State.setEq]⟩
  | sequential env fuel s' hmode h hans => exact Or.inl (carry _ (rounded_sequential_verdict S (s := State.fresh _) hsafe hmode h hans))
  | parallel env s hreach hr hans => exact Or.inl (carry _ (rounded_parallel_verdict S hsafe hreach hr hans))
  | timed env fuel grow D cap p t s' hmode hf h he hans =>
    obtain ⟨fired, hm', _, h2⟩ := timed_run hf h he
    exact Or.inl (carry s'.report.results.equivalence (rounded_sequential_verdict S (env := Tmo.withFired env fired hm') (s := State.fresh _) hsafe hmode h2 hans))
  | composed env D c h hr hans => exact Or.inl (carry _ (rounded_parallel_verdict S hsafe (composed_refines h) hr hans))
  | delayed env s h hr hans =>
    obtain ⟨t, ht, hm', hres⟩ := (delayed_same_outcomes env _ _ _ _).1 ⟨s, h, hr, rfl⟩
    rw [← hres]
    exact Or.inl (carry _ (rounded_parallel_verdict S hsafe ht hm' hans))

variable {imp : Param.Subject → Option (Circ WOp)} {w : Param.World} {cfg : Configuration} {i₁ i₂ : Param.Input} {res : Param.Res}

/-- A call of `verify` on circuits without symbolic parameters that returns has run one manager, with the given configuration. -/
theorem verify_is_manager {P : Circ WOp → Circ WOp → Configuration → List Param.Setter → Criterion → Prop}
    (hw : ∀ k cfg setters s1 s2 res c1 c2, cfg.functionality.checkPartialEquivalence = false → imp s1 = some c1 → imp s2 = some c2 →
      w.manager k cfg setters s1 s2 = .ok res → P c1 c2 cfg setters res.equivalence)
    (hp : cfg.functionality.checkPartialEquivalence = false) (hs1 : ¬ Symbolic i₁) (hs2 : ¬ Symbolic i₂)
    {c1 c2 : Circ WOp} (h1 : imp (.given i₁) = some c1) (h2 : imp (.given i₂) = some c2)
    (h : Param.verify w cfg i₁ i₂ = .ok res) : P c1 c2 cfg [] res.equivalence := by
  obtain ⟨a, _, b⟩ := verify_choice (w := w) (cfg := cfg) (i₁ := i₁) (i₂ := i₂)
  have v1 : Verifiable i₁ := by
    by_contra hn
    rw [b (Or.inl hn)] at h
    exact absurd h (by simp)
  have v2 : Verifiable i₂ := by
    by_contra hn
    rw [b (Or.inr ⟨hn, hs1⟩)] at h
    exact absurd h (by simp)
  rw [a v1 v2 hs1 hs2] at h
  exact hw _ _ _ _ _ _ _ _ hp h1 h2 h

/-- **C87.** What the verdict of `verify` says about the circuits the user passed. -/
theorem verify_verdict_rounded {d : ℝ} {small : Prop} (hw : RRealises lib imp w d small) (hp : cfg.functionality.checkPartialEquivalence = false)
    (hs1 : ¬ Symbolic i₁) (hs2 : ¬ Symbolic i₂) {c1 c2 : Circ WOp} (h1 : imp (.given i₁) = some c1) (h2 : imp (.given i₂) = some c2)
    (r1 : Runnable c1) (r2 : Runnable c2) (h : Param.verify w cfg i₁ i₂ = .ok res) :
    RVerdict lib c1 c2 cfg [] d small res.equivalence ∨ (res.equivalence = .equivalent ∧ CrossedShortcut lib c1 c2 cfg) ∨
      NearlyMisled lib c1 c2 cfg [] d :=
  manager_verdict_rounded r1 r2 (verify_is_manager (P := fun c1 c2 cfg setters v => RManagerRun lib c1 c2 cfg setters d small v) hw hp hs1 hs2 h1 h2 h)

/-! ## A run that nobody interrupts -/

theorem ranswer_any (S : Inexact m n) {k : Kind} {c : Criterion} (h : RAnswer S true k c) : RAnswer S false k c := by
  induction h with
  | alternating stop hm hq fuel hf handled c s h => exact .alternating stop hm (by simp) fuel hf handled c s h
  | construction stop hm hq fuel hf c s h => exact .construction stop hm (by simp) fuel hf c s h
  | simulation c h =>
    obtain ⟨R, g, g', st, x, dd, stop, fuel, s, a, b, d, e0, _, e, f⟩ := h
    exact .simulation c ⟨R, g, g', st, x, dd, stop, fuel, s, a, b, d, e0, by simp, e, f⟩
  | simulationAgain prev c _ h ih =>
    obtain ⟨R, g, g', st, x, dd, stop, fuel, s, a, b, d, e0, _, e, f⟩ := h
    exact .simulationAgain prev c ih ⟨R, g, g', st, x, dd, stop, fuel, s, a, b, d, e0, by simp, e, f⟩
  | zx hr1 hr2 hc1 hc2 outs1 outs2 ho1 ho2 M g θ hR hg done hq c h =>
    exact .zx hr1 hr2 hc1 hc2 outs1 outs2 ho1 ho2 M g θ hR hg done (by simp) c h

theorem rcalm_manager_run {c1 c2 : Circ WOp} {cfg : Configuration} {setters : List Param.Setter} {d : ℝ} {small : Prop} {v : Criterion}
    (h : RCalmManagerRun lib c1 c2 cfg setters d small v) : RManagerRun lib c1 c2 cfg setters d small v := by
  have hacts := lib.reliable
  obtain ⟨hP, M, hm, m, n, hd, S, e1, e2, hn1, hn2, hdr, hbu, hsch, hop, hrun⟩ := h
  refine ⟨hP, M, hm, m, n, hd, S, e1, e2, hn1, hn2, hdr, hbu, hsch, hop, ?_⟩
  cases hrun with
  | nothing env fuel s' hmode h => exact .nothing env fuel s' hmode h
  | empty env fuel s' he hmode h => exact .empty env fuel s' he hmode h
  | sequential env fuel s' hmode ht h hans => exact .sequential env fuel s' hmode h fun e a b => ranswer_any S (hans e a b)
  | parallel env quiet s hp hq hrun hr ht hans hquiet => exact .parallel env s hrun.steps hr hans

theorem rounded_sequential_definite (S : Inexact m n) {env : Env} {fuel : Nat} {s s' : State} (hsafe : Enabled s.cfg .alternating → S.Safe) (hm : mode env s.cfg = .sequential)
    (ht : ¬ s.cfg.execution.timeout > 0) (h : run env fuel s = some (.returned s')) (hen : Enabled s.cfg .alternating ∨ Enabled s.cfg .construction)
    (hans : ∀ e : Event, FromEnv env e → Enabled s.cfg e.kind → RAnswer S true e.kind e.verdict) : Definite s'.results.equivalence := by
  obtain ⟨hx, hp, _⟩ := sequential_verdict_explained hm h
  have hmean : ∀ e ∈ s'.log, RAnswerMeans S true e.kind e.verdict := fun e he => 
    rounded_answer_means S (fun hk => hsafe (hk ▸ (hp e he).2)) (hans e (hp e he).1 (hp e he).2)
  have hcon : ∃ e ∈ s'.log, Conclusive e := by
    by_contra hcon
    have hn : ∀ e ∈ s'.log, ¬ Conclusive e := fun e he hce => hcon ⟨e, he, hce⟩
    have hall := sequential_all_consulted hm ht h hn (fun e he hk => by
      have := hmean e he
      rw [hk] at this
      exact this.2 rfl)
    have hne : ∀ k, (k = .alternating ∨ k = .construction) → Enabled s.cfg k → False := by
      intro k hk hek
      obtain ⟨e, he, hke⟩ := hall k (by rcases hk with rfl | rfl <;> simp) hek (by rcases hk with rfl | rfl <;> simp)
      exact hn e he (rounded_decisive S (hke ▸ hk) (hmean e he))
    rcases hen with h | h
    · exact hne _ (Or.inl rfl) h
    · exact hne _ (Or.inr rfl) h
  obtain ⟨e, he, hce⟩ := hcon
  rw [hx.1 e he hce]
  exact rounded_conclusive_three S hce (hmean e he)

/-- The verdict is definitive. -/
theorem rcalm_definite {c1 c2 : Circ WOp} (r1 : Runnable c1) (r2 : Runnable c2) {cfg : Configuration} {d : ℝ} {small : Prop} {v : Criterion} (h : RCalmManagerRun lib c1 c2 cfg [] d small v)
    (hen : Enabled cfg .alternating ∨ Enabled cfg .construction) : Definite v ∨ (v = .noInformation ∧ ParallelWithBoth cfg) ∨
      NearlyMisled lib c1 c2 cfg [] d := by
  have hacts := lib.reliable
  by_cases hmis : NearlyMisled lib c1 c2 cfg [] d
  · exact Or.inr (Or.inr hmis)
  rw [← or_assoc]
  left
  obtain ⟨hP, M, hm, m, n, hd, S, e1, e2, hn1, hn2, hdr, _, hsch, hop, hrun⟩ := h
  have hsafe : Enabled M.cfg .alternating → S.Safe := by
    obtain ⟨w1, w2, _⟩ := construct_preserves hacts r1 r2 hP hm
    exact safe_of_not_nearly_misled (setters := []) hP hm S w1 w2 hn1 hn2 hsch hop hdr hmis
  have hc : Enabled M.cfg .alternating ∨ Enabled M.cfg .construction := by
    have := fallback_keeps_functionality_check hm
    have e : (cfg.execution.runAlternatingChecker || cfg.execution.runConstructionChecker) = true := by
      rcases hen with h | h
      · rw [show cfg.execution.runAlternatingChecker = true from h]; rfl
      · rw [show cfg.execution.runConstructionChecker = true from h, Bool.or_true]
    rw [e, Bool.or_eq_true] at this
    exact this
  have hany : M.cfg.anythingToExecute = true := by
    unfold Configuration.anythingToExecute
    rcases hc with h | h
    · rw [show M.cfg.execution.runAlternatingChecker = true from h]; simp
    · rw [show M.cfg.execution.runConstructionChecker = true from h]; simp
  change CalmRuns (RAnswer S) M.cfg _ _ at hrun
  cases hrun with
  | nothing env fuel s' hmode h =>
    unfold mode at hmode
    rw [hany] at hmode
    simp only [Bool.not_true, Bool.false_eq_true, if_false] at hmode
    split at hmode
    · exact absurd hmode (by simp)
    · split at hmode
      · split at hmode <;> exact absurd hmode (by simp)
      · exact absurd hmode (by simp)
  | empty env fuel s' he hmode h =>
    have hb : (State.fresh M.cfg).begin.cfg = M.cfg := rfl
    unfold Mgr.run at h
    simp only [hb, hmode, Option.some.injEq, Ending.returned.injEq] at h
    subst h
    exact Or.inl (Or.inl rfl)
  | sequential env fuel s' hmode ht h hans => exact Or.inl (rounded_sequential_definite S (s := State.fresh M.cfg) hsafe hmode ht h hc hans)
  | parallel env quiet s hp hq hrun hr ht hans hquiet =>
    rcases rounded_parallel_decides S hsafe hq hrun hr ht hc hquiet with h | ⟨h, ⟨e1, he1, k1⟩, ⟨e2, he2, k2⟩, _⟩
    · exact Or.inl h.2
    · right
      have hz := rounded_adjust_zx S (env := env) hans
      have hen' := (parallel_verdict_explained hz (adjust_reachable hrun.steps) hr).2.1
      have a1 := (hen' e1 he1).2
      have a2 := (hen' e2 he2).2
      rw [k1.1] at a1
      rw [k2.1] at a2
      obtain ⟨k, _, hk⟩ := construct_fallback hm
      rw [hk] at hp a1 a2
      exact ⟨h, hp, a2, a1⟩

/-- The construction checker is not used if it is not requested, the circuits have the same width and no qubit is ancillary in both. -/
theorem construction_not_used {c1 c2 : Circ WOp} (r1 : Runnable c1) (r2 : Runnable c2) (hn : c1.nqubits = c2.nqubits)
    (ha : ∀ q, q < c1.nqubits → c1.isAncillary q = true → c2.isAncillary q = false) {cfg : Configuration}
    (hc : ¬ Enabled cfg .construction) : ¬ ConstructionRuns lib c1 c2 cfg [] := by
  rintro ⟨M, hP, hm, hen⟩
  have hacts := lib.reliable
  obtain ⟨w1, w2, _⟩ := construct_preserves hacts r1 r2 hP hm
  obtain ⟨f, hf⟩ := construct_fixed hacts r1 r2 hP hm
  have hh : canHandle lib.acts M.qc1 M.qc2 = true := by
    refine (canHandle_iff w1.inj w2.inj).2 fun q hq a1 a2 => ?_
    exfalso
    obtain ⟨_, h2, h3⟩ := hf q
    have := h3 hq
    rcases h2.1 (Or.inr (Or.inr ⟨a1, a2⟩)) with h | h | ⟨h, h'⟩
    · omega
    · omega
    · rw [ha _ (by omega) h] at h'
      exact absurd h' (by simp)
  obtain ⟨k, _, hk⟩ := construct_fallback hm
  have : (cfg.execution.runConstructionChecker || (cfg.execution.runAlternatingChecker && !canHandle lib.acts M.qc1 M.qc2)) = true := by
    have hen' : M.cfg.execution.runConstructionChecker = true := hen
    rwa [hk] at hen'
  rw [hh] at this
  simp only [Bool.not_true, Bool.and_false, Bool.or_false] at this
  exact hc this

/-- **C87.** `verify` tells circuits apart: with the alternating checker enabled, nobody interrupting the checkers and small errors, circuits that do
the same are reported `Equivalent`, circuits that do the same up to a global phase are not refuted, and circuits whose outputs differ on some input by more
than eight times the drift, whatever factor is removed, are reported `NotEquivalent`.  The construction checker has to be switched off and not to replace
the alternating checker; the circuits must not lead the alternating checker astray. -/
theorem verify_rounded_decides {d : ℝ} (hd : d ≤ 1 / 10) (hw : RCalmRealises lib imp w d True)
    (hp : cfg.functionality.checkPartialEquivalence = false) (hs1 : ¬ Symbolic i₁) (hs2 : ¬ Symbolic i₂) (hen : Enabled cfg .alternating)
    {c1 c2 : Circ WOp} (h1 : imp (.given i₁) = some c1) (h2 : imp (.given i₂) = some c2) (r1 : Runnable c1) (r2 : Runnable c2)
    (ha : SameAncillas c1 c2) (hl : AncillasLast c1) (hno : ¬ ConstructionRuns lib c1 c2 cfg []) (h : Param.verify w cfg i₁ i₂ = .ok res) :
    (Definite res.equivalence ∧ (Equal c1 c2 → res.equivalence = .equivalent) ∧ (EqualUpToPhase c1 c2 → res.equivalence ≠ .notEquivalent) ∧
      ((∀ k, ¬ Within (Fixed c1 c2) (8 * d) k c1 c2) → res.equivalence = .notEquivalent)) ∨
    (res.equivalence = .equivalent ∧ CrossedShortcut lib c1 c2 cfg) ∨ (res.equivalence = .noInformation ∧ ParallelWithBoth cfg) ∨
    NearlyMisled lib c1 c2 cfg [] d := by
  have hrun := verify_is_manager (P := fun c1 c2 cfg setters v => RCalmManagerRun lib c1 c2 cfg setters d True v) hw hp hs1 hs2 h1 h2 h
  rcases rcalm_definite r1 r2 hrun (Or.inl hen) with hdef | hdef
  · rcases manager_verdict_rounded r1 r2 (rcalm_manager_run hrun) with hv | hv | hv
    · left
      have nd : ∀ k, ¬ Displaced lib c1 c2 cfg [] k := not_displaced r1 r2 hl cfg []
      have conv : ∀ k, EqualUpTo k c1 c2 → EqualOn (FixedInBoth c1 c2) k c1 c2 :=
        fun k he v hz x => he v (fun x hx q hq => hz x hx q ((fixed_same ha q).2 hq)) x
      have np : res.equivalence = .equivalentUpToGlobalPhase → ¬ Equal c1 c2 := fun e he => by
        rcases hv.phase e trivial with h | h | h | h
        · exact h (conv 1 he)
        · exact hno h
        · exact nd _ h
        · exact nd _ h
      have nn : res.equivalence = .notEquivalent → ¬ EqualUpToPhase c1 c2 := fun e he => by
        obtain ⟨k, hk, he⟩ := he
        rcases hv.notEquivalent e trivial with h | h | h | h
        · exact h ⟨k, hk, conv k he⟩
        · exact hno h
        · exact nd _ h
        · exact nd _ h
      refine ⟨hdef, fun he => ?_, fun he e => nn e he, fun hfar => ?_⟩
      · rcases hdef with e | e | e
        · exact e
        · exact absurd he (np e)
        · exact absurd ⟨1, by simp, he⟩ (nn e)
      · by_contra hne
        rcases hv.positive (by rcases hdef with e | e | e; exacts [Or.inl e, Or.inr e, absurd e hne]) hd with ⟨k, _, hk⟩ | h
        · exact hfar k hk
        · exact nd _ h
    · exact Or.inr (Or.inl hv)
    · exact Or.inr (Or.inr (Or.inr hv))
  · exact Or.inr (Or.inr hdef)

end QCEC.Props
