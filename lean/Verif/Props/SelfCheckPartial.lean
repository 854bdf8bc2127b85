import Verif.Spec.SelfCheckPartial
import Verif.Props.SelfCheck
import Verif.Props.PartialRelation
/-!
# C89: with partial equivalence, a circuit is equivalent to itself
-/
namespace QCEC.Props
open QCEC QCEC.Mgr QCEC.Prep QCEC.Spec QCEC.Spec.Wide QCEC.Spec.Py QCEC.Wide QCEC.Sem QCEC.DD
open scoped Matrix

variable {lib : Library} {c : Circ WOp} {cfg : Configuration} {setters : List Param.Setter} {v : Criterion}

/-- The checkers without the cancellation of operations that look the same. -/
def _root_.QCEC.Spec.PBase.uncancelled {m n : Nat} (S : PBase m n) : PBase m n := { S with opEq := fun _ _ => false }

/-- On two copies of a circuit cancelling makes no difference. -/
theorem panswer_uncancelled {m n : Nat} (S : PBase m n) {e1 e2 : Nat → Fin n} {d : Circ WOp} (w : Wired d) (h1 : Numbered e1 d S.qc1) (h2 : Numbered e2 d S.qc2)
    (hself : ∀ a ∈ d.ops, S.opEq (a.on e1) (a.on e2) = true) (hid : S.T.isId 1 = true) (hc : S.schA.Cancels) (hanc : NoSharedAncilla S.qc1 S.qc2) {q : Bool}
    {k : Kind} {x : Criterion} (h : PAnswer S q k x) : PAnswer S.uncancelled q k x := by
  have hi : altInit (exactMatrix n reduceGarbageMat) 1 n S.qc1 S.qc2 = 1 := by
    have : altInit (exactMatrix n reduceGarbageMat) 1 n S.qc1 S.qc2 = ancProj (altAncillary n S.qc1.ancillary S.qc2.ancillary) := by
      simp [altInit, exactMatrix, reduceAncillae]
    rw [this, ← ancProj_nil (n := n)]
    refine ancProj_congr _ _ fun p => ?_
    rw [altAncillary_flag]
    have := hanc p
    cases a : S.qc1.ancillary.getD p.val false <;> cases b : S.qc2.ancillary.getD p.val false <;> simp_all
  have hsame : funcOf S.qc1 S.ω1 = funcOf S.qc2 S.ω2 := by
    have : Same [] S.qc1 S.ω1 S.qc2 S.ω2 := by
      rw [S.wf1.labels, S.wf2.labels]
      exact (sameOn_numbered w w h1 h2 [] (F := fun _ => False) (by simp) 1).2 fun v _ x => by rw [one_mul]
    rw [same_iff, ancProj_nil, Matrix.mul_one, Matrix.mul_one] at this
    exact this
  induction h with
  | alternating stop hm hq fuel hf x s h =>
    obtain ⟨f, hs⟩ : ∃ f, S.schA = .counts f := by
      cases hsc : S.schA with
      | counts f => exact ⟨f, rfl⟩
      | lookahead size => rw [hsc] at hc; exact absurd hc (by simp [AltScheme.Cancels])
    have hsafe := uncancelled_safe S.toMixed hc
    have hcf : AltConfigured S.qc1 S.qc2 S.schA := AltChosen.configured S.confA (opEq := fun _ _ => false) hsafe
    generalize hver : altCheck true S.G.closeG S.T.close S.T.wOne n S.qc1 S.qc2 = verdict at h
    rw [hi, hs] at h
    obtain ⟨x', s', hr, ho⟩ := lock_run w h1 h2 reduceGarbageMat S.T.isId hid S.opEq hself f verdict stop hm .noInformation fuel hf
    rw [hr] at h
    obtain ⟨rfl, rfl⟩ := Prod.mk.inj (Res.ok.inj h)
    have run : ∀ stop' : Nat → Bool, Mono stop' → (q = true → ∀ i, stop' i = false) → (∀ i, stop' i = stop' 0) →
        PAnswer S.uncancelled q .alternating (if stop' 0 then .noInformation else verdict 1) := by
      intro stop' hm' hq' hconst
      obtain ⟨y, t, g1, g2⟩ := alternating_outcome reduceGarbageMat S.qc1 S.qc2 S.ω1 S.ω2 S.wf1 S.wf2 S.T (fun _ _ => false) S.schA hsafe.1 hcf
        verdict stop' hm' .noInformation fuel hf
      have hy : (if stop' 0 then Criterion.noInformation else verdict 1) = y := by
        rcases g2 with ⟨a, b⟩ | ⟨a, b, e⟩
        · rw [hconst] at a
          rw [if_pos a, b]
        · rw [hconst] at a
          rw [if_neg (by simp [a]), e, b, hi, Matrix.mul_one, hsame]
          rw [funcOf_unitary _ _ S.wf2.ops]
      rw [hy]
      subst hver
      exact PAnswer.alternating (S := S.uncancelled) stop' hm' hq' fuel hf y t g1
    rcases ho with ⟨hst, rfl⟩ | rfl
    · have hq0 : q = false := by
        cases q with
        | false => rfl
        | true => rw [hq rfl] at hst; cases hst
      have := run (fun _ => true) (fun _ _ _ h => h) (by simp [hq0]) (fun _ => rfl)
      simpa using this
    · have := run (fun _ => false) (fun _ _ _ h => h) (fun _ _ => rfl) (fun _ => rfl)
      simpa using this
  | construction stop hm hq fuel hf x s h => exact PAnswer.construction (S := S.uncancelled) stop hm hq fuel hf x s h
  | simulation x h => exact .simulation x h
  | simulationAgain prev x hp h ih => exact .simulationAgain prev x ih h
  | zx c h =>
    refine .zx c ?_
    cases h with
    | zx hr1 hr2 hc1 hc2 outs1 outs2 ho1 ho2 M g θ hR hg done hq c h =>
      exact .zx (S := S.uncancelled.toMixed) hr1 hr2 hc1 hc2 outs1 outs2 ho1 ho2 M g θ hR hg done hq c h

/-- The checkers can be taken to be safe, unless lookahead is misled. -/
theorem self_partial_setting {m n : Nat} (r : Runnable c) (hP : PassesFaithful lib.passes cfg) {M : Made WOp}
    (h : Prep.construct lib.acts lib.passes cfg c c = .made M) (hd : M.qc1.ndata = m) (S : PBase m n) {e1 e2 : Nat → Fin n} (hn1 : Numbered e1 M.qc1 S.qc1)
    (hn2 : Numbered e2 M.qc2 S.qc2) (hsch : Follows S.toMixed M.cfg) (hop : ∀ a ∈ M.qc1.ops, ∀ b ∈ M.qc2.ops, S.opEq (a.on e1) (b.on e2) = true → a = b)
    (hself : ∀ a ∈ M.qc1.ops, a ∈ M.qc2.ops → S.opEq (a.on e1) (a.on e2) = true) (hid : S.T.isId 1 = true) :
    (∃ T : PSetting m n, T.qc1 = S.qc1 ∧ T.qc2 = S.qc2 ∧
      ∀ q k x, Enabled (afterSetters M.cfg setters) k → PAnswer S q k x → PAnswer T.toPBase q k x) ∨
      Misled lib c c cfg setters ∧ cfg.application.alternatingScheme = .lookahead := by
  subst hd
  have hP' : ∀ p ∈ planned cfg.optimizations true, Faithful lib.passes p := fun p hp => (hP p hp).1
  obtain ⟨w1, w2, _, _⟩ := construct_preserves lib.reliable r r hP' h
  have hg := constructed_same_garbage lib.reliable r r hP h (fun _ _ _ => rfl) S hn1 hn2
  have happ : M.cfg.application = cfg.application := by
    obtain ⟨k, _, e⟩ := construct_fallback h
    rw [e]
  by_cases hc : S.schA.Cancels
  · left
    by_cases hanc : NoSharedAncilla S.qc1 S.qc2
    · have he := construct_self h
      rw [← he] at hn2 hself
      exact ⟨⟨S.uncancelled, uncancelled_safe S.toMixed hc, hg⟩, rfl, rfl, fun q k x _ hx =>
        panswer_uncancelled S w1 hn1 hn2 (fun a ha => hself a ha ha) hid hc hanc hx⟩
    · exact ⟨⟨S, ⟨fun _ hno => absurd hno hanc, fun hn => absurd hc hn⟩, hg⟩, rfl, rfl, fun _ _ _ _ hx => hx⟩
  · have hl : cfg.application.alternatingScheme = .lookahead := by
      by_contra hl
      exact hc (hsch.2 (by rw [happ]; exact hl))
    by_cases hmis : Misled lib c c cfg setters
    · exact Or.inr ⟨hmis, hl⟩
    · exact Or.inl (partial_setting hP' h S w1 w2 hn1 hn2 hsch hop hmis hg)

/-- What a run says. -/
theorem pmeaning_of_runs {m n : Nat} (S : PSetting m n) {e : Prop} (h : Runs (PAnswer S.toPBase false) cfg e v) :
    v = .noInformation ∨ v = .equivalent ∨ PMeaning S cfg v := by
  have hb : (State.fresh cfg).begin.cfg = cfg := rfl
  cases h with
  | nothing env fuel s' hmode h =>
    unfold Mgr.run at h
    simp only [hb, hmode, Option.some.injEq, Ending.returned.injEq] at h
    subst h
    exact Or.inl rfl
  | empty env fuel s' he hmode h =>
    unfold Mgr.run at h
    simp only [hb, hmode, Option.some.injEq, Ending.returned.injEq] at h
    subst h
    exact Or.inr (Or.inl rfl)
  | sequential env fuel s' hmode h hans => exact Or.inr (Or.inr (partial_sequential_verdict S (s := State.fresh _) hmode h hans))
  | parallel env s hreach hr hans => exact Or.inr (Or.inr (partial_parallel_verdict S hreach hr hans))
  | timed env fuel grow D cap p t s' hmode hf h he hans =>
    obtain ⟨fired, hm', _, h2⟩ := timed_run hf h he
    have key : PMeaning S cfg s'.report.results.equivalence :=
      partial_sequential_verdict S (env := Tmo.withFired env fired hm') (s := State.fresh _) hmode h2 hans
    exact Or.inr (Or.inr key)
  | composed env D c h hr hans => exact Or.inr (Or.inr (partial_parallel_verdict S (composed_refines h) hr hans))
  | delayed env s h hr hans =>
    obtain ⟨t, ht, hm', hres⟩ := (delayed_same_outcomes env _ _ _ _).1 ⟨s, h, hr, rfl⟩
    rw [← hres]
    exact Or.inr (Or.inr (partial_parallel_verdict S ht hm' hans))

/-- **C89**, reflexive: with partial equivalence, a manager never reports that a circuit is not equivalent to itself – in all flows and schedules, with any
garbage qubits, and whenever a timeout fires – unless the alternating checker is used on ancillary qubits the circuit acts on, or lookahead on compound
operations with SWAPs. -/
theorem manager_partial_self_never_refuted (r : Runnable c) (h : SharpPManagerRun lib c c cfg setters v) :
    (v ≠ .notEquivalent ∧ v ≠ .equivalentUpToPhase) ∨ v = .notEquivalent ∧ AncillasOnBothSides lib c c cfg setters ∨
      Misled lib c c cfg setters ∧ cfg.application.alternatingScheme = .lookahead := by
  obtain ⟨hP, M, hm, m, n, hd, S, e1, e2, hn1, hn2, hsch, hop, hself, hid, hrun⟩ := h
  rcases self_partial_setting (setters := setters) r hP hm hd S hn1 hn2 hsch hop hself hid with ⟨T, q1, q2, hans⟩ | hmis
  · rcases pmeaning_of_runs T (runs_mono (fun k x => hans false k x) hrun) with rfl | rfl | hv
    · exact Or.inl (by simp)
    · exact Or.inl (by simp)
    · by_cases e : v = .notEquivalent
      · rw [← q1] at hn1
        rw [← q2] at hn2
        have hs := fun anc => self_same r (fun p hp => (hP p hp).1) hm T.toMixed hn1 hn2 anc
        by_cases hi : Enabled (afterSetters M.cfg setters) .alternating → T.OneIdle
        · exact absurd (same_partially _ _ _ _ _ _ (same_imp_phase (hs _).1)) (hv.negative e hi fun _ => (hs []).2)
        · rw [Classical.not_imp] at hi
          exact Or.inr (Or.inl ⟨e, M, hP, hm, hi.1, m, n, T.toPBase, e1, e2, hn1, hn2, hi.2⟩)
      · exact Or.inl ⟨e, hv.never⟩
  · exact Or.inr (Or.inr hmis)

theorem sharp_calm_prun {c1 c2 : Circ WOp} (h : SharpCalmPManagerRun lib c1 c2 cfg setters v) : SharpPManagerRun lib c1 c2 cfg setters v := by
  obtain ⟨hP, M, hm, m, n, hd, S, e1, e2, hn1, hn2, hsch, hop, hself, hid, hrun⟩ := h
  refine ⟨hP, M, hm, m, n, hd, S, e1, e2, hn1, hn2, hsch, hop, hself, hid, ?_⟩
  cases hrun with
  | nothing env fuel s' hmode h => exact .nothing env fuel s' hmode h
  | empty env fuel s' he hmode h => exact .empty env fuel s' he hmode h
  | sequential env fuel s' hmode ht h hans => exact .sequential env fuel s' hmode h fun e a b => panswer_any S (hans e a b)
  | parallel env quiet s hp hq hrun hr ht hans hquiet => exact .parallel env s hrun.steps hr hans

/-- **C89**, reflexive: a manager that nobody interrupts, with the alternating or the construction checker enabled, reports that a circuit is partially
equivalent to itself – or gives up (C82). -/
theorem manager_partial_self (r : Runnable c) (h : SharpCalmPManagerRun lib c c cfg [] v) (hen : Enabled cfg .alternating ∨ Enabled cfg .construction) :
    Positive v ∨ v = .noInformation ∧ ParallelWithBoth cfg ∨ v = .notEquivalent ∧ AncillasOnBothSides lib c c cfg [] ∨
      Misled lib c c cfg [] ∧ cfg.application.alternatingScheme = .lookahead := by
  rcases manager_partial_self_never_refuted r (sharp_calm_prun h) with hn | hn | hmis
  · obtain ⟨hP, M, hm, m, n, hd, S, e1, e2, hn1, hn2, hsch, hop, hself, hid, hrun⟩ := h
    rcases self_partial_setting (setters := []) r hP hm hd S hn1 hn2 hsch hop hself hid with ⟨T, _, _, hans⟩ | hmis
    · rcases partial_definite_of_setting hm T (calmRuns_mono hans hrun) hen with hd | hd
      · rcases hd with e | e | e
        · exact Or.inl (Or.inl e)
        · exact Or.inl (Or.inr e)
        · exact absurd e hn.1
      · exact Or.inr (Or.inl hd)
    · exact Or.inr (Or.inr (Or.inr hmis))
  · exact Or.inr (Or.inr (Or.inl hn))
  · exact Or.inr (Or.inr (Or.inr hmis))

/-- Without declared ancillary qubits the alternating checker has no ancillary qubits to worry about. -/
theorem no_shared_self (r : Runnable c) (hn : ∀ q, c.isAncillary q = false) : ¬ AncillasOnBothSides lib c c cfg setters :=
  not_ancillas_on_both_sides r r (fun q _ _ h => by rw [hn] at h; exact absurd h.1 (by simp)) cfg setters


variable {V : Type} {conv : QCEC.Py.Kind → V → Option QCEC.Py.FieldVal}

theorem verify_is_partial_manager {P : Circ WOp → Circ WOp → Configuration → List Param.Setter → Criterion → Prop} {imp : Param.Subject → Option (Circ WOp)}
    {w : Param.World} {i₁ i₂ : Param.Input} {res : Param.Res} {c1 c2 : Circ WOp} (hw : PManagersDo P imp w)
    (hp : cfg.functionality.checkPartialEquivalence = true) (hs1 : ¬ Spec.Param.Symbolic i₁) (hs2 : ¬ Spec.Param.Symbolic i₂)
    (h1 : imp (.given i₁) = some c1) (h2 : imp (.given i₂) = some c2) (h : Param.verify w cfg i₁ i₂ = .ok res) : P c1 c2 cfg [] res.equivalence := by
  obtain ⟨a, _, b⟩ := verify_choice (w := w) (cfg := cfg) (i₁ := i₁) (i₂ := i₂)
  have v1 : Spec.Param.Verifiable i₁ := by
    by_contra hn
    rw [b (Or.inl hn)] at h
    exact absurd h (by simp)
  have v2 : Spec.Param.Verifiable i₂ := by
    by_contra hn
    rw [b (Or.inr ⟨hn, hs1⟩)] at h
    exact absurd h (by simp)
  rw [a v1 v2 hs1 hs2] at h
  exact hw _ _ _ _ _ _ _ _ hp h1 h2 h

/-- **C89**, reflexive: no call of `verify` or `verify_compilation` with partial equivalence, interrupted or not, reports that a circuit without declared
ancillary qubits is not equivalent to itself … -/
theorem check_partial_self_never_refuted (r : Runnable c) (h : PartlyCalledWith (SharpPManagerRun lib) conv c c cfg v) (hn : ∀ q, c.isAncillary q = false) :
    v ≠ .notEquivalent ∨ Misled lib c c cfg [] ∧ cfg.application.alternatingScheme = .lookahead := by
  obtain ⟨d, imp, w, hw, i₁, i₂, res, h, hp, hs1, hs2, h1, h2, rfl⟩ := h
  rcases manager_partial_self_never_refuted r (verify_is_partial_manager hw hp hs1 hs2 h1 h2 (call_verify h)) with g | g | g
  · exact Or.inl g.1
  · exact absurd g.2 (no_shared_self r hn)
  · exact Or.inr g

/-- … and a call that nobody interrupts, with the alternating or the construction checker enabled, reports that it is equivalent to itself. -/
theorem check_partial_self (r : Runnable c) (h : PartlyCalledWith (SharpCalmPManagerRun lib) conv c c cfg v) (hn : ∀ q, c.isAncillary q = false)
    (hen : cfg.execution.runAlternatingChecker = true ∨ cfg.execution.runConstructionChecker = true) :
    Positive v ∨ v = .noInformation ∧ ParallelWithBoth cfg ∨ Misled lib c c cfg [] ∧ cfg.application.alternatingScheme = .lookahead := by
  obtain ⟨d, imp, w, hw, i₁, i₂, res, h, hp, hs1, hs2, h1, h2, rfl⟩ := h
  rcases manager_partial_self r (verify_is_partial_manager hw hp hs1 hs2 h1 h2 (call_verify h)) hen with g | g | g | g
  · exact Or.inl g
  · exact Or.inr (Or.inl g)
  · exact absurd g.2 (no_shared_self r hn)
  · exact Or.inr (Or.inr g)

end QCEC.Props
