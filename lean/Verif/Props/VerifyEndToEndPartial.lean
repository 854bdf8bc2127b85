import Verif.Spec.VerifyEndToEndPartial
import Verif.Props.VerifyEndToEnd
import Verif.Props.GarbageKept
import Verif.Lemmas.MisledPartial
/-!
# Properties: the verdict of `verify()` with partial equivalence (C81, C74)
-/
namespace QCEC.Props
open QCEC QCEC.Mgr QCEC.Prep QCEC.Spec QCEC.Spec.Wide QCEC.Spec.ZX QCEC.Wide QCEC.Sem QCEC.Spec.Param

/-- **C81.** With partial equivalence switched on, the verdict of a manager that is constructed for two circuits with the same garbage qubits and run has its
meaning for these circuits, in all flows and schedules and whenever a timeout fires – unless it is the `Equivalent` of the shortcut for circuits of which no
operation is left, or the circuits mislead the alternating checker. -/
theorem manager_partial_verdict {c1 c2 : Circ WOp} (h1 : Runnable c1) (h2 : Runnable c2) (hg : SameGarbage c1 c2) {cfg : Configuration}
    {setters : List Param.Setter} {v : Criterion} (h : PManagerRun lib c1 c2 cfg setters v) :
    PartialVerdict lib c1 c2 cfg setters v ∨ v = .equivalent ∧ CrossedShortcut lib c1 c2 cfg ∨ Misled lib c1 c2 cfg setters := by
  by_cases hno : Misled lib c1 c2 cfg setters
  · exact Or.inr (Or.inr hno)
  rw [or_iff_left hno]
  have hacts := lib.reliable
  obtain ⟨hP, M, hm, _, n, rfl, S', e1, e2, hn1, hn2, hsch, hop, hrun⟩ := h
  have quiet : PartialVerdict lib c1 c2 cfg setters .noInformation := ⟨by simp, by simp, by simp, by simp⟩
  have hP' : ∀ p ∈ planned cfg.optimizations true, Faithful lib.passes p := fun p hp => (hP p hp).1
  obtain ⟨w1, w2, _⟩ := construct_preserves hacts h1 h2 hP' hm
  obtain ⟨S, q1, q2, hS⟩ := partial_setting hP' hm S' w1 w2 hn1 hn2 hsch hop hno (constructed_same_garbage hacts h1 h2 hP hm hg S' hn1 hn2)
  rw [← q1] at hn1
  rw [← q2] at hn2
  replace hrun := runs_mono (fun k c => hS false k c) hrun
  have key := constructed_partially hacts h1 h2 hP hm S hn1 hn2
  have counted := (construct_last h1 h2 hP' hm).1
  have carry : ∀ v, PMeaning S (afterSetters M.cfg setters) v → PartialVerdict lib c1 c2 cfg setters v := by
    intro v hv
    have disp : ∀ (k : Kind) (b : Bool), (b = true → Enabled (afterSetters M.cfg setters) k) → ¬ Displaced lib c1 c2 cfg setters k →
        b = true → ∀ q, q < n → M.qc1.isAncillary q = decide (M.qc1.ndata ≤ q) := by
      intro k b hb hd e q hq
      have hl : AncillasLast M.qc1 := by
        by_contra hl
        exact hd ⟨M, hP', hm, hb e, hl⟩
      exact last_flags counted hl (by rwa [hn1.width])
    have mixed : ¬ (Enabled (afterSetters M.cfg setters) .construction → S.SameFlags) → ConstructionMixed lib c1 c2 cfg setters := by
      intro hc
      rw [Classical.not_imp] at hc
      refine ⟨fun hs => hc.2 fun q => ?_, M, hP', hm, hc.1⟩
      obtain ⟨f, hf⟩ := construct_fixed hacts h1 h2 hP' hm
      have hq : FixedInBoth M.qc1 M.qc2 q.val ↔ Fixed M.qc1 M.qc2 q.val := by rw [(hf q).1, (hf q).2.1, fixed_same hs]
      have hlt := q.isLt
      unfold FixedInBoth Fixed at hq
      rw [hn1.width, hn2.width] at hq
      rw [hn1.ancillary q hlt, hn2.ancillary q hlt]
      cases a : M.qc1.isAncillary q.val <;> cases b : M.qc2.isAncillary q.val <;> simp [a, b] at hq ⊢ <;> omega
    refine ⟨fun e => ?_, fun e => ?_, fun e => ?_, hv.never⟩
    · by_cases hd : Displaced lib c1 c2 cfg setters .simulation
      · exact Or.inr (Or.inr (Or.inr hd))
      · by_cases hc : Enabled (afterSetters M.cfg setters) .construction → S.SameFlags
        · by_cases hi : Enabled (afterSetters M.cfg setters) .alternating → S.OneIdle
          · exact Or.inl fun hp => hv.negative e hi hc ((key _ (disp .simulation _ id hd)).2.1.2 hp)
          · rw [Classical.not_imp] at hi
            exact Or.inr (Or.inl ⟨M, hP, hm, hi.1, _, n, S.toPBase, e1, e2, hn1, hn2, hi.2⟩)
        · exact Or.inr (Or.inr (Or.inl (mixed hc)))
    · by_cases hd : Displaced lib c1 c2 cfg setters .zx
      · exact Or.inr (Or.inr hd)
      · by_cases hc : Enabled (afterSetters M.cfg setters) .construction → S.SameFlags
        · exact Or.inl ((key _ (disp .zx _ id hd)).2.2.1 (hv.basis e hc))
        · exact Or.inr (Or.inl (mixed hc))
    · by_cases hd : Displaced lib c1 c2 cfg setters .zx
      · exact Or.inr (Or.inr hd)
      · by_cases hc : Enabled (afterSetters M.cfg setters) .construction
        · exact Or.inr (Or.inl ⟨M, hP, hm, hc⟩)
        · exact Or.inl ((key _ (disp .zx _ id hd)).1.1 (hv.positive e hc))
  cases hrun with
  | nothing env fuel s' hmode h =>
    left
    have hb : (State.fresh (afterSetters M.cfg setters)).begin.cfg = afterSetters M.cfg setters := rfl
    unfold Mgr.run at h
    simp only [hb, hmode, Option.some.injEq, Ending.returned.injEq] at h
    subst h
    exact quiet
  | empty env fuel s' he hmode h =>
    have hb : (State.fresh (afterSetters M.cfg setters)).begin.cfg = afterSetters M.cfg setters := rfl
    unfold Mgr.run at h
    simp only [hb, hmode, Option.some.injEq, Ending.returned.injEq] at h
    subst h
    by_cases hw : ∃ q, wire M.qc1 q ≠ wire M.qc2 q
    · exact Or.inr ⟨rfl, M, hP', hm, he.1, he.2, hw⟩
    · left
      have hq : ∀ q, wire M.qc1 q = wire M.qc2 q := fun q => by_contra fun h => hw ⟨q, h⟩
      have heq : Equal c1 c2 := ((construct_preserves hacts h1 h2 hP' hm).2.2.2 1).1 (equal_no_ops he.1 he.2 hq)
      have hpe := partiallyEqual_of_equal ⟨1, by simp, heq⟩
      exact ⟨by simp [State.setEq], fun _ => Or.inl (equalOnBasis_of_partiallyEqual hpe), fun _ => Or.inl hpe, by simp [State.setEq]⟩
  | sequential env fuel s' hmode h hans =>
    exact Or.inl (carry _ (partial_sequential_verdict S (s := State.fresh _) hmode h hans))
  | parallel env s hreach hr hans => exact Or.inl (carry _ (partial_parallel_verdict S hreach hr hans))
  | timed env fuel grow D cap p t s' hmode hf h he hans =>
    obtain ⟨fired, hm', _, h2⟩ := timed_run hf h he
    exact Or.inl (carry s'.report.results.equivalence (partial_sequential_verdict S (env := Tmo.withFired env fired hm') (s := State.fresh _) hmode h2 hans))
  | composed env D c h hr hans => exact Or.inl (carry _ (partial_parallel_verdict S (composed_refines h) hr hans))
  | delayed env s h hr hans =>
    obtain ⟨t, ht, hm', hres⟩ := (delayed_same_outcomes env _ _ _ _).1 ⟨s, h, hr, rfl⟩
    rw [← hres]
    exact Or.inl (carry _ (partial_parallel_verdict S ht hm' hans))

/-- For circuits with the same ancillary qubits, those being the last ones, the restrictions concerning ancillary qubits disappear. -/
theorem partial_verdict_same_ancillas {c1 c2 : Circ WOp} {cfg : Configuration} {setters : List Param.Setter} {v : Criterion} (r1 : Runnable c1)
    (r2 : Runnable c2) (h : SameAncillas c1 c2) (hl : AncillasLast c1) (hv : PartialVerdict lib c1 c2 cfg setters v) :
    (v = .notEquivalent → ¬ PartiallyEqual c1 c2 ∨ AncillasOnBothSides lib c1 c2 cfg setters) ∧
    (v = .equivalent ∨ v = .equivalentUpToGlobalPhase → EqualOnBasis c1 c2 ∧ (PartiallyEqual c1 c2 ∨ ConstructionUsed lib c1 c2 cfg setters)) := by
  have no : ∀ k, ¬ (ConstructionMixed lib c1 c2 cfg setters ∨ Displaced lib c1 c2 cfg setters k) := by
    rintro k (hc | hd)
    · exact hc.1 h
    · exact not_displaced r1 r2 hl cfg setters k hd
  have hf : Fixed c1 c2 = FixedInBoth c1 c2 := funext fun q => propext (fixed_same h q).symm
  refine ⟨fun e => ?_, fun e => ⟨(hv.basis e).resolve_right (no _), ?_⟩⟩
  · rcases hv.negative e with x | x | x
    · left
      unfold PartiallyEqual
      rw [hf]
      exact x
    · exact Or.inr x
    · exact absurd x (no _)
  · rcases hv.positive e with x | x | x
    · exact Or.inl x
    · exact Or.inr x
    · exact absurd (Or.inr x) (no _)

variable {imp : Param.Subject → Option (Circ WOp)} {w : Param.World} {cfg : Configuration} {i₁ i₂ : Param.Input} {res : Param.Res}

/-- **C81.** The verdict of `verify` with `check_partial_equivalence` on circuits without symbolic parameters. -/
theorem verify_partial_verdict (hw : PRealises lib imp w) (hp : cfg.functionality.checkPartialEquivalence = true) (hs1 : ¬ Symbolic i₁) (hs2 : ¬ Symbolic i₂)
    {c1 c2 : Circ WOp} (h1 : imp (.given i₁) = some c1) (h2 : imp (.given i₂) = some c2) (r1 : Runnable c1) (r2 : Runnable c2)
    (hg : SameGarbage c1 c2) (h : Param.verify w cfg i₁ i₂ = .ok res) :
    PartialVerdict lib c1 c2 cfg [] res.equivalence ∨ res.equivalence = .equivalent ∧ CrossedShortcut lib c1 c2 cfg ∨ Misled lib c1 c2 cfg [] := by
  obtain ⟨a, _, b⟩ := verify_choice (w := w) (cfg := cfg) (i₁ := i₁) (i₂ := i₂)
  have v1 : Verifiable i₁ := by
    by_contra hn
    rw [b (Or.inl hn)] at h
    exact absurd h (by simp)
  have v2 : Verifiable i₂ := by
    by_contra hn
    rw [b (Or.inr ⟨hn, hs1⟩)] at h
    exact absurd h (by simp)
  rw [a v1 v2 hs1 hs2] at h
  exact manager_partial_verdict r1 r2 hg (hw _ _ _ _ _ _ _ _ hp h1 h2 h)

end QCEC.Props
