import Verif.Props.PartialRelation
import Verif.Props.PythonVerifyWitness
import Verif.Props.VerifyPartialDecidesWitness
/-!
# C89: calls with partial equivalence
-/
namespace QCEC.Props.PartialRelationWitness
open QCEC QCEC.DD QCEC.Param QCEC.Py QCEC.Mgr QCEC.Prep QCEC.Gen QCEC.Spec QCEC.Spec.Wide QCEC.Spec.ZX QCEC.Wide QCEC.Sem QCEC.Spec.Param QCEC.Props
open QCEC.Spec.Py QCEC.Props.PreparationWitness QCEC.Props.VerifyPartialWitness QCEC.Props.VerifyDecidesWitness QCEC.Props.VerifyPartialDecidesWitness
open QCEC.Props.VerifyDisplacedWitness QCEC.Props.PythonVerifyWitness

/-- `verify(a, b, configuration)` with such managers. -/
theorem partly {x y : Circ WOp} {cfg : Configuration} {v : Criterion} (h : CalmPManagerRun lib x y cfg [] v)
    (hp : cfg.functionality.checkPartialEquivalence = true)
    (hen : cfg.execution.runAlternatingChecker = true ∨ cfg.execution.runConstructionChecker = true) : PartlyDecided lib conv x y cfg v := by
  refine ⟨cfg, VerifyPartialWitness.imp x y, knowing cfg { equivalence := v }, knowing_calm_partial h, VerifyWitness.a, VerifyWitness.b, { equivalence := v },
    .verify (some cfg) [] List.nodup_nil ?_ ?_ rfl, hp, by simp [Symbolic, VerifyWitness.a], by simp [Symbolic, VerifyWitness.b], rfl, rfl, hen, rfl⟩
  · simp only [verifyCall, verifyConfig, augment, Option.getD_some, checkWith, knowing_verify]
  · intro k o f _
    simp [Asked]

theorem partly_interrupted {x y : Circ WOp} {cfg : Configuration} {v : Criterion} (h : PManagerRun lib x y cfg [] v)
    (hp : cfg.functionality.checkPartialEquivalence = true) : PartlyChecked lib conv x y cfg v := by
  refine ⟨cfg, VerifyPartialWitness.imp x y, knowing cfg { equivalence := v }, VerifyPartialWitness.knowing_realises h, VerifyWitness.a, VerifyWitness.b,
    { equivalence := v }, .verify (some cfg) [] List.nodup_nil ?_ ?_ rfl, hp, by simp [Symbolic, VerifyWitness.a], by simp [Symbolic, VerifyWitness.b], rfl, rfl, rfl⟩
  · simp only [verifyCall, verifyConfig, augment, Option.getD_some, checkWith, knowing_verify]
  · intro k o f _
    simp [Asked]

/-- **C89**: the hypotheses of `partial_is_weaker` are met: `X(0)` on one qubit and `X(0) Z(1)` on two are reported equivalent with and without
partial equivalence. -/
theorem weaker_met : ∃ cfg cfg' v', FullyChecked VerifyWitness.plain conv u1 u2 cfg .equivalent ∧ PartlyDecided VerifyWitness.plain conv u1 u2 cfg' v' ∧
    Positive v' ∧ Runnable u1 ∧ Runnable u2 ∧ Comparable u1 u2 := by
  obtain ⟨v, hv, hc⟩ := calm_alt (x := u1) (y := u2) {} {} (setOf (by omega) p1 p2 p1_wf p2_wf flags12 flags12) (e1 := count) (e2 := count)
    (by intro q hq
        have : q = 1 := by omega
        subst this
        exact Or.inl p1_idle) rfl wNumbered1 wNumbered2 rfl
  have e : v = .equivalent := hc.equivalent.2 fun w hw => by
    funext x
    show Spec.output p1 1 w x = ((1 : ℂ) • Spec.output p2 1 w) x
    rw [one_smul, p2_output, p1_output]
    cases hx : x 1
    · simp
    · by_cases h0 : w (Function.update x 0 (!x 0)) = 0
      · rw [h0]; simp
      · have := hw _ h0 1 (by decide)
        simp [hx] at this
  subst e
  have hm : Prep.construct named nothingToDo (pcfg 16) u1 u2 = .made { qc1 := w1, qc2 := w2, cfg := pcfg 2 } := rfl
  obtain ⟨v', hv', _, hp⟩ := calm_prun_exists (a := u1) (b := u2) wpair rfl trivial (fun _ _ => rfl) wpair_plain wpair_idle rfl wNumbered1 wNumbered2 (k := 2) (by omega) hm
  refine ⟨_, _, v', fully hv rfl (Or.inl rfl), partly hv' rfl (Or.inl rfl), hp.2 (wpair_partially _), u1_runnable, u2_runnable, ?_, ?_, ?_⟩
  · intro q
    rcases q with _ | q <;> rfl
  · intro q
    rcases q with _ | _ | q <;> rfl
  · intro q h _
    have : q = 0 := by have : q < 1 := h; omega
    subst this
    rfl

theorem bothX_partially_keepX (anc : List Bool) : PartiallyEquivalent [false, true] anc bothX 1 keepX 1 := fun v hv k =>
  (keepX_partially_bothX anc v hv k).symm

/-- **C89**: the hypotheses of `partial_same_verdict`, `partial_exchange`, `partial_trans` are met: `X(0)` and `X(0) X(2)`, of which qubit 2 is not
measured, are reported equivalent in both orders; `X(0)` and `X(2)` are reported not equivalent. -/
theorem exchange_met : ∃ cfg v v' v'', PartlyDecided VerifyWitness.plain conv g1 g2 cfg v ∧ PartlyDecided VerifyWitness.plain conv g2 g1 cfg v' ∧
    PartlyDecided VerifyWitness.plain conv g1 g3 cfg v'' ∧ Positive v ∧ Positive v' ∧ v'' = .notEquivalent ∧ Runnable g1 ∧ Runnable g2 ∧ Runnable g3 ∧
    Comparable g1 g2 ∧ Comparable g1 g3 ∧ g1.nqubits = g2.nqubits ∧ ¬ ConstructionUsed VerifyWitness.plain g1 g2 cfg [] := by
  obtain ⟨v, hv, _, hc⟩ := calm_prun_exists (a := g1) (b := g2) (psettingOf keepX bothX keepX_wf bothX_wf rfl) rfl trivial (fun _ _ => rfl) (psetting_plain rfl rfl)
    (psetting_idle rfl) rfl gNumbered1 gNumbered2 (k := 4) (by omega) rfl
  obtain ⟨v', hv', _, hc'⟩ := calm_prun_exists (a := g2) (b := g1) (psettingOf bothX keepX bothX_wf keepX_wf rfl) rfl trivial (fun _ _ => rfl) (psetting_plain rfl rfl)
    (psetting_idle rfl) rfl gNumbered2 gNumbered1 (k := 4) (by omega) rfl
  obtain ⟨v'', hv'', hc'', _⟩ := calm_prun_exists (a := g1) (b := g3) (psettingOf keepX garbageX keepX_wf garbageX_wf rfl) rfl trivial (fun _ _ => rfl) (psetting_plain rfl rfl)
    (psetting_idle rfl) rfl gNumbered1 gNumbered3 (k := 4) (by omega) rfl
  refine ⟨_, v, v', v'', partly hv rfl (Or.inl rfl), partly hv' rfl (Or.inl rfl), partly hv'' rfl (Or.inl rfl),
    hc.2 ((partially_congr (unread_same _ rfl) (fun _ => rfl) _ _ _ _).2 (keepX_partially_bothX _)),
    hc'.2 ((partially_congr (unread_same _ rfl) (fun _ => rfl) _ _ _ _).2 (bothX_partially_keepX _)),
    hc''.2 fun h => keepX_not_partially_garbageX ((partially_congr (unread_same _ rfl) (fun _ => rfl) _ _ _ _).1 h), gr1, gr2, gr3,
    ⟨g_none, g_none, fun _ _ _ => rfl⟩, ⟨g_none, g_none, fun _ _ _ => rfl⟩, rfl, ?_⟩
  rintro ⟨M, _, hm, he⟩
  have : Prep.construct named nothingToDo (pcfg 16) g1 g2 = .made { qc1 := h1, qc2 := h2, cfg := pcfg 4 } := rfl
  rw [show Prep.construct VerifyWitness.plain.acts VerifyWitness.plain.passes (pcfg 16) g1 g2 = _ from this] at hm
  cases hm
  cases he

/-- A call that nobody interrupts is a call. -/
theorem checked_of_run {x y : Circ WOp} {cfg : Configuration} {v : Criterion} (h : CalmManagerRun lib x y cfg [] v)
    (hp : cfg.functionality.checkPartialEquivalence = false) : Checked lib conv x y cfg v := by
  refine ⟨cfg, VerifyPartialWitness.imp x y, knowing cfg { equivalence := v }, ?_, VerifyWitness.a, VerifyWitness.b, { equivalence := v },
    .verify (some cfg) [] List.nodup_nil ?_ ?_ rfl, hp, by simp [Symbolic, VerifyWitness.a], by simp [Symbolic, VerifyWitness.b], rfl, rfl, rfl⟩
  · intro k c s x' y' r' d1 d2 hp h1 h2 hk
    exact calm_manager_run (knowing_calm (r := { equivalence := v }) h k c s x' y' r' d1 d2 hp h1 h2 hk)
  · simp only [verifyCall, verifyConfig, augment, Option.getD_some, checkWith, knowing_verify]
  · intro k o f _
    simp [Asked]

/-- **C89**: the hypotheses of `partial_never_contradicts` are met, by `X(0)` and `X(2)`. -/
theorem contradicts_met : ∃ cfg cfg' v, Checked VerifyWitness.plain conv g1 g3 cfg v ∧ PartlyChecked VerifyWitness.plain conv g1 g3 cfg' .notEquivalent ∧
    Runnable g1 ∧ Runnable g3 ∧ Comparable g1 g3 := by
  obtain ⟨v, hv, _⟩ := calm_alt (x := g1) (y := g3) {} {} (setOf (Nat.le_refl 2) keepX garbageX keepX_wf garbageX_wf (by decide) (by decide)) (e1 := count) (e2 := count)
    (fun q hq => absurd q.isLt (by omega)) rfl gNumbered1 gNumbered3 rfl
  obtain ⟨v'', hv'', hc'', _⟩ := calm_prun_exists (a := g1) (b := g3) (psettingOf keepX garbageX keepX_wf garbageX_wf rfl) rfl trivial (fun _ _ => rfl) (psetting_plain rfl rfl)
    (psetting_idle rfl) rfl gNumbered1 gNumbered3 (k := 4) (by omega) rfl
  have e : v'' = .notEquivalent :=
    hc''.2 fun h => keepX_not_partially_garbageX ((partially_congr (unread_same _ rfl) (fun _ => rfl) _ _ _ _).1 h)
  subst e
  exact ⟨_, _, v, checked_of_run hv rfl, partly_interrupted (calm_pmanager_run hv'') rfl, gr1, gr3, g_none, g_none, fun _ _ _ => rfl⟩

/-- As `ccfg`, with the alternating instead of the construction checker. -/
def altCfg : Configuration :=
  { ccfg with execution := { ccfg.execution with runAlternatingChecker := true, runConstructionChecker := false } }

/-- **C89**: the exception for the construction checker is needed.  With partial equivalence, two uninterrupted calls for the same two circuits on one qubit
have opposite verdicts: with the construction checker they are reported equivalent, with the alternating checker not equivalent. -/
theorem construction_changes_verdict : PartlyDecided VerifyWitness.plain conv k1 k2 ccfg .equivalent ∧
    PartlyDecided VerifyWitness.plain conv k1 k2 altCfg .notEquivalent ∧ Runnable k1 ∧ Runnable k2 ∧ Comparable k1 k2 := by
  have r1 : Runnable k1 := kRunnable _ (by simp)
  have r2 : Runnable k2 := kRunnable _ (by simp)
  let env := testEnv (fun _ => some .notEquivalent) (.returns .notEquivalent) (.returns .equivalent) (.returns .noInformation)
  have run : ∀ (cfg : Configuration) (v : Criterion), cfg = ccfg ∧ v = .equivalent ∨ cfg = altCfg ∧ v = .notEquivalent →
      CalmPManagerRun VerifyWitness.plain k1 k2 cfg [] v := by
    rintro cfg v (⟨rfl, rfl⟩ | ⟨rfl, rfl⟩)
    · have hm : mode env ccfg = .sequential := rfl
      obtain ⟨s', hr, he⟩ : ∃ s', Mgr.run env 20 (State.fresh ccfg) = some (.returned s') ∧ s'.results.equivalence = .equivalent := ⟨_, rfl, rfl⟩
      have hc : Prep.construct named nothingToDo ccfg k1 k2 = .made { qc1 := k1, qc2 := k2, cfg := ccfg } := rfl
      refine ⟨nothing_faithful _, _, hc, 1, 1, rfl, rotPair.toPBase, _, _, kNumbered _, kNumbered _, ⟨fun _ => by decide, fun _ => trivial⟩,
        fun _ _ _ _ h => absurd h Bool.false_ne_true, ?_⟩
      rw [← he]
      have h0 : ¬ ccfg.execution.timeout > 0 := fun h => absurd h (lt_irrefl (0 : ℚ))
      refine .sequential env 20 s' hm h0 hr ?_
      rintro ⟨k, v⟩ h hen
      cases k
      · cases hen
      · cases hen
      · cases h
        exact rotPair_construction
      · cases hen
    · have hm : mode env altCfg = .sequential := rfl
      obtain ⟨s', hr, he⟩ : ∃ s', Mgr.run env 20 (State.fresh altCfg) = some (.returned s') ∧ s'.results.equivalence = .notEquivalent := ⟨_, rfl, rfl⟩
      have hc : Prep.construct named nothingToDo altCfg k1 k2 = .made { qc1 := k1, qc2 := k2, cfg := altCfg } := rfl
      refine ⟨nothing_faithful _, _, hc, 1, 1, rfl, rotPair.toPBase, _, _, kNumbered _, kNumbered _, ⟨fun _ => by decide, fun _ => trivial⟩,
        fun _ _ _ _ h => absurd h Bool.false_ne_true, ?_⟩
      rw [← he]
      have h0 : ¬ altCfg.execution.timeout > 0 := fun h => absurd h (lt_irrefl (0 : ℚ))
      refine .sequential env 20 s' hm h0 hr ?_
      rintro ⟨k, v⟩ h hen
      cases k
      · cases hen
      · cases h
        exact rotPair_alternating
      · cases hen
      · cases hen
  have none1 : ∀ q, k1.isAncillary q = false := by intro q; rcases q with _ | q <;> rfl
  exact ⟨partly (run _ _ (Or.inl ⟨rfl, rfl⟩)) rfl (Or.inr rfl), partly (run _ _ (Or.inr ⟨rfl, rfl⟩)) rfl (Or.inl rfl), r1, r2, none1, none1, fun _ _ _ => rfl⟩

end QCEC.Props.PartialRelationWitness
