import Verif.Props.SelfCheckPartial
import Verif.Props.SelfCheckWitness
/-!
# C89: a circuit checked against itself with partial equivalence
-/
namespace QCEC.Props.SelfCheckPartialWitness
open QCEC QCEC.DD QCEC.Param QCEC.Py QCEC.Mgr QCEC.Prep QCEC.Gen QCEC.Spec QCEC.Spec.Wide QCEC.Spec.ZX QCEC.Wide QCEC.Sem QCEC.Spec.Param QCEC.Props
open QCEC.Spec.Py QCEC.Props.PreparationWitness QCEC.Props.VerifyPartialWitness QCEC.Props.VerifyDecidesWitness QCEC.Props.VerifyPartialDecidesWitness
open QCEC.Props.VerifyDisplacedWitness QCEC.Props.PythonVerifyWitness QCEC.Props.RoutingWitness QCEC.Props.SelfCheckWitness
open scoped Matrix

/-- Partial equivalence, one-to-one scheme. -/
def selfCfg : Configuration :=
  { oneToOneCfg with functionality := { oneToOneCfg.functionality with checkPartialEquivalence := true } }

/-- What the checkers get; operations are compared exactly. -/
noncomputable def selfPartial : PBase 2 2 := { selfChecking with G := idealGarbageTest 2 }

theorem grouped_partial_check : ∃ s, runAlt (exactMatrix 2 reduceGarbageMat) selfPartial.T.isId selfPartial.opEq selfPartial.schA
    (altCheck true selfPartial.G.closeG selfPartial.T.close selfPartial.T.wOne 2 selfPartial.qc1 selfPartial.qc2) (fun _ => false) .noInformation
    selfPartial.qc1 selfPartial.qc2 (altInit (exactMatrix 2 reduceGarbageMat) 1 2 selfPartial.qc1 selfPartial.qc2)
    (groupedQC.ops.length + groupedQC.ops.length + 2) = .ok (.equivalent, s) := by
  obtain ⟨v, s, h, hv⟩ := lock_run grouped_runnable.wired grouped_numbered grouped_numbered reduceGarbageMat (idealTests 2).isId ideal_id exactOpEq
    (fun a _ => exactOpEq_self _) oneToOneScheme (altCheck true (idealGarbageTest 2).closeG (idealTests 2).close (idealTests 2).wOne 2 groupedQC groupedQC)
    (fun _ => false) (fun _ _ _ h => h) .noInformation _ (Nat.le_refl _)
  rw [← grouped_init reduceGarbageMat] at h
  rcases hv with ⟨h0, _⟩ | rfl
  · cases h0
  · have e : altCheck true (idealGarbageTest 2).closeG (idealTests 2).close (idealTests 2).wOne 2 groupedQC groupedQC 1 = .equivalent := by
      have hg : (idealGarbageTest 2).closeG (altGarbage 2 groupedQC.garbage groupedQC.garbage) 1 = true := by
        rw [(idealGarbageTest 2).closeG_iff]
        intro x y hxy q _
        by_contra hne
        exact hxy (Matrix.one_apply_ne fun e => hne (congrFun e q))
      have h1 := verdict_one (idealTests 2)
      unfold altVerdict at h1
      unfold altCheck altVerdict
      rw [if_pos rfl, hg, if_pos rfl]
      by_cases hw : (idealTests 2).wOne 1 = true
      · rw [if_pos hw]
      · rw [if_neg hw] at h1
        split at h1 <;> cases h1
    rw [e] at h
    exact ⟨s, h⟩

theorem grouped_partial_run : SharpCalmPManagerRun VerifyWitness.plain grouped grouped selfCfg [] .equivalent := by
  let env := testEnv (fun _ => some .noInformation) (.returns .equivalent) (.returns .noInformation) (.returns .noInformation)
  have hm : mode env selfCfg = .sequential := rfl
  obtain ⟨s', hr, he⟩ : ∃ s', Mgr.run env 20 (State.fresh selfCfg) = some (.returned s') ∧ s'.results.equivalence = .equivalent := ⟨_, rfl, rfl⟩
  have hc : Prep.construct named nothingToDo selfCfg grouped grouped = .made { qc1 := grouped, qc2 := grouped, cfg := selfCfg } := rfl
  refine ⟨nothing_faithful _, _, hc, 2, 2, rfl, selfPartial, count, count, grouped_numbered, grouped_numbered,
    ⟨fun _ => by decide, fun _ => trivial⟩, ?_, fun a _ _ => exactOpEq_self _, ideal_id, ?_⟩
  · intro a ha b hb _
    simp only [grouped, List.mem_cons, List.not_mem_nil, or_false] at ha hb
    rw [ha, hb]
  · rw [← he]
    have h0 : ¬ selfCfg.execution.timeout > 0 := fun h => absurd h (lt_irrefl (0 : ℚ))
    refine .sequential env 20 s' hm h0 hr ?_
    rintro ⟨k, v⟩ h hen
    cases k
    · cases hen
    · cases h
      obtain ⟨s, hs⟩ := grouped_partial_check
      exact .alternating (S := selfPartial) (fun _ => false) (fun _ _ _ h => h) (fun _ _ => rfl) _ (Nat.le_refl _) _ s hs
    · cases hen
    · cases hen

theorem knowing_partial {P : Circ WOp → Circ WOp → Configuration → List Param.Setter → Criterion → Prop} {x y : Circ WOp} {cfg : Configuration} {r : Param.Res}
    (h : P x y cfg [] r.equivalence) : PManagersDo P (VerifyPartialWitness.imp x y) (knowing cfg r) := by
  intro k c s x' y' r' d1 d2 hp h1 h2 hk
  simp only [knowing] at hk
  split at hk
  · rename_i hh
    obtain ⟨rfl, rfl, rfl, rfl⟩ := hh
    simp only [VerifyPartialWitness.imp, VerifyWitness.a, VerifyWitness.b, Option.some.injEq] at h1 h2
    subst h1 h2
    cases hk
    exact h
  · exact absurd hk (by simp)

/-- `verify(a, b, configuration)` with such managers. -/
theorem partlyCalledWith {P : Circ WOp → Circ WOp → Configuration → List Param.Setter → Criterion → Prop} {x y : Circ WOp} {cfg : Configuration} {v : Criterion}
    (h : P x y cfg [] v) (hp : cfg.functionality.checkPartialEquivalence = true) : PartlyCalledWith P conv x y cfg v := by
  refine ⟨cfg, VerifyPartialWitness.imp x y, knowing cfg { equivalence := v }, knowing_partial h, VerifyWitness.a, VerifyWitness.b, { equivalence := v },
    .verify (some cfg) [] List.nodup_nil ?_ ?_ rfl, hp, by simp [Symbolic, VerifyWitness.a], by simp [Symbolic, VerifyWitness.b], rfl, rfl, rfl⟩
  · simp only [verifyCall, verifyConfig, augment, Option.getD_some, checkWith, knowing_verify]
  · intro k o f _
    simp [Asked]

/-- **C89**: the hypotheses of `check_partial_self` are met, by a circuit with a SWAP inside a compound operation (a circuit of the kind that can mislead
the alternating checker, cf. `SelfCheckWitness.self_met`). -/
theorem partial_self_met : PartlyCalledWith (SharpCalmPManagerRun VerifyWitness.plain) conv grouped grouped selfCfg .equivalent ∧ Runnable grouped ∧
    (∀ q, grouped.isAncillary q = false) ∧ selfCfg.execution.runAlternatingChecker = true ∧ ¬ selfCfg.application.alternatingScheme = .lookahead := by
  refine ⟨partlyCalledWith grouped_partial_run rfl, grouped_runnable, fun q => ?_, rfl, by decide⟩
  rcases q with _ | _ | q <;> rfl

end QCEC.Props.SelfCheckPartialWitness
