import Verif.Props.EndToEndParallel
import Verif.Props.EndToEndWitness
import Verif.Props.ParallelWitness
/-!
# C61, parallel runs: the hypotheses can be met, for every pair of circuits
-/
namespace QCEC.Props
open QCEC QCEC.DD QCEC.Sem QCEC.Gen QCEC.ZX QCEC.Spec QCEC.Spec.ZX QCEC.Mgr QCEC.Prep QCEC.Par Matrix

variable {m n : Nat}

/-- An execution in which everybody answers undisturbed. -/
theorem calm_of_steps {env quiet : ParEnv} (hle : Below quiet env) {a b : PState} (h : Steps quiet a b) : CalmSteps env quiet a b := by
  induction h with
  | refl => exact .refl _
  | tail _ hst ih => exact .tail ih (hle.step hst) fun _ => hst

/-- … continued in any way once the main thread has decided. -/
theorem calm_then {env quiet : ParEnv} {cfg : Configuration} {res : Results} {b c : PState}
    (h1 : CalmSteps env quiet (launch env.zxTransformable cfg res) b) (hd : b.done = true) (h2 : Steps env b c) :
    CalmSteps env quiet (launch env.zxTransformable cfg res) c := by
  suffices h : CalmSteps env quiet (launch env.zxTransformable cfg res) c ∧ c.done = true from h.1
  induction h2 with
  | refl => exact ⟨h1, hd⟩
  | tail _ hst ih =>
    rename_i x y _
    obtain ⟨hx, hdx⟩ := ih
    refine ⟨.tail hx hst fun h => by rw [hdx] at h; simp at h, ?_⟩
    have hbase : Base env cfg x := reachable_base (res := res) hx.steps
    have hw : x.main ≠ .wait := fun hm => by rw [hbase.ctl.wait hm] at hdx; simp at hdx
    rcases step_effect hst with ⟨_, _, _, ⟨h5, _⟩ | ⟨h5, _⟩⟩ | ⟨_, _, _, hm, _⟩
    · rw [h5, hdx]
    · exact absurd h5 hw
    · exact absurd hm hw

/-- Answers of the two checkers; `late` is what the construction checker says besides. -/
def twoAnswers (ca cc : Criterion) (late : List Criterion) : Kind → List Criterion
  | .alternating => [ca]
  | .construction => cc :: late
  | _ => []

/-- **C61** (parallel) is not vacuous: for every two circuits whose ancillary qubits are idle in one of them there is an execution of the
parallel flow in which the alternating checker answers first and the construction checker, still running, is interrupted and gives no
answer; it meets the hypotheses of `parallel_verdict_decides_pair`, and its verdict is the right one. -/
theorem decided_parallel_run_exists (S : Setting m n)
    (handled : ∀ q : Fin n, m ≤ q.val → Idle S.qc1 S.ω1 q ∨ Idle S.qc2 S.ω2 q) :
    ∃ (env quiet : ParEnv) (s : PState), quiet.zxTransformable = env.zxTransformable ∧ Below quiet env ∧
      env.may .construction .noInformation ∧
      (∀ k c, Enabled (parCfg false true true false 0 2 0) k → quiet.may k c → Answer S true k c) ∧
      (∀ k, Enabled (parCfg false true true false 0 2 0) k → ∃ c, quiet.may k c) ∧
      CalmSteps env quiet (launch env.zxTransformable (parCfg false true true false 0 2 0) {}) s ∧
      s.main = .ended .returned ∧ s.timedOut = false ∧
      Correct s.results.equivalence (flags m n) S.qc1 S.ω1 S.qc2 S.ω2 := by
  obtain ⟨ca, ha⟩ := exists_alternating S true handled
  obtain ⟨cc, hc⟩ := exists_construction S true
  have hca : ca = .equivalent ∨ ca = .equivalentUpToGlobalPhase ∨ ca = .notEquivalent := by
    have := answer_means S ha
    simp only [AnswerMeans, Bool.true_eq_false, false_and, false_or] at this
    exact correct_cases this
  let env := listEnv (twoAnswers ca cc [.noInformation]) fun _ => false
  let quiet := listEnv (twoAnswers ca cc []) fun _ => false
  have hle : Below quiet env := by
    refine ⟨?_, fun _ h => h, fun _ h => h⟩
    rintro k c h
    cases k <;> simp_all [env, quiet, listEnv, twoAnswers]
  have hans : ∀ k c, Enabled (parCfg false true true false 0 2 0) k → quiet.may k c → Answer S true k c := by
    rintro k c - h
    cases k <;> simp_all [quiet, listEnv, twoAnswers]
  have hends : ∀ k, Enabled (parCfg false true true false 0 2 0) k → ∃ c, quiet.may k c := by
    intro k hk
    cases k <;> simp_all [quiet, listEnv, twoAnswers, Enabled, parCfg]
  let ms1 : List Move := [.construct 0, .begin 0, .construct 1, .begin 1, .runReturns 0 ca, .push 0, .pop]
  let ms2 : List Move := [.runReturns 1 .noInformation, .push 1, .signal, .signal, .signal, .join]
  have key : ∃ b c, execAll (twoAnswers ca cc []) (fun _ => false) (launch true (parCfg false true true false 0 2 0) {}) ms1 = some b ∧
      b.done = true ∧ execAll (twoAnswers ca cc [.noInformation]) (fun _ => false) b ms2 = some c ∧
      c.main = .ended .returned ∧ c.timedOut = false := by
    rcases hca with rfl | rfl | rfl <;> cases cc <;> exact ⟨_, _, rfl, rfl, rfl, rfl, rfl⟩
  obtain ⟨b, c, h1, hd, h2, hm, ht⟩ := key
  have hrun : CalmSteps env quiet (launch env.zxTransformable (parCfg false true true false 0 2 0) {}) c :=
    calm_then (calm_of_steps hle (execAll_steps ms1 h1)) hd (execAll_steps ms2 h2)
  refine ⟨env, quiet, c, rfl, hle, by simp [env, listEnv, twoAnswers], hans, hends, hrun, hm, ht, ?_⟩
  exact parallel_verdict_decides_pair (env := env) (quiet := quiet) (cfg := parCfg false true true false 0 2 0) S rfl hrun hm ht (Or.inl rfl) (Or.inl (by simp [Enabled, parCfg])) hans

end QCEC.Props
