import Verif.Props.VerifyDecides
import Verif.Props.VerifyEndToEndPartialWitness
/-!
# C81: a `verify()` that nobody interrupts
-/
namespace QCEC.Props.VerifyDecidesWitness
open QCEC QCEC.Param QCEC.Mgr QCEC.Prep QCEC.Spec QCEC.Spec.Wide QCEC.Spec.ZX QCEC.Wide QCEC.Sem QCEC.Spec.Param QCEC.Props QCEC.Props.PreparationWitness
open QCEC.Props.VerifyWitness QCEC.Props.VerifyPartialWitness

/-- An uninterrupted run for two prepared circuits; its verdict decides their equivalence. -/
theorem calm_run_exists {a b ra rb : Circ WOp} {qa qb : QC 2} (wa : WellFormed qa 1) (wb : WellFormed qb 1)
    (aa : qa.ancillary = []) (ab : qb.ancillary = []) (na : Numbered count ra qa) (nb : Numbered count rb qb) (hd : ra.ndata = 2)
    (h : Prep.construct named nothingToDo VerifyWitness.cfg a b = .made { qc1 := ra, qc2 := rb, cfg := testCfg true true true false 4 0 }) :
    ∃ v, CalmManagerRun plain a b VerifyWitness.cfg [] v ∧ Correct v (flags 2 2) qa 1 qb 1 := by
  obtain ⟨env, hm, hans, s', hr, hc⟩ := sequential_run_exists 4 (by decide) (settingOf qa qb wa wb aa ab) rfl (fun q hq => absurd q.isLt (by omega))
  refine ⟨s'.results.equivalence, ⟨fun p _ c hc => ⟨hc, rfl, fun _ => rfl, fun _ _ => rfl⟩, _, h, 2, 2, hd,
    (settingOf qa qb wa wb aa ab).mixed, count, count, na, nb, ⟨fun _ => by simp [testCfg], fun _ => trivial⟩, fun _ _ _ _ h => Bool.noConfusion h, ?_⟩, hc⟩
  have h0 : ¬ (testCfg true true true false 4 0).execution.timeout > 0 := fun h => absurd h (lt_irrefl (0 : ℚ))
  refine .sequential env 20 s' hm h0 hr fun e he hen => answer_mixed _ (hans e he ?_)
  intro hk
  rw [hk] at hen
  exact absurd hen (by simp [Enabled, afterSetters, testCfg])

theorem knowing_calm {x y : Circ WOp} {cfg : Configuration} {r : Param.Res} (h : CalmManagerRun lib x y cfg [] r.equivalence) :
    CalmRealises lib (VerifyPartialWitness.imp x y) (knowing cfg r) := by
  intro k c s x' y' r' d1 d2 hp h1 h2 hk
  simp only [knowing] at hk
  split at hk
  · rename_i hh
    obtain ⟨rfl, rfl, rfl, rfl⟩ := hh
    simp only [VerifyPartialWitness.imp, VerifyWitness.a, VerifyWitness.b, Option.some.injEq] at h1 h2
    subst h1 h2
    cases hk
    exact h
  · exact absurd hk (by simp)

/-- **C81**: the hypotheses of `verify_decides` are met by worlds in which `verify` finds two different files with equivalent circuits equivalent, and two
with different circuits not equivalent. -/
theorem verify_decides_both : ∃ w w' res res', CalmRealises plain (VerifyPartialWitness.imp c1 c2) w ∧ Param.verify w VerifyWitness.cfg a b = .ok res ∧
    res.equivalence = .equivalent ∧ CalmRealises plain (VerifyPartialWitness.imp c1 c3) w' ∧ Param.verify w' VerifyWitness.cfg a b = .ok res' ∧
    res'.equivalence = .notEquivalent ∧ SameAncillas c1 c2 ∧ SameAncillas c1 c3 ∧ AncillasLast c1 ∧
    Enabled VerifyWitness.cfg .alternating ∧ VerifyWitness.cfg.functionality.checkPartialEquivalence = false ∧ Runnable c1 ∧ Runnable c2 ∧ Runnable c3 := by
  obtain ⟨v, hv, hc⟩ := calm_run_exists (a := c1) (b := c2) swapXswap_wf justX1_wf rfl rfl numbered1 numbered2 rfl rfl
  obtain ⟨v', hv', hc'⟩ := calm_run_exists (a := c1) (b := c3) swapXswap_wf justX_wf rfl rfl numbered1 numbered3 rfl rfl
  have he : v = .equivalent := hc.equivalent.2 fun x _ => swapXswap_same_justX1 x (fun _ _ q hq => by simp at hq)
  have he' : v' = .notEquivalent := by
    rw [hc'.notEquivalent]
    rintro ⟨c, h1, h2⟩
    exact swapXswap_ne_justX ⟨c, h1, fun x _ => h2 x (fun _ _ q hq => by
      have : q.val = 0 ∨ q.val = 1 := by omega
      rcases this with e | e <;> simp [flags, e] at hq)⟩
  subst he he'
  refine ⟨_, _, { equivalence := .equivalent }, { equivalence := .notEquivalent }, knowing_calm hv, knowing_verify _ _, rfl, knowing_calm hv',
    knowing_verify _ _, rfl, ?_, ?_, ?_, rfl, rfl, runnable1, runnable2, runnable3'⟩
  · intro q h _
    have : q = 0 ∨ q = 1 ∨ q = 2 := by have : q < 3 := h; omega
    rcases this with rfl | rfl | rfl <;> rfl
  · intro q h _
    have : q = 0 ∨ q = 1 ∨ q = 2 := by have : q < 3 := h; omega
    rcases this with rfl | rfl | rfl <;> rfl
  · intro q q' _ h e
    have : q = 0 ∨ q = 1 ∨ q = 2 := by have : q' < 3 := h; omega
    rcases this with rfl | rfl | rfl <;> exact absurd e (by decide)

end QCEC.Props.VerifyDecidesWitness
