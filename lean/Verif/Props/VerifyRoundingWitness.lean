import Verif.Props.VerifyRounding
import Verif.Props.VerifyDecidesWitness
import Verif.Props.EndToEndRoundingWitness
/-!
# C87: the hypotheses can be met

The files of `VerifyDecidesWitness` with the package of `EndToEndRoundingWitness`, which makes every product too large by one millionth.
-/
namespace QCEC.Props.VerifyRoundingWitness
open QCEC QCEC.Param QCEC.Mgr QCEC.Prep QCEC.Spec QCEC.Spec.Wide QCEC.Spec.ZX QCEC.Wide QCEC.Sem QCEC.Spec.Param QCEC.Props QCEC.Props.PreparationWitness
open QCEC.Props.VerifyWitness QCEC.Props.VerifyPartialWitness QCEC.Props.Inexactly

/-- Simulations and the alternating checker. -/
def cfg : Configuration := testCfg true true false false 16 0

/-- An uninterrupted run for two prepared circuits, with a rounding package. -/
theorem rcalm_run_exists {a b ra rb : Circ WOp} {qa qb : QC 2} (wa : WellFormed qa 1) (wb : WellFormed qb 1)
    (aa : qa.ancillary = []) (na : Numbered count ra qa) (nb : Numbered count rb qb) (hd : ra.ndata = 2) (c1 : cost qa = 5) (c2 : cost qb = 3)
    (h : Prep.construct named nothingToDo cfg a b = .made { qc1 := ra, qc2 := rb, cfg := testCfg true true false false 4 0 }) :
    ∃ v, RCalmManagerRun plain a b cfg [] (1 / 100) True v ∧ RMeaning (pair qa qb wa wb) (testCfg true true false false 4 0) v ∧
      (v = .equivalent ∨ v = .equivalentUpToGlobalPhase ∨ v = .notEquivalent) := by
  obtain ⟨ca, hca⟩ := alternating_answer qa qb wa wb aa
  obtain ⟨cs, hcs⟩ := simulation_answer qa qb wa wb
  obtain ⟨hB, hdr⟩ := budget qa qb wa wb c1 c2
  generalize henv : testEnv (fun _ => some cs) (.returns ca) (.returns .noInformation) (.returns .noInformation) = env
  have hm : mode env (testCfg true true false false 4 0) = .sequential := by
    subst henv
    simp [mode, testEnv, testCfg, Configuration.anythingToExecute]
  have hans : ∀ e : Mgr.Event, FromEnv env e → Enabled (testCfg true true false false 4 0) e.kind → RAnswer (pair qa qb wa wb) true e.kind e.verdict := by
    subst henv
    rintro ⟨k, v⟩ he hen
    cases k
    · obtain ⟨_, h⟩ := he
      cases h; exact hcs
    · cases he; exact hca
    · cases hen
    · cases hen
  obtain ⟨s', hr, hmean, h3⟩ := rounded_sequential_decides (pair qa qb wa wb) (env := env) (fuel := 20)
    (s := State.fresh (testCfg true true false false 4 0)) (fun _ => pair_safe _ _ _ _ (by rw [aa]; simp)) hm (by simp [CountersOk, State.fresh]) (by simp [State.fresh, testCfg])
    (by simp [State.fresh, testCfg]) (Or.inl rfl)
    (by subst henv; rintro (⟨_, h | ⟨k, h⟩⟩ | ⟨_, h | h⟩ | ⟨h, _⟩ | ⟨h, _⟩) <;> cases h) hans
  refine ⟨_, ⟨fun p _ c hc => ⟨hc, rfl, fun _ => rfl, fun _ _ => rfl⟩, _, h, 2, 2, hd, pair qa qb wa wb,
    count, count, na, nb, hdr, fun _ => hB, ⟨fun _ => by simp [testCfg], fun _ => trivial⟩, fun _ _ _ _ h => absurd h (by simp [pair]), ?_⟩, hmean, h3⟩
  exact .sequential env 20 s' hm (fun h => absurd h (lt_irrefl (0 : ℚ))) hr hans

theorem knowing_rcalm {x y : Circ WOp} {cfg : Configuration} {r : Param.Res} (h : RCalmManagerRun lib x y cfg [] (1 / 100) True r.equivalence) :
    RCalmRealises lib (VerifyPartialWitness.imp x y) (knowing cfg r) (1 / 100) True := by
  intro k c s x' y' r' d1 d2 hp h1 h2 hk
  simp only [knowing] at hk
  split at hk
  · rename_i hh
    obtain ⟨rfl, rfl, rfl, rfl⟩ := hh
    simp only [VerifyPartialWitness.imp, VerifyWitness.a, VerifyWitness.b, Option.some.injEq] at h1 h2
    subst h1 h2
    cases hk
    exact h
  · exact absurd hk (by simp)

theorem rcalm_realises {imp : Subject → Option (Circ WOp)} {w : World} {d : ℝ} {small : Prop} (h : RCalmRealises plain imp w d small) :
    RRealises plain imp w d small := fun k cfg s x y res c1 c2 hp h1 h2 h3 => rcalm_manager_run (h k cfg s x y res c1 c2 hp h1 h2 h3)

/-- The equivalent circuits do not lead the alternating checker astray. -/
theorem rounded_not_misled (d : ℝ) : ¬ NearlyMisled plain c1 c2 cfg [] d := by
  rintro ⟨M, _, hm, _, h⟩
  have made : Prep.construct named nothingToDo cfg c1 c2 = .made { qc1 := r1, qc2 := r2, cfg := testCfg true true false false 4 0 } := rfl
  have hm : Prep.construct named nothingToDo cfg c1 c2 = .made M := hm
  rw [made] at hm
  injection hm with hm
  subst hm
  rcases h with ⟨_, _, p1, p2, o, t1, t2, e1, e2, hs, _⟩ | ⟨h, _⟩ | ⟨⟨q, hq, a, _⟩, _⟩
  · have e1 : [.simple (.swap 0 2), wX 0, .simple (.swap 0 2)] = p1 ++ o :: t1 := e1
    have e2 : [wX 2] = p2 ++ o :: t2 := e2
    have o2 : o = wX 2 := by
      have : o ∈ [wX 2] := by rw [e2]; simp
      exact List.mem_singleton.1 this
    have o1 : o ∈ [.simple (.swap 0 2), wX 0, .simple (.swap 0 2)] := by rw [e1]; simp
    subst o2
    simp only [List.mem_cons, List.not_mem_nil, or_false] at o1
    rcases o1 with h | h | h
    · simp [wX] at h
    · have : (2 : Nat) = 0 := wX_names (p := 0) (by rw [← h]; exact ⟨_, List.mem_singleton.2 rfl, Or.inl ⟨0, rfl⟩⟩)
      omega
    · simp [wX] at h
  · cases h
  · have : ∀ q, q < 2 → ¬ r1.isAncillary q = true := by decide
    exact this q hq a

/-- **C87**: the hypotheses of `verify_verdict_rounded` and `verify_rounded_decides` are met by worlds in which `verify` finds two different files with
equivalent circuits equivalent, and two with different circuits not equivalent. -/
theorem rounded_verify_runs : ∃ w w' res res', RCalmRealises plain (VerifyPartialWitness.imp c1 c2) w (1 / 100) True ∧
    RRealises plain (VerifyPartialWitness.imp c1 c2) w (1 / 100) True ∧ Param.verify w cfg a b = .ok res ∧
    res.equivalence = .equivalent ∧ RCalmRealises plain (VerifyPartialWitness.imp c1 c3) w' (1 / 100) True ∧ Param.verify w' cfg a b = .ok res' ∧
    res'.equivalence = .notEquivalent ∧ SameAncillas c1 c2 ∧ SameAncillas c1 c3 ∧ AncillasLast c1 ∧
    Enabled cfg .alternating ∧ cfg.functionality.checkPartialEquivalence = false ∧ Runnable c1 ∧ Runnable c2 ∧ Runnable c3 ∧
    ¬ ConstructionRuns plain c1 c2 cfg [] ∧ ¬ ConstructionRuns plain c1 c3 cfg [] ∧ ¬ NearlyMisled plain c1 c2 cfg [] (1 / 100) := by
  obtain ⟨v, hv, hm, h3⟩ := rcalm_run_exists (a := c1) (b := c2) swapXswap_wf justX1_wf rfl numbered1 numbered2 rfl rfl rfl rfl
  obtain ⟨v', hv', hm', h3'⟩ := rcalm_run_exists (a := c1) (b := c3) swapXswap_wf justX_wf rfl numbered1 numbered3 rfl rfl rfl rfl
  obtain ⟨hB, hd⟩ := budget swapXswap justX1 swapXswap_wf justX1_wf rfl rfl
  obtain ⟨hB', hd'⟩ := budget swapXswap justX swapXswap_wf justX_wf rfl rfl
  have he : v = .equivalent := (rounded_verdict_separates _ hm h3 (by simp [Enabled, testCfg]) hB (le_trans hd (by norm_num))).1
    fun v _ => swapXswap_same_justX1 v (fun x _ q hq => by simp at hq)
  have he' : v' = .notEquivalent := (rounded_verdict_separates _ hm' h3' (by simp [Enabled, testCfg]) hB' (le_trans hd' (by norm_num))).2.2 (far_apart _)
  subst he he'
  have noAnc : ∀ q, q < c1.nqubits → c1.isAncillary q = true → False := by
    intro q h e
    have : q = 0 ∨ q = 1 ∨ q = 2 := by have : q < 3 := h; omega
    rcases this with rfl | rfl | rfl <;> exact absurd e (by decide)
  refine ⟨_, _, { equivalence := .equivalent }, { equivalence := .notEquivalent }, knowing_rcalm hv, rcalm_realises (knowing_rcalm hv), knowing_verify _ _,
    rfl, knowing_rcalm hv', knowing_verify _ _, rfl, ?_, ?_, ?_, rfl, rfl, runnable1, runnable2, runnable3',
    construction_not_used runnable1 runnable2 rfl (fun q h e => (noAnc q h e).elim) (by simp [Enabled, cfg, testCfg]),
    construction_not_used runnable1 runnable3' rfl (fun q h e => (noAnc q h e).elim) (by simp [Enabled, cfg, testCfg]), rounded_not_misled _⟩
  · intro q h _
    have : q = 0 ∨ q = 1 ∨ q = 2 := by have : q < 3 := h; omega
    rcases this with rfl | rfl | rfl <;> rfl
  · intro q h _
    have : q = 0 ∨ q = 1 ∨ q = 2 := by have : q < 3 := h; omega
    rcases this with rfl | rfl | rfl <;> rfl
  · intro q q' _ h e
    exact (noAnc q (by omega) e).elim

end QCEC.Props.VerifyRoundingWitness
