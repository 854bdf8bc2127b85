import Verif.Props.VerifyRoundingPartial
import Verif.Props.VerifyPartialDecidesWitness
import Verif.Props.VerifyRoundingWitness
import Verif.Props.EndToEndRoundingPartialWitness
/-!
# C94: the hypotheses can be met

The files of `VerifyPartialDecidesWitness` with a package that makes every product and every reduction too large by one millionth.
-/
namespace QCEC.Props.VerifyRoundingPartialWitness
open QCEC QCEC.DD QCEC.Param QCEC.Mgr QCEC.Prep QCEC.Gen QCEC.Spec QCEC.Spec.Wide QCEC.Spec.ZX QCEC.Wide QCEC.Sem QCEC.Spec.Param QCEC.Props
open QCEC.Props.PreparationWitness QCEC.Props.VerifyPartialWitness QCEC.Props.Inexactly QCEC.Props.RoundingPartialCases

/-- Two circuits with a rounding package. -/
noncomputable def base (qa qb : QC 2) (wa : WellFormed qa 1) (wb : WellFormed qb 1) : Inexact 2 2 :=
  { pair qa qb wa wb with
    bV := reducingVector 2 (1 / 10 ^ 6)
    roundV := reducingVector_eq_rounded }

/-- The same with garbage. -/
noncomputable def gpair (qa qb : QC 2) (wa : WellFormed qa 1) (wb : WellFormed qb 1) (hg : (base qa qb wa wb).SameGarbage) : InexactPartial 2 2 :=
  { base qa qb wa wb with
    G := sharpGarbage 2 (1 / 1000)
    roundG := reducingVector_garbage 2 (by norm_num)
    garbage := hg }

variable {qa qb : QC 2} {wa : WellFormed qa 1} {wb : WellFormed qb 1}

theorem gpair_safe (hg : (base qa qb wa wb).SameGarbage) : (gpair qa qb wa wb hg).Unmistaken :=
  ⟨fun _ => (CancelSafe.disjoint fun _ _ _ _ => rfl).nearSafe _, fun h => absurd trivial h⟩

theorem gpair_drift (ha : cost qa = 2) (hb : cost qb = 2 ∨ cost qb = 3) : (base qa qb wa wb).drift ≤ 1 / 100 := by
  show 1 / 1000 + ((1 + 0) * (1 + 1 / 10 ^ 6) ^ (cost qa + cost qb + 4) - 1) ≤ 1 / 100
  rcases hb with h | h <;> rw [ha, h] <;> norm_num

theorem gpair_budget (hg : (base qa qb wa wb).SameGarbage) (ha : cost qa = 2) (hb : cost qb = 2 ∨ cost qb = 3) : (gpair qa qb wa wb hg).ReducedBudget := by
  refine ⟨?_, ?_⟩
  · show accumulated (1 / 10 ^ 6) 0 (cost qa + cost qb + 1) ≤ 1 / 1000
    unfold accumulated
    rcases hb with h | h <;> rw [ha, h] <;> norm_num
  · show 2 * reducedOverlapError (1 / 10 ^ 6) 0 0 qa qb + reducedOverlapError (1 / 10 ^ 6) 0 0 qa qb ^ 2 < 1 / 1000
    unfold reducedOverlapError accumulated
    rcases hb with h | h <;> rw [ha, h] <;> norm_num

theorem gpair_alternating (hg : (base qa qb wa wb).SameGarbage) : ∃ c, PRAnswer (gpair qa qb wa wb hg) true .alternating c := by
  obtain ⟨v, s, hr, _⟩ := alternating_rounded_outcome (b := scaledMatrix 2 (1 / 10 ^ 6)) (δ := 1) zero_le_one
    (scaledMatrix_rounded 2 (by norm_num)) qa qb 1 1 wa wb
    (tests 2 (1 / 1000)).isId (tests 2 (1 / 1000)).isId_sound (fun _ _ => false) (.counts oneToOneScheme)
    (.counts _ ⟨oneToOneConfigured _ _⟩) (altCheck true (sharpGarbage 2 (1 / 1000)).closeG (tests 2 (1 / 1000)).close (tests 2 (1 / 1000)).wOne 2
      qa qb) (fun _ => false) (fun _ _ _ h => h)
    .noInformation (altInit (scaledMatrix 2 (1 / 10 ^ 6)) 1 2 qa qb) (altInit (scaledMatrix 2 (1 / 10 ^ 6)) 1 2 qa qb)
    (fun _ => (CancelSafe.disjoint fun _ _ _ _ => rfl).nearFrom _ _) (by
      have e : altInit (scaledMatrix 2 (1 / 10 ^ 6)) 1 2 qa qb = ancProj (altAncillary 2 qa.ancillary qb.ancillary) := by
        simp [altInit, scaledMatrix, exactMatrix, reduceAncillae]
      rw [e]; exact stretch_ancProj _)
    (by rw [sub_self]; intro v; simpa [nrm_zero] using nrm_nonneg v) _ (Nat.le_refl _)
  exact ⟨v, .alternating (S := gpair qa qb wa wb hg) (fun _ => false) (fun _ _ _ h => h) (fun _ _ => rfl) _ (Nat.le_refl _) v s hr⟩

theorem gpair_simulation (hg : (base qa qb wa wb).SameGarbage) : ∃ c, PRAnswer (gpair qa qb wa wb hg) true .simulation c := by
  let S := gpair qa qb wa wb hg
  let x : Basis 2 → ℂ := fun z => ∏ q : Fin 2, amp (((drawBases zeros (checkerReq 2 2 .random1QBasis).random (Generator.new zeros 1 []).mt).1 ++
    List.replicate ((checkerReq 2 2 .random1QBasis).total - (checkerReq 2 2 .random1QBasis).random) Basis1.zero).getD q.val .zero) (z q)
  obtain ⟨s, h | h⟩ := runTwo_spec S.bV oneToOneScheme true
    (equalsVector S.V.ptrEq S.V.wEq S.V.realClose S.V.fidClose) (fun _ => false) (fun _ _ _ h => h) .noInformation qa qb
    (oneToOneConfigured qa qb).good x x _ (Nat.le_refl _)
  · exact absurd h.1 (by simp)
  · exact ⟨_, .simulation (S := S) _ ⟨zeros, Generator.new zeros 1 [], _, _, x, x, fun _ => false, _, s, .product _ _ rfl, .product _,
      by show nrm (x - x) ≤ 0; rw [sub_self, nrm_zero], fun _ _ _ h => h, fun _ _ => rfl, Nat.le_refl _, h.2.1⟩⟩

/-- An uninterrupted run of a manager for `X(0)` and another circuit, with a rounding package. -/
theorem rpcalm_run_exists {b rb : Circ WOp} (wb : WellFormed qb 1) (hg : (base keepX qb keepX_wf wb).SameGarbage)
    (nb : Numbered count rb qb) (hb : cost qb = 2 ∨ cost qb = 3)
    (h : Prep.construct named nothingToDo (pcfg 16) g1 b = .made { qc1 := h1, qc2 := rb, cfg := pcfg 4 }) :
    ∃ v, RPCalmManagerRun VerifyWitness.plain g1 b (pcfg 16) [] (1 / 100) True v ∧
      (v = .equivalent ∨ v = .equivalentUpToGlobalPhase ∨ v = .notEquivalent) ∧
      (PartiallyEquivalent (gpair keepX qb keepX_wf wb hg).unread ((gpair keepX qb keepX_wf wb hg).bothAnc true) keepX 1 qb 1 → v ≠ .notEquivalent) ∧
      (¬ PartiallyWithin (4 * (base keepX qb keepX_wf wb).drift) (gpair keepX qb keepX_wf wb hg).unread
        ((gpair keepX qb keepX_wf wb hg).someAnc false) keepX 1 qb 1 → v = .notEquivalent) := by
  obtain ⟨ca, hca⟩ := gpair_alternating hg
  obtain ⟨cs, hcs⟩ := gpair_simulation hg
  let env := testEnv (fun _ => some cs) (.returns ca) (.returns .noInformation) (.returns .noInformation)
  have hm : mode env (pcfg 4) = .sequential := by simp [env, mode, testEnv, pcfg, testCfg, Configuration.anythingToExecute]
  have hans : ∀ e : Mgr.Event, FromEnv env e → Enabled (pcfg 4) e.kind → PRAnswer (gpair keepX qb keepX_wf wb hg) true e.kind e.verdict := by
    rintro ⟨k, v⟩ he hen
    cases k
    · obtain ⟨_, h⟩ := he
      cases h; exact hcs
    · cases he; exact hca
    · cases hen
    · cases hen
  obtain ⟨s', hr, h3, h4, h5⟩ := rounded_partial_sequential_decides (gpair keepX qb keepX_wf wb hg) (env := env) (fuel := 20)
    (s := State.fresh (pcfg 4)) (gpair_safe hg) hm (by simp [CountersOk, State.fresh]) (by simp [State.fresh, pcfg, testCfg])
    (by simp [State.fresh, pcfg, testCfg]) rfl (by simp [State.fresh, pcfg, testCfg, Enabled])
    (by rintro (⟨_, h | ⟨k, h⟩⟩ | ⟨_, h | h⟩ | ⟨h, _⟩ | ⟨h, _⟩) <;> cases h) hans
  have hbud := gpair_budget hg rfl hb
  have hidle : (gpair keepX qb keepX_wf wb hg).OneIdle := Or.inl fun q hq => by
    have : ([] : List Bool).getD q.val false = true := hq
    simp at this
  let Q : RPPrepared VerifyWitness.plain g1 b (pcfg 16) (1 / 100) True :=
    { hP := nothing_faithful _
      M := { qc1 := h1, qc2 := rb, cfg := pcfg 4 }
      made := h
      n := 2
      S := base keepX qb keepX_wf wb
      G := sharpGarbage 2 (1 / 1000)
      roundG := reducingVector_garbage 2 (by norm_num)
      e1 := count
      e2 := count
      hn1 := gNumbered1
      hn2 := nb
      drift := gpair_drift rfl hb
      hsch := ⟨fun _ => by show SchemeType.proportional ≠ _; decide, fun _ => trivial⟩
      hop := fun _ _ _ _ h => absurd h (by simp [base, pair])
      budget := fun _ _ => hbud }
  exact ⟨s'.results.equivalence, ⟨Q, fun _ => .sequential env 20 s' hm (fun h => absurd h (lt_irrefl (0 : ℚ))) hr hans⟩, h3, h4 hbud hidle, h5⟩

theorem knowing_rpcalm {x y : Circ WOp} {cfg : Configuration} {r : Param.Res} (h : RPCalmManagerRun lib x y cfg [] (1 / 100) True r.equivalence) :
    RPCalmRealises lib (imp x y) (knowing cfg r) (1 / 100) True := by
  intro k c s x' y' r' d1 d2 hp h1 h2 hk
  simp only [knowing] at hk
  split at hk
  · rename_i hh
    obtain ⟨rfl, rfl, rfl, rfl⟩ := hh
    simp only [imp, VerifyWitness.a, VerifyWitness.b, Option.some.injEq] at h1 h2
    subst h1 h2
    cases hk
    exact h
  · exact absurd hk (by simp)

theorem rpcalm_realises {imp : Subject → Option (Circ WOp)} {w : World} {d : ℝ} {small : Prop} (h : RPCalmRealises plain imp w d small) :
    RPRealises plain imp w d small := fun k cfg s x y res c1 c2 hp h1 h2 h3 => rpcalm_manager_run (h k cfg s x y res c1 c2 hp h1 h2 h3)

/-- `X(0)` and `X(1)` are told apart by measuring qubit 0. -/
theorem far (g : List Bool) (h0 : g.getD 0 false = false) : ¬ PartiallyWithin (9 / 10) g [] keepX 1 garbageX 1 := by
  intro h
  have key := h ket00 (fun x _ q hq => by simp at hq) (by simp [Normalised, Spec.inner, ket00])
    (Finset.univ.filter fun x => x 0 = true) (fun x y hxy => by
      simp only [Finset.mem_filter, Finset.mem_univ, true_and]
      rw [hxy 0 h0])
  have e1 : likelihood (Finset.univ.filter fun x : Basis 2 => x 0 = true) (Spec.output keepX 1 ket00) = 1 := by
    unfold likelihood
    rw [Finset.sum_eq_single (fun q : Fin 2 => decide (q = 0))]
    · rw [keepX_output, ket00, if_pos (by decide)]; norm_num
    · intro x _ hx
      rw [keepX_output, ket00, if_neg (by revert x; decide)]; norm_num
    · intro hx; exact absurd (by decide) hx
  have e2 : likelihood (Finset.univ.filter fun x : Basis 2 => x 0 = true) (Spec.output garbageX 1 ket00) = 0 := by
    unfold likelihood
    refine Finset.sum_eq_zero fun x hx => ?_
    have : x 0 = true := by simpa using hx
    rw [garbageX_output, ket00, if_neg (fun he => by have := congrFun he 0; simp_all)]; norm_num
  rw [e1, e2] at key
  norm_num at key

/-- The partially equivalent circuits do not lead the alternating checker astray. -/
theorem partial_not_misled (d : ℝ) : ¬ NearlyMisled VerifyWitness.plain g1 g2 (pcfg 16) [] d := by
  rintro ⟨M, _, hm, _, h⟩
  have made : Prep.construct named nothingToDo (pcfg 16) g1 g2 = .made { qc1 := h1, qc2 := h2, cfg := pcfg 4 } := rfl
  have hm : Prep.construct named nothingToDo (pcfg 16) g1 g2 = .made M := hm
  rw [made] at hm
  injection hm with hm
  subst hm
  rcases h with ⟨_, _, p1, p2, o, t1, t2, e1, e2, hs, _, hx⟩ | ⟨h, _⟩ | ⟨⟨q, hq, a, _⟩, _⟩
  · have e1 : [wX 0] = p1 ++ o :: t1 := e1
    have e2 : [wX 0, wX 2] = p2 ++ o :: t2 := e2
    have q1 : p1 = [] ∧ o = wX 0 := by
      rcases p1 with _ | ⟨a, p1⟩
      · simp only [List.nil_append, List.cons.injEq] at e1
        exact ⟨rfl, e1.1.symm⟩
      · have := congrArg List.length e1
        simp at this
    obtain ⟨rfl, rfl⟩ := q1
    have q2 : p2 = [] := by
      rcases p2 with _ | ⟨a, p2⟩
      · rfl
      · simp only [List.cons_append, List.cons.injEq] at e2
        have hmem : wX 0 ∈ [wX 2] := by rw [e2.2]; simp
        have : wX 0 = wX 2 := List.mem_singleton.1 hmem
        have hn : (wX 2).Names 0 := by rw [← this]; exact ⟨_, List.mem_singleton.2 rfl, Or.inl ⟨0, rfl⟩⟩
        have := wX_names hn
        omega
    subst q2
    rcases hx with ⟨_, a, b, h⟩ | ⟨p, _, h⟩
    · simp [wX, WOp.parts] at h
    · exact h rfl
  · cases h
  · have : ∀ q, q < 2 → ¬ h1.isAncillary q = true := by decide
    exact this q hq a

theorem used_runs {c1 c2 : Circ WOp} {cfg : Configuration} {setters : List Param.Setter} (h : ConstructionUsed lib c1 c2 cfg setters) :
    ConstructionRuns lib c1 c2 cfg setters := by
  obtain ⟨M, hP, hm, hc⟩ := h
  exact ⟨M, fun p hp => (hP p hp).1, hm, hc⟩

/-- **C94**: the hypotheses of `verify_verdict_rounded_partial` and `verify_rounded_partial_decides` are met by worlds in which `verify` finds `X(0)` and
`X(0) X(2)`, of which qubit 2 is not measured, equivalent, and `X(0)` and `X(2)` not. -/
theorem rounded_partial_verify_runs : ∃ w w' res res', RPCalmRealises VerifyWitness.plain (imp g1 g2) w (1 / 100) True ∧
    RPRealises VerifyWitness.plain (imp g1 g2) w (1 / 100) True ∧
    Param.verify w (pcfg 16) VerifyWitness.a VerifyWitness.b = .ok res ∧ (res.equivalence = .equivalent ∨ res.equivalence = .equivalentUpToGlobalPhase) ∧
    RPCalmRealises VerifyWitness.plain (imp g1 g3) w' (1 / 100) True ∧ Param.verify w' (pcfg 16) VerifyWitness.a VerifyWitness.b = .ok res' ∧
    res'.equivalence = .notEquivalent ∧ SameGarbage g1 g2 ∧ SameGarbage g1 g3 ∧ SameAncillas g1 g2 ∧ SameAncillas g1 g3 ∧ AncillasLast g1 ∧
    Enabled (pcfg 16) .alternating ∧ (pcfg 16).functionality.checkPartialEquivalence = true ∧ Runnable g1 ∧ Runnable g2 ∧ Runnable g3 ∧
    ¬ ConstructionUsed VerifyWitness.plain g1 g2 (pcfg 16) [] ∧ ¬ ConstructionUsed VerifyWitness.plain g1 g3 (pcfg 16) [] ∧
    ¬ CommonAncillasUsed VerifyWitness.plain g1 g2 (pcfg 16) [] ∧ ¬ CommonAncillasUsed VerifyWitness.plain g1 g3 (pcfg 16) [] ∧
    ¬ NearlyMisled VerifyWitness.plain g1 g2 (pcfg 16) [] (1 / 100) := by
  have hg2 : (base keepX bothX keepX_wf bothX_wf).SameGarbage := fun _ => Or.inl rfl
  have hg3 : (base keepX garbageX keepX_wf garbageX_wf).SameGarbage := fun _ => Or.inl rfl
  obtain ⟨v, hv, h3, h4, _⟩ := rpcalm_run_exists (b := g2) bothX_wf hg2 gNumbered2 (Or.inr rfl) rfl
  obtain ⟨v', hv', h3', _, h5⟩ := rpcalm_run_exists (b := g3) garbageX_wf hg3 gNumbered3 (Or.inl rfl) rfl
  have he : v = .equivalent ∨ v = .equivalentUpToGlobalPhase := by
    have := h4 ((partially_congr (fun q => by rw [prUnread_get]; exact Bool.and_self _)
      (fun _ => rfl) _ _ _ _).2 (keepX_partially_bothX _))
    rcases h3 with h | h | h
    · exact Or.inl h
    · exact Or.inr h
    · exact absurd h this
  have he' : v' = .notEquivalent := by
    refine h5 fun hp => far [false, true] rfl (partiallyWithin_covers (g := (gpair keepX garbageX keepX_wf garbageX_wf hg3).someAnc false) ?_ ?_
      (partiallyWithin_congr (fun q => by rw [prUnread_get]; exact Bool.and_self _) hp))
    · intro q hq
      rw [Inexact.someAnc, marks_get] at hq
      simp [gpair, base, pair, keepX, garbageX] at hq
    · have := gpair_drift (wa := keepX_wf) (wb := garbageX_wf) rfl (Or.inl rfl)
      linarith
  subst he'
  have no : ∀ q, g1.isAncillary q = false := VerifyPartialDecidesWitness.g_none
  refine ⟨_, _, { equivalence := v }, { equivalence := .notEquivalent }, knowing_rpcalm hv, rpcalm_realises (knowing_rpcalm hv), knowing_verify _ _, he,
    knowing_rpcalm hv', knowing_verify _ _, rfl, fun _ _ _ => rfl, fun _ _ _ => rfl, fun _ _ _ => rfl, fun _ _ _ => rfl, last_of_none no, rfl, rfl,
    gr1, gr2, gr3, ?_, ?_, ?_, ?_, partial_not_misled _⟩
  · exact fun h => construction_not_used gr1 gr2 rfl (fun q _ e => by rw [no] at e; cases e) (by simp [Enabled, pcfg, testCfg]) (used_runs h)
  · exact fun h => construction_not_used gr1 gr3 rfl (fun q _ e => by rw [no] at e; cases e) (by simp [Enabled, pcfg, testCfg]) (used_runs h)
  · exact common_not_used gr1 gr2 (fun q _ _ h => by rw [no] at h; cases h.1) _ _
  · exact common_not_used gr1 gr3 (fun q _ _ h => by rw [no] at h; cases h.1) _ _

end QCEC.Props.VerifyRoundingPartialWitness
