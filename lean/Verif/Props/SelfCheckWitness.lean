import Verif.Props.SelfCheck
import Verif.Props.RoutingWitness
/-!
# C85: a circuit checked against itself
-/
namespace QCEC.Props.SelfCheckWitness
open QCEC QCEC.DD QCEC.Param QCEC.Py QCEC.Mgr QCEC.Prep QCEC.Gen QCEC.Spec QCEC.Spec.Wide QCEC.Spec.ZX QCEC.Wide QCEC.Sem QCEC.Spec.Param QCEC.Props
open QCEC.Spec.Py QCEC.Props.PreparationWitness QCEC.Props.VerifyPartialWitness QCEC.Props.VerifyDecidesWitness QCEC.Props.VerifyPartialDecidesWitness
open QCEC.Props.VerifyDisplacedWitness QCEC.Props.PythonVerifyWitness QCEC.Props.RoutingWitness
open scoped Matrix

/-- A SWAP of two qubits inside a compound operation. -/
noncomputable def grouped : Circ WOp := { u2 with ops := [.compound [.swap 0 1]] }

/-- The circuit the checkers get. -/
noncomputable def groupedQC : QC 2 where
  ops := [.compound [.swap 0 1]]
  initialLayout := 1
  outputPermutation := idOut2
  ancillary := [false, false]
  garbage := [false, false]

theorem grouped_runnable : Runnable grouped where
  ok := ⟨u2_runnable.ok.keys, u2_runnable.ok.inj, u2_runnable.ok.onto, u2_runnable.ok.outKeys, u2_runnable.ok.outInj, u2_runnable.ok.outRange,
    u2_runnable.ok.outGarbage, rfl, rfl, rfl⟩
  proper := by
    intro o ho s hs
    simp only [grouped, List.mem_cons, List.not_mem_nil, or_false] at ho
    subst ho
    rw [WOp.parts, List.mem_singleton] at hs
    subst hs
    trivial
  inside := by
    intro o ho p hp
    simp only [grouped, List.mem_cons, List.not_mem_nil, or_false] at ho
    subst ho
    obtain ⟨s, hs, hn⟩ := hp
    rw [WOp.parts, List.mem_singleton] at hs
    subst hs
    show ∃ q, (p, q) ∈ [(0, 0), (1, 1)]
    rcases hn with rfl | rfl
    · exact ⟨0, by simp⟩
    · exact ⟨1, by simp⟩
  outInside := u2_runnable.outInside

theorem groupedQC_wf : WellFormed groupedQC 1 := by
  refine .of_total ?_ idOut2_valid idOut2_total idOut2_ext
  intro o ho
  simp only [groupedQC, List.mem_cons, List.not_mem_nil, or_false] at ho
  subst ho
  intro s hs
  simp only [List.mem_cons, List.not_mem_nil, or_false] at hs
  subst hs
  trivial

theorem grouped_numbered : Numbered count grouped groupedQC :=
  ⟨rfl, wNumbered1.inj, rfl, wNumbered1.initial, rfl, f2_numbered.ancillary, f2_numbered.garbage⟩

/-- What the checkers get; operations are compared exactly. -/
noncomputable def selfChecking : Mixed 2 2 :=
  { (setOf (Nat.le_refl 2) groupedQC groupedQC groupedQC_wf groupedQC_wf flags22 flags22).mixed with opEq := exactOpEq }

/-- The same with the lookahead scheme. -/
noncomputable def selfLooking : Mixed 2 2 :=
  { (setOf (Nat.le_refl 2) groupedQC groupedQC groupedQC_wf groupedQC_wf flags22 flags22).mixed with
    opEq := exactOpEq, schA := .lookahead toySize, confA := .lookahead _ }

theorem exactOpEq_self {n : Nat} (a : Op n) : exactOpEq a a = true := by
  unfold exactOpEq
  exact @decide_eq_true _ (Classical.propDecidable _) rfl

theorem ideal_id : (idealTests 2).isId 1 = true := by
  simp only [idealTests, decide_eq_true_iff]
  exact ⟨1, (one_smul _ _).symm⟩

theorem grouped_init (garb) : altInit (exactMatrix 2 garb) 1 2 groupedQC groupedQC = 1 := by
  have : altAncillary 2 groupedQC.ancillary groupedQC.ancillary = [false, false] := rfl
  unfold altInit
  rw [this]
  simp only [exactMatrix, reduceAncillae, if_true, Matrix.one_mul]
  rw [← ancProj_nil]
  apply ancProj_congr
  intro q; fin_cases q <;> rfl

/-- The alternating check of the two copies (one-to-one scheme). -/
theorem grouped_check (garb) (T : ExactTests 2) (hid : T.isId 1 = true) :
    ∃ s, runAlt (exactMatrix 2 garb) T.isId exactOpEq (.counts oneToOneScheme) (altVerdict T.close T.wOne) (fun _ => false)
      .noInformation groupedQC groupedQC (altInit (exactMatrix 2 garb) 1 2 groupedQC groupedQC)
      (groupedQC.ops.length + groupedQC.ops.length + 2) = .ok (.equivalent, s) := by
  obtain ⟨v, s, h, hv⟩ := lock_run grouped_runnable.wired grouped_numbered grouped_numbered garb T.isId hid exactOpEq (fun a _ => exactOpEq_self _)
    oneToOneScheme (altVerdict T.close T.wOne) (fun _ => false) (fun _ _ _ h => h) .noInformation _ (Nat.le_refl _)
  rw [grouped_init]
  rcases hv with ⟨h0, _⟩ | rfl
  · cases h0
  · rw [verdict_one] at h
    exact ⟨s, h⟩

/-- The same with the lookahead scheme: the SWAP is tracked when the operations are looked at, and once more for the copy that is applied at the end. -/
theorem grouped_lookahead (garb) (T : ExactTests 2) (size : Mat 2 → Nat) :
    ∃ s, runAlt (exactMatrix 2 garb) T.isId exactOpEq (.lookahead size) (altVerdict T.close T.wOne) (fun _ => false)
      .noInformation groupedQC groupedQC (altInit (exactMatrix 2 garb) 1 2 groupedQC groupedQC)
      (groupedQC.ops.length + groupedQC.ops.length + 2) = .ok (.notEquivalent, s) := by
  rw [grouped_init]
  let C : Op 2 := .compound [.swap 0 1]
  have gC : ∀ σ, (exactMatrix 2 garb).getDD C σ = (1, σ * Equiv.swap 0 1) := by
    intro σ
    show ((1 : Mat 2) * 1, _) = _
    rw [Matrix.one_mul]
    rfl
  have gCi : ∀ σ, (exactMatrix 2 garb).getInv C σ = (1, σ * Equiv.swap 0 1) := by
    intro σ
    show ((1 : Mat 2) * 1, _) = _
    rw [Matrix.one_mul]
    rfl
  have sw : ∀ (dir : Dir) (σ : Equiv.Perm (Fin 2)) (d : Mat 2), applySwaps (exactMatrix 2 garb) dir ⟨[C], σ⟩ d = (⟨[C], σ⟩, d) := by
    intro dir σ d
    show applySwapsAux (exactMatrix 2 garb) dir [C] σ d = _
    rw [applySwapsAux, if_neg]
    show ¬ C.isSwap = true
    simp [C, Op.isSwap]
  have s1 : lookaheadStep (exactMatrix 2 garb) size { c1 := ⟨[C], 1⟩, c2 := ⟨[C], 1⟩, d := 1, polls := 1 } =
      some { c1 := ⟨[], Equiv.swap 0 1⟩, c2 := ⟨[C], Equiv.swap 0 1⟩, d := 1, cached1 := none, cached2 := some 1, polls := 1 } := by
    have e1 : (exactMatrix 2 garb).mulL 1 1 = 1 := Matrix.mul_one 1
    have e2 : (exactMatrix 2 garb).mulR 1 1 = 1 := Matrix.one_mul 1
    simp only [lookaheadStep, cachedOr, gC, gCi, e1, e2, one_mul]
    rw [if_pos (Nat.le_refl _)]
  have h1 : altLoop (exactMatrix 2 garb) T.isId exactOpEq (.lookahead size) (fun _ => false) 4
      { c1 := .start groupedQC, c2 := .start groupedQC, d := 1, polls := 0 } =
      .ok { c1 := ⟨[], Equiv.swap 0 1⟩, c2 := ⟨[C], Equiv.swap 0 1⟩, d := 1, cached1 := none, cached2 := some 1, polls := 4 } := by
    show altLoop (exactMatrix 2 garb) T.isId exactOpEq (.lookahead size) (fun _ => false) 4
      { c1 := ⟨[C], 1⟩, c2 := ⟨[C], 1⟩, d := 1, polls := 0 } = _
    rw [altLoop]
    simp only [sw, s1]
    rw [if_neg (by simp [Cur.finished]), if_neg (by simp), if_neg (by simp [Cur.finished]), if_neg (by simp), altLoop]
    rw [if_pos (by simp [Cur.finished])]
  have h2 : altFinish (exactMatrix 2 garb) (fun _ => false)
      { c1 := ⟨[], Equiv.swap 0 1⟩, c2 := ⟨[C], Equiv.swap 0 1⟩, d := 1, cached1 := none, cached2 := some 1, polls := 4 } =
      { c1 := ⟨[], Equiv.swap 0 1⟩, c2 := ⟨[], 1⟩, d := 1, cached1 := none, cached2 := some 1, polls := 5 } := by
    unfold altFinish
    have e : finishTask (exactMatrix 2 garb) .right ⟨[C], Equiv.swap 0 1⟩ 1 = (⟨[], 1⟩, 1) := by
      rw [finishTask, dif_pos (by simp [Cur.finished])]
      have : advance (exactMatrix 2 garb) .right 1 ⟨[C], Equiv.swap 0 1⟩ 1 = (⟨[], 1⟩, 1) := by
        rw [advance, if_neg (by simp [Cur.finished])]
        simp only [applyGate, Backend.applyOp, gCi, applySwaps, applySwapsAux, advance]
        rw [Equiv.swap_mul_self, show (exactMatrix 2 garb).mulR 1 1 = 1 from Matrix.one_mul 1]
      rw [this, finishTask, dif_neg (by simp [Cur.finished])]
    have e0 : finishTask (exactMatrix 2 garb) .left ⟨[], Equiv.swap 0 1⟩ 1 = (⟨[], Equiv.swap 0 1⟩, 1) := by
      rw [finishTask, dif_neg (by simp [Cur.finished])]
    simp only [e0, e]
    rfl
  have h3 : altPostprocess (exactMatrix 2 garb) (fun _ => false) groupedQC groupedQC
      { c1 := ⟨[], Equiv.swap 0 1⟩, c2 := ⟨[], 1⟩, d := 1, cached1 := none, cached2 := some 1, polls := 5 } =
      { c1 := ⟨[], 1⟩, c2 := ⟨[], 1⟩, d := swapMat 1 0, cached1 := none, cached2 := some 1, polls := 6 } := by
    have e : ∀ reg d, (exactMatrix 2 garb).changePerm reg d 1 idOut2 = (d, 1) := by
      intro reg d
      simp [exactMatrix, changePerm, idOut2, changePermStep]
    have hs : Equiv.swap (1 : Fin 2) 0 * Equiv.swap 0 1 = 1 := by decide
    have e' : (exactMatrix 2 garb).changePerm Dir.left.regular 1 (Equiv.swap 0 1) idOut2 = (swapMat 1 0, 1) := by
      simp [exactMatrix, changePerm, idOut2, changePermStep, Dir.regular, hs]
    unfold altPostprocess
    simp only [groupedQC, e', e]
    rfl
  have hv : altVerdict T.close T.wOne (swapMat 1 0 : Mat 2) = .notEquivalent := by
    unfold altVerdict
    rw [if_neg]
    intro h
    obtain ⟨c, S, _, _, e⟩ := T.close_sound _ h
    have e := congrFun (congrArg (fun m : Mat 2 => m.mulVec fun x => if x = fun q => decide (q = 0) then 1 else 0) e) (fun q => decide (q = 1))
    simp only [swapMat_mulVec, Matrix.smul_mulVec, Pi.smul_apply, Matrix.mulVec_diagonal] at e
    rw [if_pos (by decide), if_neg (c := (fun q : Fin 2 => decide (q = 1)) = fun q => decide (q = 0)) (by decide), mul_zero, smul_zero] at e
    exact one_ne_zero e
  refine ⟨{ c1 := ⟨[], 1⟩, c2 := ⟨[], 1⟩, d := swapMat 1 0, cached1 := none, cached2 := some 1, polls := 6 }, ?_⟩
  unfold runAlt
  rw [show groupedQC.ops.length + groupedQC.ops.length + 2 = 4 from rfl, h1]
  simp only [h2, h3, hv]
  rfl

/-- The lookahead scheme. -/
def lookaheadCfg : Configuration := acf { alternatingScheme := .lookahead }

theorem grouped_made (A : Application) : Prep.construct named nothingToDo (acf A) grouped grouped = .made { qc1 := grouped, qc2 := grouped, cfg := acf A } := rfl

theorem grouped_run : SharpCalmManagerRun VerifyWitness.plain grouped grouped oneToOneCfg [] .equivalent := by
  let env := testEnv (fun _ => some .noInformation) (.returns .equivalent) (.returns .noInformation) (.returns .noInformation)
  have hm : mode env oneToOneCfg = .sequential := rfl
  obtain ⟨s', hr, he⟩ : ∃ s', Mgr.run env 20 (State.fresh oneToOneCfg) = some (.returned s') ∧ s'.results.equivalence = .equivalent := ⟨_, rfl, rfl⟩
  refine ⟨fun p _ c hc => ⟨hc, rfl, fun _ => rfl, fun _ _ => rfl⟩, _, grouped_made _, 2, 2, rfl, selfChecking, count, count, grouped_numbered, grouped_numbered,
    ⟨fun _ => by decide, fun _ => trivial⟩, ?_, fun a _ _ => exactOpEq_self _, ideal_id, ?_⟩
  · intro a ha b hb _
    simp only [grouped, List.mem_cons, List.not_mem_nil, or_false] at ha hb
    rw [ha, hb]
  · rw [← he]
    have h0 : ¬ oneToOneCfg.execution.timeout > 0 := fun h => absurd h (lt_irrefl (0 : ℚ))
    refine .sequential env 20 s' hm h0 hr ?_
    rintro ⟨k, v⟩ h hen
    cases k
    · cases hen
    · cases h
      obtain ⟨s, hs⟩ := grouped_check (fun _ _ d => d) (idealTests 2) ideal_id
      exact .alternating (S := selfChecking) (fun _ => false) (fun _ _ _ h => h) (fun _ _ => rfl) _ (Nat.le_refl _) (fun q hq => by
        have : ∀ q : Fin 2, groupedQC.ancillary.getD q.val false = false := by decide
        exact absurd ((this q).symm.trans hq.1) (by simp)) _ s hs
    · cases hen
    · cases hen

theorem grouped_lookahead_run : SharpCalmManagerRun VerifyWitness.plain grouped grouped lookaheadCfg [] .notEquivalent := by
  let env := testEnv (fun _ => some .noInformation) (.returns .notEquivalent) (.returns .noInformation) (.returns .noInformation)
  have hm : mode env lookaheadCfg = .sequential := rfl
  obtain ⟨s', hr, he⟩ : ∃ s', Mgr.run env 20 (State.fresh lookaheadCfg) = some (.returned s') ∧ s'.results.equivalence = .notEquivalent := ⟨_, rfl, rfl⟩
  refine ⟨fun p _ c hc => ⟨hc, rfl, fun _ => rfl, fun _ _ => rfl⟩, _, grouped_made _, 2, 2, rfl, selfLooking, count, count, grouped_numbered, grouped_numbered,
    ⟨fun h => absurd h (by simp [selfLooking, AltScheme.Cancels]), fun h => absurd rfl h⟩, ?_, fun a _ _ => exactOpEq_self _, ideal_id, ?_⟩
  · intro a ha b hb _
    simp only [grouped, List.mem_cons, List.not_mem_nil, or_false] at ha hb
    rw [ha, hb]
  · rw [← he]
    have h0 : ¬ lookaheadCfg.execution.timeout > 0 := fun h => absurd h (lt_irrefl (0 : ℚ))
    refine .sequential env 20 s' hm h0 hr ?_
    rintro ⟨k, v⟩ h hen
    cases k
    · cases hen
    · cases h
      obtain ⟨s, hs⟩ := grouped_lookahead (fun _ _ d => d) (idealTests 2) toySize
      exact .alternating (S := selfLooking) (fun _ => false) (fun _ _ _ h => h) (fun _ _ => rfl) _ (Nat.le_refl _) (fun q hq => by
        have : ∀ q : Fin 2, groupedQC.ancillary.getD q.val false = false := by decide
        exact absurd ((this q).symm.trans hq.1) (by simp)) _ s hs
    · cases hen
    · cases hen

theorem knowing_do {P : Circ WOp → Circ WOp → Configuration → List Param.Setter → Criterion → Prop} {x y : Circ WOp} {cfg : Configuration} {r : Param.Res}
    (h : P x y cfg [] r.equivalence) : ManagersDo P (VerifyPartialWitness.imp x y) (knowing cfg r) := by
  intro k c s x' y' r' d1 d2 hp h1 h2 hk
  simp only [knowing] at hk
  split at hk
  · rename_i hh
    obtain ⟨rfl, rfl, rfl, rfl⟩ := hh
    simp only [VerifyPartialWitness.imp, VerifyWitness.a, VerifyWitness.b, Option.some.injEq] at h1 h2
    subst h1 h2
    cases hk
    exact h
  · exact absurd hk (by simp)

/-- `verify(a, b, configuration)` with such managers. -/
theorem calledWith {P : Circ WOp → Circ WOp → Configuration → List Param.Setter → Criterion → Prop} {x y : Circ WOp} {cfg : Configuration} {v : Criterion}
    (h : P x y cfg [] v) (hp : cfg.functionality.checkPartialEquivalence = false) : CalledWith P conv x y cfg v := by
  refine ⟨cfg, VerifyPartialWitness.imp x y, knowing cfg { equivalence := v }, knowing_do h, VerifyWitness.a, VerifyWitness.b, { equivalence := v },
    .verify (some cfg) [] List.nodup_nil ?_ ?_ rfl, hp, by simp [Symbolic, VerifyWitness.a], by simp [Symbolic, VerifyWitness.b], rfl, rfl, rfl⟩
  · simp only [verifyCall, verifyConfig, augment, Option.getD_some, checkWith, knowing_verify]
  · intro k o f _
    simp [Asked]

theorem grouped_misled (A : Application) : Misled VerifyWitness.plain grouped grouped (acf A) [] := by
  have hh : HidesSwap (.compound [.swap 0 1]) := ⟨rfl, 0, 1, by simp [WOp.parts]⟩
  refine ⟨_, fun p _ c hc => ⟨hc, rfl, fun _ => rfl, fun _ _ => rfl⟩, grouped_made _, rfl, ?_⟩
  by_cases hl : A.alternatingScheme = .lookahead
  · exact Or.inr (Or.inl ⟨hl, _, Or.inl (List.mem_singleton_self _), hh⟩)
  · refine Or.inl ⟨hl, ?_, [], [], _, [], [], rfl, rfl, rfl, ⟨1, by simp, fun v _ x => by rw [one_mul]⟩, Or.inl hh⟩
    intro q hq
    have : q = 0 ∨ q = 1 := by have : q < 2 := hq; omega
    rcases this with rfl | rfl <;> simp [grouped, u2, Circ.isAncillary]

/-- **C85**: the hypotheses of `check_self_equivalent` are met, by a circuit that could mislead the alternating checker; it is found equivalent to itself. -/
theorem self_met : CalledWith (SharpCalmManagerRun VerifyWitness.plain) conv grouped grouped oneToOneCfg .equivalent ∧ Runnable grouped ∧
    oneToOneCfg.execution.runAlternatingChecker = true ∧ Misled VerifyWitness.plain grouped grouped oneToOneCfg [] ∧
    ¬ oneToOneCfg.application.alternatingScheme = .lookahead :=
  ⟨calledWith grouped_run rfl, grouped_runnable, rfl, grouped_misled _, by decide⟩

/-- **C85** fails with lookahead: an uninterrupted call of `verify` reports that a circuit – a compound operation with a SWAP – is not equivalent to itself. -/
theorem self_refuted : CalledWith (SharpCalmManagerRun VerifyWitness.plain) conv grouped grouped lookaheadCfg .notEquivalent ∧ Runnable grouped ∧
    lookaheadCfg.execution.runAlternatingChecker = true ∧ lookaheadCfg.application.alternatingScheme = .lookahead :=
  ⟨calledWith grouped_lookahead_run rfl, grouped_runnable, rfl, rfl⟩

end QCEC.Props.SelfCheckWitness
