import Verif.Props.PythonVerify
import Verif.Props.VerifyPartialDecidesWitness
import Verif.Props.VerifyDecidesWitness
/-!
# C84, C85: calls that meet the hypotheses; where verdicts are not transitive
-/
namespace QCEC.Props.PythonVerifyWitness
open QCEC QCEC.DD QCEC.Param QCEC.Py QCEC.Mgr QCEC.Prep QCEC.Gen QCEC.Spec QCEC.Spec.Wide QCEC.Spec.ZX QCEC.Wide QCEC.Sem QCEC.Spec.Param QCEC.Props
open QCEC.Spec.Py QCEC.Props.PreparationWitness QCEC.Props.VerifyPartialWitness QCEC.Props.VerifyDecidesWitness QCEC.Props.VerifyPartialDecidesWitness
open QCEC.Props.VerifyDisplacedWitness

/-- The alternating checker only, without a timeout. -/
def acf (A : Application) (O : Optimizations := {}) : Configuration :=
  { testCfg false true false false 0 0 with application := A, optimizations := O }

/-- An uninterrupted run for two prepared circuits; it decides. -/
theorem calm_alt_lib {lib : Library} {m n : Nat} {x y rx ry : Circ WOp} (A : Application) (O : Optimizations) (S : Setting m n) {e1 e2 : Nat → Fin n}
    (handled : ∀ q : Fin n, m ≤ q.val → Idle S.qc1 S.ω1 q ∨ Idle S.qc2 S.ω2 q) (hd : rx.ndata = m) (nx : Numbered e1 rx S.qc1) (ny : Numbered e2 ry S.qc2)
    (hP : ∀ p ∈ planned (acf A O).optimizations true, Faithful lib.passes p)
    (h : Prep.construct lib.acts lib.passes (acf A O) x y = .made { qc1 := rx, qc2 := ry, cfg := acf A O })
    (hsch : Follows S.mixed (acf A O) := by exact ⟨fun _ => by decide, fun _ => trivial⟩) (hop : ∀ a b, S.opEq a b = false := by exact fun _ _ => rfl) :
    ∃ v, CalmManagerRun lib x y (acf A O) [] v ∧ Correct v (flags m n) S.qc1 S.ω1 S.qc2 S.ω2 := by
  obtain ⟨ca, ha⟩ := exists_alternating S true handled
  let env := testEnv (fun _ => some .noInformation) (.returns ca) (.returns .noInformation) (.returns .noInformation)
  have hans : ∀ e, FromEnv env e → Enabled (acf A O) e.kind → Answer S true e.kind e.verdict := by
    rintro ⟨k, v⟩ h hen
    cases k
    · cases hen
    · cases h; exact ha
    · cases hen
    · cases hen
  have hm : mode env (acf A O) = .sequential := by simp [mode, env, testEnv, acf, testCfg, Configuration.anythingToExecute]
  obtain ⟨s', hr, hc⟩ := sequential_verdict_decides S (s := State.fresh (acf A O)) (fuel := 20) hm (by simp [CountersOk, State.fresh])
    (by simp [State.fresh, acf, testCfg]) (by simp [State.fresh, acf, testCfg]) (Or.inl rfl) (by
      rintro (⟨h, _⟩ | ⟨_, h | h⟩ | ⟨h, _⟩ | ⟨h, _⟩)
      · cases h
      · cases h
      · cases h
      · cases h
      · cases h) hans
  refine ⟨s'.results.equivalence, ⟨hP, _, h, m, n, hd,
    S.mixed, e1, e2, nx, ny, hsch, fun a _ b _ h => Bool.noConfusion ((hop _ _).symm.trans h), ?_⟩, hc⟩
  have h0 : ¬ (acf A O).execution.timeout > 0 := fun h => absurd h (lt_irrefl (0 : ℚ))
  exact .sequential env 20 s' hm h0 hr fun e he hen => answer_mixed _ (hans e he hen)

theorem calm_alt {m n : Nat} {x y rx ry : Circ WOp} (A : Application) (O : Optimizations) (S : Setting m n) {e1 e2 : Nat → Fin n}
    (handled : ∀ q : Fin n, m ≤ q.val → Idle S.qc1 S.ω1 q ∨ Idle S.qc2 S.ω2 q) (hd : rx.ndata = m) (nx : Numbered e1 rx S.qc1) (ny : Numbered e2 ry S.qc2)
    (h : Prep.construct named nothingToDo (acf A O) x y = .made { qc1 := rx, qc2 := ry, cfg := acf A O })
    (hsch : Follows S.mixed (acf A O) := by exact ⟨fun _ => by decide, fun _ => trivial⟩) (hop : ∀ a b, S.opEq a b = false := by exact fun _ _ => rfl) :
    ∃ v, CalmManagerRun VerifyWitness.plain x y (acf A O) [] v ∧ Correct v (flags m n) S.qc1 S.ω1 S.qc2 S.ω2 :=
  calm_alt_lib A O S handled hd nx ny (fun p _ c hc => ⟨hc, rfl, fun _ => rfl, fun _ _ => rfl⟩) h hsch hop

/-- Python values are values of options. -/
def conv (k : Py.Kind) (f : FieldVal) : Option FieldVal := if f.kind = k then some f else none

/-- `verify(a, b, configuration)` with such managers. -/
theorem fully {x y : Circ WOp} {cfg : Configuration} {v : Criterion} (h : CalmManagerRun lib x y cfg [] v)
    (hp : cfg.functionality.checkPartialEquivalence = false)
    (hen : cfg.execution.runAlternatingChecker = true ∨ cfg.execution.runConstructionChecker = true) : FullyChecked lib conv x y cfg v := by
  refine ⟨cfg, imp x y, knowing cfg { equivalence := v }, knowing_calm h, VerifyWitness.a, VerifyWitness.b, { equivalence := v },
    .verify (some cfg) [] List.nodup_nil ?_ ?_ rfl, hp, by simp [Symbolic, VerifyWitness.a], by simp [Symbolic, VerifyWitness.b], rfl, rfl, hen, rfl⟩
  · simp only [verifyCall, verifyConfig, augment, Option.getD_some, checkWith, knowing_verify]
  · intro k o f _
    simp [Asked]

/-- The options `verify_compilation` chooses. -/
def compiled (dir level : String) (mode : AncillaMode) (A : Application) : Application :=
  { A with constructionScheme := .gateCost, simulationScheme := .gateCost, alternatingScheme := .gateCost, profile := dir ++ profileName level mode }

/-- `verify_compilation(a, b, level, mode, configuration)` with such managers. -/
theorem fully_compiled {x y : Circ WOp} {v : Criterion} {A : Application} {dir level : String} {mode : AncillaMode}
    (h : CalmManagerRun lib x y (acf (compiled dir level mode A)) [] v) : FullyChecked lib conv x y (acf (compiled dir level mode A)) v := by
  have hc : compilationConfig conv (acf A) (some (acf A)) ([] : List (String × FieldVal)) dir level mode = (acf (compiled dir level mode A), none) := rfl
  refine ⟨acf A, imp x y, knowing (acf (compiled dir level mode A)) { equivalence := v }, knowing_calm h, VerifyWitness.a, VerifyWitness.b,
    { equivalence := v }, .compilation dir level mode (some (acf A)) [] List.nodup_nil ?_ (fun k o f hd => compilation_asked (kwargs := []) List.nodup_nil hc hd f) rfl,
    rfl, by simp [Symbolic, VerifyWitness.a], by simp [Symbolic, VerifyWitness.b], rfl, rfl, Or.inl rfl, rfl⟩
  rw [verifyCompilationCall, hc]
  simp only [checkWith, knowing_verify]

/-- **C84** is not vacuous: two calls with different options, one of `verify` and one of `verify_compilation`, for the same pair of different circuits;
both report `Equivalent`. -/
theorem same_verdict_met : ∃ cfg cfg' v v', FullyChecked VerifyWitness.plain conv c1 c2 cfg v ∧ FullyChecked VerifyWitness.plain conv c1 c2 cfg' v' ∧
    cfg.application.alternatingScheme = .proportional ∧ cfg'.application.alternatingScheme = .gateCost ∧ v = .equivalent ∧ v' = .equivalent ∧
    Runnable c1 ∧ Runnable c2 ∧ SameAncillas c1 c2 ∧ AncillasLast c1 := by
  have he : Same (flags 2 2) swapXswap 1 justX1 1 := fun x _ => swapXswap_same_justX1 x (fun _ _ q hq => by simp at hq)
  obtain ⟨v, hv, hc⟩ := calm_alt (x := c1) (y := c2) {} {} (settingOf swapXswap justX1 swapXswap_wf justX1_wf rfl rfl) (fun q hq => absurd q.isLt (by omega))
    rfl numbered1 numbered2 rfl
  obtain ⟨v', hv', hc'⟩ := calm_alt (x := c1) (y := c2) (compiled "" "1" .noAncilla {}) {} (settingOf swapXswap justX1 swapXswap_wf justX1_wf rfl rfl)
    (fun q hq => absurd q.isLt (by omega)) rfl numbered1 numbered2 rfl
  refine ⟨_, _, v, v', fully hv rfl (Or.inl rfl), fully_compiled hv', rfl, rfl, hc.equivalent.2 he, hc'.equivalent.2 he, runnable1, runnable2, ?_, ?_⟩
  · intro q h _
    have : q = 0 ∨ q = 1 ∨ q = 2 := by have : q < 3 := h; omega
    rcases this with rfl | rfl | rfl <;> rfl
  · intro q q' _ h e
    have : q = 0 ∨ q = 1 ∨ q = 2 := by have : q' < 3 := h; omega
    rcases this with rfl | rfl | rfl <;> exact absurd e (by decide)

/-! ## A narrow circuit in the middle -/

/-- Two circuits on `n` qubits of which the first `m` are data qubits. -/
noncomputable def setOf {m n : Nat} (hmn : m ≤ n) (qa qb : QC n) (wa : WellFormed qa 1) (wb : WellFormed qb 1)
    (aa : ∀ q : Fin n, qa.ancillary.getD q.val false = (flags m n).getD q.val false) (ab : ∀ q : Fin n, qb.ancillary.getD q.val false = (flags m n).getD q.val false) :
    Setting m n where
  qc1 := qa
  qc2 := qb
  ω1 := 1
  ω2 := 1
  wf1 := wa
  wf2 := wb
  data := hmn
  anc1 := aa
  anc2 := ab
  garb := fun _ _ d => d
  garbV := fun _ _ d => d
  T := idealTests n
  V := idealVectorTests n (1 / 100)
  threshold := by simp [idealVectorTests]
  opEq := fun _ _ => false
  cancel _ := .disjoint fun _ _ _ _ => rfl
  schA := .counts oneToOneScheme
  schC := oneToOneScheme
  schS := oneToOneScheme
  confA := .counts _ ⟨oneToOneConfigured _ _⟩
  confC := ⟨oneToOneConfigured _ _⟩
  confS := ⟨oneToOneConfigured _ _⟩
  stateType := .random1QBasis
  cliff := fun k _ z => if z = fun _ => false then 1 else 0
  cliff_normalised := by intro k seed; simp [Normalised, Spec.inner]

/-- X on the first of two qubits; `u2` has a Z gate on the second one in addition, `u1` is X on a single qubit. -/
noncomputable def u3 : Circ WOp := { u2 with ops := [wX 0] }

/-- The circuits the checkers get for `u2` and `u3`. -/
noncomputable def f2 : QC 2 := { p2 with ancillary := [false, false] }
noncomputable def f3 : QC 2 where
  ops := [.simple (.gate (gX 0))]
  initialLayout := 1
  outputPermutation := idOut2
  ancillary := [false, false]
  garbage := [false, false]
/-- The circuit they get for `u1` and for `u3`, compared with each other. -/
noncomputable def f1 : QC 1 where
  ops := [.simple (.gate (gX 0))]
  initialLayout := 1
  outputPermutation := [(0, 0)]

theorem f2_wf : WellFormed f2 1 := ⟨p2_wf.ops, p2_wf.out, p2_wf.labels⟩
theorem f3_wf : WellFormed f3 1 := by
  refine .of_total ?_ idOut2_valid idOut2_total idOut2_ext
  intro o ho
  simp only [f3, List.mem_cons, List.not_mem_nil, or_false] at ho
  subst ho
  exact gX_valid 0
theorem f1_wf : WellFormed f1 1 := by
  refine ⟨?_, ⟨by simp [f1], by simp [f1]⟩, rfl⟩
  intro o ho
  simp only [f1, List.mem_cons, List.not_mem_nil, or_false] at ho
  subst ho
  exact gX_valid 0

theorem u3_runnable : Runnable u3 where
  ok := ⟨u2_runnable.ok.keys, u2_runnable.ok.inj, u2_runnable.ok.onto, u2_runnable.ok.outKeys, u2_runnable.ok.outInj, u2_runnable.ok.outRange,
    u2_runnable.ok.outGarbage, rfl, rfl, rfl⟩
  proper := fun o ho => u2_runnable.proper o (by
    simp only [u3, List.mem_cons, List.not_mem_nil, or_false] at ho
    subst ho
    simp [u2])
  inside := fun o ho => u2_runnable.inside o (by
    simp only [u3, List.mem_cons, List.not_mem_nil, or_false] at ho
    subst ho
    simp [u2])
  outInside := u2_runnable.outInside

theorem f2_numbered : Numbered count u2 f2 := by
  refine ⟨rfl, wNumbered1.inj, rfl, wNumbered1.initial, rfl, ?_, ?_⟩
  · intro q hq
    have : q = 0 ∨ q = 1 := by omega
    rcases this with rfl | rfl <;> rfl
  · intro q hq
    have : q = 0 ∨ q = 1 := by omega
    rcases this with rfl | rfl <;> rfl

theorem f3_numbered : Numbered count u3 f3 :=
  ⟨rfl, wNumbered1.inj, rfl, wNumbered1.initial, rfl, f2_numbered.ancillary, f2_numbered.garbage⟩

theorem f1_numbered : Numbered (fun _ => (0 : Fin 1)) u1 f1 := by
  have h := kNumbered [wX 0]
  exact ⟨h.width, h.inj, rfl, h.initial, h.output, h.ancillary, h.garbage⟩

theorem f2_output (v : Basis 2 → ℂ) (x : Basis 2) : Spec.output f2 1 v x = (if x 1 then -1 else 1) * v (Function.update x 0 (!x 0)) := p2_output v x

theorem f3_output (v : Basis 2 → ℂ) (x : Basis 2) : Spec.output f3 1 v x = v (Function.update x 0 (!x 0)) := by
  simp only [Spec.output, readOut, execute, f3, Op.phys, SOp.phys, load, gX_mulVec]
  rfl

theorem flags22 : ∀ q : Fin 2, ([false, false] : List Bool).getD q.val false = (flags 2 2).getD q.val false := by decide
theorem flags12 : ∀ q : Fin 2, ([false, true] : List Bool).getD q.val false = (flags 1 2).getD q.val false := by decide
theorem flags11 : ∀ q : Fin 1, ([] : List Bool).getD q.val false = (flags 1 1).getD q.val false := by decide

/-- **C85**: the condition on the widths is needed.  `X(0) Z(1)` on two qubits is reported equivalent to `X(0)` on one qubit, and this is reported
equivalent to `X(0)` on two qubits, but the two circuits on two qubits are reported as not equivalent, by uninterrupted calls. -/
theorem narrow_not_transitive : ∃ cfg, FullyChecked VerifyWitness.plain conv u2 u1 cfg .equivalent ∧ FullyChecked VerifyWitness.plain conv u1 u3 cfg .equivalent ∧
    FullyChecked VerifyWitness.plain conv u2 u3 cfg .notEquivalent ∧ Runnable u1 ∧ Runnable u2 ∧ Runnable u3 ∧ SameAncillas u2 u1 ∧ SameAncillas u1 u3 ∧ AncillasLast u1 ∧
    AncillasLast u2 := by
  have none1 : ∀ q, u1.isAncillary q = false := by intro q; rcases q with _ | q <;> rfl
  have none2 : ∀ q, u2.isAncillary q = false := by intro q; rcases q with _ | _ | q <;> rfl
  have none3 : ∀ q, u3.isAncillary q = false := none2
  obtain ⟨v, hv, hc⟩ := calm_alt (x := u2) (y := u1) {} {} (setOf (by omega) p2 p1 p2_wf p1_wf flags12 flags12) (e1 := count) (e2 := count)
    (by intro q hq
        have : q = 1 := by omega
        subst this
        exact Or.inr p1_idle) rfl wNumbered2 wNumbered1 rfl
  obtain ⟨v', hv', hc'⟩ := calm_alt (x := u1) (y := u3) {} {} (setOf (Nat.le_refl 1) f1 f1 f1_wf f1_wf flags11 flags11) (e1 := fun _ => 0) (e2 := fun _ => 0)
    (fun q hq => absurd q.isLt (by omega)) rfl f1_numbered f1_numbered rfl
  obtain ⟨v'', hv'', hc''⟩ := calm_alt (x := u2) (y := u3) {} {} (setOf (Nat.le_refl 2) f2 f3 f2_wf f3_wf flags22 flags22) (e1 := count) (e2 := count)
    (fun q hq => absurd q.isLt (by omega)) rfl f2_numbered f3_numbered rfl
  have e : v = .equivalent := hc.equivalent.2 fun w hw => by
    funext x
    show Spec.output p2 1 w x = ((1 : ℂ) • Spec.output p1 1 w) x
    rw [one_smul, p2_output, p1_output]
    cases hx : x 1
    · simp
    · by_cases h0 : w (Function.update x 0 (!x 0)) = 0
      · rw [h0]; simp
      · have := hw _ h0 1 (by decide)
        simp [hx] at this
  have e' : v' = .equivalent := hc'.equivalent.2 fun w _ => by
    show Spec.output f1 1 w = (1 : ℂ) • Spec.output f1 1 w
    rw [one_smul]
  have e'' : v'' = .notEquivalent := by
    rw [hc''.notEquivalent]
    rintro ⟨c, _, h⟩
    have fl : ∀ q : Fin 2, (flags 2 2).getD q.val false = false := by decide
    have hz : ∀ w : Basis 2 → ℂ, AncillasZero (flags 2 2) w := fun w x _ q hq => by rw [fl] at hq; cases hq
    have h0 := congrFun (h (fun _ => 1) (hz _)) (fun _ => false)
    have h1 := congrFun (h (fun _ => 1) (hz _)) (fun _ => true)
    change Spec.output f2 1 _ _ = c • Spec.output f3 1 _ _ at h0 h1
    rw [f2_output, f3_output] at h0 h1
    simp at h0 h1
    rw [← h0] at h1
    norm_num at h1
  subst e e' e''
  exact ⟨_, fully hv rfl (Or.inl rfl), fully hv' rfl (Or.inl rfl), fully hv'' rfl (Or.inl rfl), u1_runnable, u2_runnable, u3_runnable,
    fun q _ _ => by rw [none1, none2], fun q _ _ => by rw [none1, none3], last_of_none none1, last_of_none none2⟩

/-! ## A verdict that depends on an option -/

/-- The circuit the checkers get for `VerifyWitness.sw`. -/
def f4 : QC 2 := { straight with ops := [.simple (.swap 0 1)] }

theorem f4_wf : WellFormed f4 1 := by
  refine .of_total ?_ straight_wf.out (by intro q; fin_cases q <;> simp [f4, straight]) straight_wf.ext
  intro o ho
  simp only [f4, List.mem_cons, List.not_mem_nil, or_false] at ho
  subst ho
  trivial

theorem f4_output (v : Basis 2 → ℂ) (x : Basis 2) : Spec.output f4 1 v x = v (x ∘ Equiv.swap 0 1) := by
  simp only [Spec.output, readOut, execute, f4, Op.phys, SOp.phys, load, swapMat_mulVec, straight]
  rfl

theorem straight_output (v : Basis 2 → ℂ) (x : Basis 2) : Spec.output straight 1 v x = v x := by
  simp only [Spec.output, readOut, execute, load, straight, List.foldl_nil]
  rfl

open QCEC.Props.VerifyWitness in
/-- **C84**, the exception for circuits from which no operation is left is needed: a SWAP and an empty circuit are reported equivalent with the default
options and not equivalent with the option `elide_permutations=False`, both by uninterrupted calls. -/
theorem option_changes_verdict : ∃ cfg cfg', FullyChecked elider conv sw idle cfg .equivalent ∧ FullyChecked elider conv sw idle cfg' .notEquivalent ∧
    cfg = Configuration.default 8 0 ∧ cfg'.optimizations = { cfg.optimizations with elidePermutations := false } ∧ Runnable sw ∧ Runnable idle ∧
    SameAncillas sw idle ∧ AncillasLast sw := by
  have hne : ∀ q, sw.isAncillary q = false := by intro q; rcases q with _ | _ | q <;> rfl
  have h1 : CalmManagerRun elider sw idle d [] .equivalent := by
    refine ⟨fun p _ => eliding_faithful p, _, elided_made, 2, 2, rfl, shortcut.mixed, count, count, crossed_numbered,
      straight_numbered, ⟨fun _ => by decide, fun _ => trivial⟩, fun _ _ _ _ h => Bool.noConfusion h, ?_⟩
    obtain ⟨s', h, hs⟩ : ∃ s', Mgr.run { passing with bothEmpty := true } 0 (State.fresh (afterSetters d' [])) = some (.returned s') ∧
        s'.results.equivalence = .equivalent := ⟨_, rfl, rfl⟩
    rw [← hs]
    exact .empty { passing with bothEmpty := true } 0 s' ⟨rfl, rfl⟩ rfl h
  have kept : Prep.construct named eliding (acf {} { elidePermutations := false }) sw idle = .made { qc1 := sw, qc2 := idle, cfg := acf {} { elidePermutations := false } } := by
    have hp : planned (acf {} { elidePermutations := false }).optimizations false = [.swapReconstruction, .singleQubitGateFusion, .reorderOperations, .removeFinalMeasurements] := rfl
    have a1 : ∀ p, eliding.apply p idle = idle := fun p => by simp only [eliding, if_neg (fun h : p = .elidePermutations ∧ idle = sw => idle_ne h.2)]
    have a2 : ∀ p, p ≠ .elidePermutations → eliding.apply p sw = sw := fun p hp => by exact if_neg fun h => hp h.1
    have hr : eliding.run (acf {} { elidePermutations := false }).optimizations (sw, idle) = .ok (sw, idle) := by
      rw [passes_exact]
      have e1 : eliding.empty sw = false := rfl
      have e2 : ∀ c, eliding.dynamic c = false := fun _ => rfl
      simp only [e1, e2, Bool.false_eq_true, false_and, if_false, or_self, hp, List.foldl_cons, List.foldl_nil, a1]
      rw [a2 _ (by decide), a2 _ (by decide), a2 _ (by decide), a2 _ (by decide)]
    have hv : (eliding.variableFree sw && eliding.variableFree idle) = true := rfl
    unfold Prep.construct
    rw [if_pos hv, hr]
    rfl
  obtain ⟨v, hv, hc⟩ := calm_alt_lib (lib := elider) (x := sw) (y := idle) (rx := sw) (ry := idle) {} { elidePermutations := false } (setOf (Nat.le_refl 2) f4 straight f4_wf straight_wf flags22 flags22)
    (e1 := count) (e2 := count) (fun q hq => absurd q.isLt (by omega)) rfl
    ⟨rfl, count_inj, rfl, straight_numbered.initial, rfl, straight_numbered.ancillary, straight_numbered.garbage⟩ straight_numbered
    (fun p _ => eliding_faithful p) kept
  have e : v = .notEquivalent := by
    rw [hc.notEquivalent]
    rintro ⟨c, hc, h⟩
    have fl : ∀ q : Fin 2, (flags 2 2).getD q.val false = false := by decide
    have h0 := congrFun (h (fun x => if x 0 then 1 else 0) fun x _ q hq => by rw [fl] at hq; cases hq) (fun q => decide (q = 0))
    change Spec.output f4 1 _ _ = c • Spec.output straight 1 _ _ at h0
    rw [f4_output, straight_output] at h0
    simp at h0
    rw [← h0] at hc
    simp at hc
  subst e
  exact ⟨d, _, fully h1 rfl (Or.inl rfl), fully hv rfl (Or.inl rfl), rfl, rfl, sw_runnable, idle_runnable, fun q _ _ => rfl, last_of_none hne⟩

end QCEC.Props.PythonVerifyWitness
