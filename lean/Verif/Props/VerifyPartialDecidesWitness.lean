import Verif.Props.VerifyPartialDecides
import Verif.Props.VerifyEndToEndPartialWitness
import Verif.Props.VerifyDisplacedWitness
/-!
# C74, C81, C82: the hypotheses of `verify_partially_decides` can be met, also by circuits of different width
-/
namespace QCEC.Props.VerifyPartialDecidesWitness
open QCEC QCEC.DD QCEC.Param QCEC.Mgr QCEC.Prep QCEC.Gen QCEC.Spec QCEC.Spec.Wide QCEC.Spec.ZX QCEC.Wide QCEC.Sem QCEC.Spec.Param QCEC.Props
open QCEC.Props.PreparationWitness QCEC.Props.VerifyPartialWitness QCEC.Props.VerifyDisplacedWitness

/-- An uninterrupted run of a manager; it decides partial equivalence of the prepared circuits. -/
theorem calm_prun_exists {m n : Nat} {a b ra rb : Circ WOp} (S : PSetting m n) {e1 e2 : Nat → Fin n} (hst : S.stateType = .random1QBasis)
    (hcan : S.schA.Cancels) (hoe : ∀ a b, S.opEq a b = false)
    (hpl : S.Plain) (hi : S.OneIdle) (hd : ra.ndata = m) (na : Numbered e1 ra S.qc1) (nb : Numbered e2 rb S.qc2) {k : Nat} (hk : k < 20)
    (h : Prep.construct named nothingToDo (pcfg 16) a b = .made { qc1 := ra, qc2 := rb, cfg := pcfg k }) :
    ∃ v, CalmPManagerRun VerifyWitness.plain a b (pcfg 16) [] v ∧ (v = .notEquivalent ↔ ¬ S.Partially (flags m n)) ∧
      (v = .equivalent ∨ v = .equivalentUpToGlobalPhase ↔ S.Partially (flags m n)) := by
  obtain ⟨ca, ha⟩ := exists_partial_alternating S true
  obtain ⟨cs, hs⟩ := exists_partial_simulation S true hst
  let env := testEnv (fun _ => some cs) (.returns ca) (.returns .noInformation) (.returns .noInformation)
  have hans : ∀ e, FromEnv env e → Enabled (pcfg k) e.kind → PAnswer S.toPBase true e.kind e.verdict := by
    rintro ⟨k, v⟩ h hen
    cases k
    · obtain ⟨_, h⟩ := h
      cases h; exact hs
    · cases h; exact ha
    · cases hen
    · cases hen
  have hm : mode env (pcfg k) = .sequential := by simp [mode, env, testEnv, pcfg, testCfg, Configuration.anythingToExecute]
  obtain ⟨s', hr, h1, h2⟩ := partial_sequential_decides S (s := State.fresh (pcfg k)) (fuel := 20) hm (by simp [CountersOk, State.fresh])
    (by simp [State.fresh, pcfg, testCfg]) (by simpa [State.fresh, pcfg, testCfg] using hk) rfl (by simp [State.fresh, pcfg, testCfg, Enabled]) hpl hi
    (by
      rintro (⟨_, h | ⟨k, h⟩⟩ | ⟨_, h | h⟩ | ⟨h, _⟩ | ⟨h, _⟩)
      · cases h
      · cases h
      · cases h
      · cases h
      · cases h
      · cases h) hans
  have h0 : ¬ (pcfg k).execution.timeout > 0 := fun h => absurd h (lt_irrefl (0 : ℚ))
  exact ⟨s'.results.equivalence, ⟨nothing_faithful _, _, h, m, n, hd, S.toPBase, e1, e2, na, nb,
    ⟨fun _ => by show SchemeType.proportional ≠ _; decide, fun _ => hcan⟩, fun _ _ _ _ h => absurd ((hoe _ _).symm.trans h) Bool.false_ne_true,
    .sequential env 20 s' hm h0 hr hans⟩, h1, h2⟩

theorem knowing_calm_partial {x y : Circ WOp} {cfg : Configuration} {r : Param.Res} (h : CalmPManagerRun lib x y cfg [] r.equivalence) :
    CalmPRealises lib (imp x y) (knowing cfg r) := by
  intro k c s x' y' r' d1 d2 hp h1 h2 hk
  simp only [knowing] at hk
  split at hk
  · rename_i hh
    obtain ⟨rfl, rfl, rfl, rfl⟩ := hh
    simp only [imp, VerifyWitness.a, VerifyWitness.b, Option.some.injEq] at h1 h2
    subst h1 h2
    cases hk
    exact h
  · exact absurd hk (by simp)

theorem g_none (q : Nat) : ([false, false, false] : List Bool).getD q false = false := by
  rcases q with _ | _ | _ | q <;> rfl

/-- **C82, C74**: the hypotheses of `verify_partially_decides` are met by worlds in which `verify` finds `X(0)` and `X(0) X(2)`, of which qubit 2 is not
measured, equivalent, and `X(0)` and `X(2)` not. -/
theorem partially_decides_both : ∃ w w' res res', CalmPRealises VerifyWitness.plain (imp g1 g2) w ∧ Param.verify w (pcfg 16) VerifyWitness.a VerifyWitness.b = .ok res ∧
    (res.equivalence = .equivalent ∨ res.equivalence = .equivalentUpToGlobalPhase) ∧ CalmPRealises VerifyWitness.plain (imp g1 g3) w' ∧
    Param.verify w' (pcfg 16) VerifyWitness.a VerifyWitness.b = .ok res' ∧ res'.equivalence = .notEquivalent ∧
    SameGarbage g1 g2 ∧ SameGarbage g1 g3 ∧ (∀ q, g1.isAncillary q = false) ∧ (∀ q, g2.isAncillary q = false) ∧ (∀ q, g3.isAncillary q = false) ∧
    Enabled (pcfg 16) .alternating ∧ (pcfg 16).functionality.checkPartialEquivalence = true ∧ Runnable g1 ∧ Runnable g2 ∧ Runnable g3 := by
  obtain ⟨v, hv, _, hc⟩ := calm_prun_exists (a := g1) (b := g2) (psettingOf keepX bothX keepX_wf bothX_wf rfl) rfl trivial (fun _ _ => rfl) (psetting_plain rfl rfl)
    (psetting_idle rfl) rfl gNumbered1 gNumbered2 (k := 4) (by omega) rfl
  obtain ⟨v', hv', hc', _⟩ := calm_prun_exists (a := g1) (b := g3) (psettingOf keepX garbageX keepX_wf garbageX_wf rfl) rfl trivial (fun _ _ => rfl) (psetting_plain rfl rfl)
    (psetting_idle rfl) rfl gNumbered1 gNumbered3 (k := 4) (by omega) rfl
  refine ⟨_, _, { equivalence := v }, { equivalence := v' }, knowing_calm_partial hv, knowing_verify _ _,
    hc.2 ((partially_congr (unread_same _ rfl) (fun _ => rfl) _ _ _ _).2 (keepX_partially_bothX _)), knowing_calm_partial hv', knowing_verify _ _,
    hc'.2 fun h => keepX_not_partially_garbageX ((partially_congr (unread_same _ rfl) (fun _ => rfl) _ _ _ _).1 h),
    fun _ _ _ => rfl, fun _ _ _ => rfl, g_none, g_none, g_none, rfl, rfl, gr1, gr2, gr3⟩

/-! ## Different widths -/

/-- One qubit: X. -/
noncomputable def u1 : Circ WOp := { k1 with ops := [wX 0] }

/-- Two qubits, both measured: X on the first one, Z on the second one. -/
noncomputable def u2 : Circ WOp where
  ndata := 2
  nancillae := 0
  initialLayout := [(0, 0), (1, 1)]
  outputPermutation := [(0, 0), (1, 1)]
  ancillary := [false, false]
  garbage := [false, false]
  ops := [wX 0, wZ 1]

/-- The first circuit after preparation: a qubit was added, not measured. -/
noncomputable def w1 : Circ WOp where
  ndata := 1
  nancillae := 1
  initialLayout := [(0, 0), (1, 1)]
  outputPermutation := [(0, 0)]
  ancillary := [false, true]
  garbage := [false, true]
  ops := u1.ops

/-- The second circuit after preparation: its second qubit is ancillary, and measured. -/
noncomputable def w2 : Circ WOp where
  ndata := 1
  nancillae := 1
  initialLayout := [(0, 0), (1, 1)]
  outputPermutation := [(0, 0), (1, 1)]
  ancillary := [false, true]
  garbage := [false, false]
  ops := u2.ops

/-- The circuits the checkers get. -/
noncomputable def p1 : QC 2 where
  ops := [.simple (.gate (gX 0))]
  initialLayout := 1
  outputPermutation := [(0, 0)]
  ancillary := [false, true]
  garbage := [false, true]
noncomputable def p2 : QC 2 where
  ops := [.simple (.gate (gX 0)), .simple (.gate (gate1 mZ 1))]
  initialLayout := 1
  outputPermutation := idOut2
  ancillary := [false, true]
  garbage := [false, false]

theorem p1_wf : WellFormed p1 1 := by
  refine ⟨?_, ⟨by simp [p1], by simp [p1]⟩, rfl⟩
  intro o ho
  simp only [p1, List.mem_cons, List.not_mem_nil, or_false] at ho
  subst ho
  exact gX_valid 0

theorem p2_wf : WellFormed p2 1 := by
  refine .of_total ?_ idOut2_valid idOut2_total idOut2_ext
  intro o ho
  simp only [p2, List.mem_cons, List.not_mem_nil, or_false] at ho
  rcases ho with rfl | rfl
  · exact gX_valid 0
  · exact gateZ_valid _

theorem p1_idle : Idle p1 1 1 := by
  refine ⟨1, rfl, rfl, fun o ho => ?_⟩
  simp only [p1, List.mem_cons, List.not_mem_nil, or_false] at ho
  subst ho
  exact fun _ h => by simp [gX, gate1] at h

/-- The two circuits and the checkers. -/
noncomputable def wpair : PSetting 1 2 where
  qc1 := p1
  qc2 := p2
  ω1 := 1
  ω2 := 1
  wf1 := p1_wf
  wf2 := p2_wf
  data := by omega
  garb := fun _ _ d => d
  garbV := fun _ _ d => d
  T := idealTests 2
  V := idealVectorTests 2 (1 / 100)
  threshold := by simp [idealVectorTests]
  opEq := fun _ _ => false
  schA := .counts oneToOneScheme
  schC := oneToOneScheme
  schS := oneToOneScheme
  confA := .counts _ ⟨oneToOneConfigured _ _⟩
  confC := ⟨oneToOneConfigured _ _⟩
  confS := ⟨oneToOneConfigured _ _⟩
  stateType := .random1QBasis
  cliff := fun k _ z => if z = fun _ => false then 1 else 0
  cliff_normalised := by intro k seed; simp [Normalised, Spec.inner]
  G := idealGarbageTest 2
  safe := ⟨fun _ => .disjoint fun _ _ _ _ => rfl, fun h => absurd trivial h⟩
  garbage := by
    intro q
    have : q = 0 ∨ q = 1 := by omega
    rcases this with rfl | rfl
    · exact Or.inl rfl
    · exact Or.inr ⟨Nat.le_refl _, rfl, rfl, Or.inl ⟨rfl, p1_idle⟩⟩

theorem p1_output (v : Basis 2 → ℂ) (x : Basis 2) : Spec.output p1 1 v x = v (Function.update x 0 (!x 0)) := by
  simp only [Spec.output, readOut, execute, p1, Op.phys, SOp.phys, load, gX_mulVec]
  rfl

theorem p2_output (v : Basis 2 → ℂ) (x : Basis 2) : Spec.output p2 1 v x = (if x 1 then -1 else 1) * v (Function.update x 0 (!x 0)) := by
  simp only [Spec.output, readOut, execute, p2, Op.phys, SOp.phys, load, gX_mulVec, gZ_mulVec]
  rfl

theorem wpair_partially (anc : List Bool) : wpair.Partially anc := by
  intro v _ k
  unfold prob
  refine Finset.sum_congr rfl fun x _ => ?_
  have : ‖Spec.output wpair.qc1 wpair.ω1 v x‖ = ‖Spec.output wpair.qc2 wpair.ω2 v x‖ := by
    show ‖Spec.output p1 1 v x‖ = ‖Spec.output p2 1 v x‖
    rw [p1_output, p2_output]
    cases x 1 <;> simp
  rw [this]

theorem wpair_plain : wpair.Plain := by
  intro q
  have : q = 0 ∨ q = 1 := by omega
  rcases this with rfl | rfl <;> exact ⟨rfl, rfl⟩

theorem wpair_idle : wpair.OneIdle := by
  refine Or.inl fun q h _ => ?_
  have : q = 0 ∨ q = 1 := by omega
  rcases this with rfl | rfl
  · cases h
  · exact p1_idle

theorem wNumbered1 : Numbered count w1 p1 := by
  refine ⟨rfl, ?_, rfl, ?_, rfl, ?_, ?_⟩
  · intro p p' q q' hp hp' he
    simp only [w1, List.mem_cons, Prod.mk.injEq, List.not_mem_nil, or_false] at hp hp'
    rcases hp with ⟨rfl, _⟩ | ⟨rfl, _⟩ <;> rcases hp' with ⟨rfl, _⟩ | ⟨rfl, _⟩
    · rfl
    · exact absurd he (by decide)
    · exact absurd he (by decide)
    · rfl
  · intro p q hp
    simp only [w1, List.mem_cons, Prod.mk.injEq, List.not_mem_nil, or_false] at hp
    rcases hp with ⟨rfl, rfl⟩ | ⟨rfl, rfl⟩ <;> rfl
  · intro q hq
    have : q = 0 ∨ q = 1 := by omega
    rcases this with rfl | rfl <;> rfl
  · intro q hq
    have : q = 0 ∨ q = 1 := by omega
    rcases this with rfl | rfl <;> rfl

theorem wNumbered2 : Numbered count w2 p2 := by
  refine ⟨rfl, wNumbered1.inj, rfl, wNumbered1.initial, rfl, wNumbered1.ancillary, ?_⟩
  intro q hq
  have : q = 0 ∨ q = 1 := by omega
  rcases this with rfl | rfl <;> rfl

theorem u2_runnable : Runnable u2 where
  ok := ⟨(dOk []).keys, (dOk []).inj, (dOk []).onto, (dOk []).outKeys, (dOk []).outInj, (dOk []).outRange, (dOk []).outGarbage, rfl, rfl, rfl⟩
  proper := fun o ho => by
    simp only [u2, List.mem_cons, List.not_mem_nil, or_false] at ho
    rcases ho with rfl | rfl
    · exact wX_proper 0
    · exact fun s hs => d2_runnable.proper (wZ 1) (by simp [d2]) s hs
  inside := fun o ho p hn => ⟨p, by
    show (p, p) ∈ [(0, 0), (1, 1)]
    simp only [u2, List.mem_cons, List.not_mem_nil, or_false] at ho
    rcases ho with rfl | rfl
    · rw [wX_names hn]; simp
    · rw [wZ_names hn]; simp⟩
  outInside := fun p q hp => ⟨q, hp⟩

theorem u1_runnable : Runnable u1 where
  ok := kOk _
  proper := fun o ho => by
    simp only [u1, List.mem_cons, List.not_mem_nil, or_false] at ho
    subst ho
    exact wX_proper 0
  inside := fun o ho p hn => ⟨0, by
    simp only [u1, List.mem_cons, List.not_mem_nil, or_false] at ho
    subst ho
    rw [wX_names hn]
    exact List.mem_singleton.2 rfl⟩
  outInside := fun p q hp => ⟨q, hp⟩

/-- **C82, C74**: circuits of different width, all of whose qubits are measured.  `X(0)` on one qubit and `X(0) Z(1)` on two are reported equivalent (the
qubit only the second circuit has starts in `|0⟩`); they meet the hypotheses of `verify_partially_decides`. -/
theorem partially_decides_widths : ∃ w res, CalmPRealises VerifyWitness.plain (imp u1 u2) w ∧ Param.verify w (pcfg 16) VerifyWitness.a VerifyWitness.b = .ok res ∧
    (res.equivalence = .equivalent ∨ res.equivalence = .equivalentUpToGlobalPhase) ∧ PartiallyEqual u1 u2 ∧
    u1.nqubits = 1 ∧ u2.nqubits = 2 ∧ SameGarbage u1 u2 ∧ (∀ q, u1.isAncillary q = false) ∧ (∀ q, u2.isAncillary q = false) ∧ Runnable u1 ∧
    Runnable u2 := by
  have hc : Prep.construct named nothingToDo (pcfg 16) u1 u2 = .made { qc1 := w1, qc2 := w2, cfg := pcfg 2 } := rfl
  obtain ⟨v, hv, _, hp⟩ := calm_prun_exists (a := u1) (b := u2) wpair rfl trivial (fun _ _ => rfl) wpair_plain wpair_idle rfl wNumbered1 wNumbered2 (k := 2) (by omega) hc
  refine ⟨_, { equivalence := v }, knowing_calm_partial hv, knowing_verify _ _, hp.2 (wpair_partially _), ?_, rfl, rfl, ?_, ?_, ?_, u1_runnable, u2_runnable⟩
  · exact (constructed_partially named_reliable u1_runnable u2_runnable (nothing_faithful _) hc wpair wNumbered1 wNumbered2 false (by simp)).1.1
      (wpair_partially _)
  · intro q h _
    have : q = 0 := by have : q < 1 := h; omega
    subst this
    rfl
  · intro q
    rcases q with _ | q <;> rfl
  · intro q
    rcases q with _ | _ | q <;> rfl

end QCEC.Props.VerifyPartialDecidesWitness
