import Verif.Props.VerifyMixedWitness
import Verif.Props.ExhaustiveWitness
import Verif.Props.AncillasLast
import Verif.Props.StateGen
/-!
# C61, C81: ancillary qubits that are not the last ones
-/
namespace QCEC.Props.VerifyDisplacedWitness
open QCEC QCEC.DD QCEC.Param QCEC.Mgr QCEC.Prep QCEC.Gen QCEC.Spec QCEC.Spec.Wide QCEC.Spec.ZX QCEC.Wide QCEC.Sem QCEC.Spec.Param QCEC.Props
open QCEC.Props.PreparationWitness QCEC.Props.VerifyPartialWitness QCEC.Props.VerifyMixedWitness

/-- A Z gate. -/
noncomputable def wZ (p : Nat) : WOp := .simple (.gate { k := 1, u := fun x y => mZ (x 0) (y 0), targets := fun _ => p, controls := [] })

/-- Two qubits of which the *first* one is ancillary; a Z gate on each. -/
noncomputable def d1 : Circ WOp where
  ndata := 1
  nancillae := 1
  initialLayout := [(0, 0), (1, 1)]
  outputPermutation := [(0, 0), (1, 1)]
  ancillary := [true, false]
  garbage := [false, false]
  ops := [wZ 0, wZ 1]

/-- The same without the gate on the ancillary qubit. -/
noncomputable def d2 : Circ WOp := { d1 with ops := [wZ 1] }

theorem wZ_names {p q : Nat} (h : (wZ p).Names q) : q = p := by
  obtain ⟨s, hs, hn⟩ := h
  rw [wZ, WOp.parts, List.mem_singleton] at hs
  subst hs
  rcases hn with ⟨_, h⟩ | ⟨_, h⟩
  · exact h.symm
  · exact absurd h (by simp)

theorem dOk (ops : List WOp) : CircOk { d1 with ops := ops } := by
  have e1 : (([(0, 0), (1, 1)] : Layout).map Prod.fst).Pairwise (· < ·) := by decide
  have e2 : (([(0, 0), (1, 1)] : Layout).map Prod.snd).Nodup := by decide
  refine ⟨e1, e2, ?_, e1, e2, ?_, ?_, rfl, rfl, rfl⟩
  · intro q
    show (∃ p, (p, q) ∈ [(0, 0), (1, 1)]) ↔ q < 2
    constructor
    · rintro ⟨p, hp⟩
      simp only [List.mem_cons, Prod.mk.injEq, List.not_mem_nil, or_false] at hp
      omega
    · intro hq
      have : q = 0 ∨ q = 1 := by omega
      rcases this with rfl | rfl
      · exact ⟨0, by simp⟩
      · exact ⟨1, by simp⟩
  · intro p q hp
    have hp : (p, q) ∈ [(0, 0), (1, 1)] := hp
    simp only [List.mem_cons, Prod.mk.injEq, List.not_mem_nil, or_false] at hp
    show q < 2
    omega
  · intro p q hp
    have hp : (p, q) ∈ [(0, 0), (1, 1)] := hp
    simp only [List.mem_cons, Prod.mk.injEq, List.not_mem_nil, or_false] at hp
    rcases hp with ⟨_, rfl⟩ | ⟨_, rfl⟩ <;> rfl

theorem dRunnable (ops : List WOp) (h : ∀ o ∈ ops, o = wZ 0 ∨ o = wZ 1) : Runnable { d1 with ops := ops } where
  ok := dOk ops
  proper := fun o ho s hs => by
    rcases h o ho with rfl | rfl <;> rw [wZ, WOp.parts, List.mem_singleton] at hs <;> subst hs <;>
      exact ⟨fun _ _ _ => Subsingleton.elim _ _, by simp, mZ_valid.unitary⟩
  inside := fun o ho p hn => ⟨p, by
    show (p, p) ∈ [(0, 0), (1, 1)]
    have : p = 0 ∨ p = 1 := by
      rcases h o ho with rfl | rfl
      · exact .inl (wZ_names hn)
      · exact .inr (wZ_names hn)
    rcases this with rfl | rfl <;> simp⟩
  outInside := fun p q hp => ⟨q, hp⟩

theorem d1_runnable : Runnable d1 := dRunnable [wZ 0, wZ 1] (by simp)
theorem d2_runnable : Runnable d2 := dRunnable [wZ 1] (by simp)

/-- The circuits the checkers get. -/
noncomputable def q1 : QC 2 where
  ops := [.simple (.gate (gate1 mZ 0)), .simple (.gate (gate1 mZ 1))]
  initialLayout := 1
  outputPermutation := idOut2
  ancillary := [true, false]
noncomputable def q2 : QC 2 where
  ops := [.simple (.gate (gate1 mZ 1))]
  initialLayout := 1
  outputPermutation := idOut2
  ancillary := [true, false]

theorem gateZ_valid (p : Fin 2) : (gate1 mZ p).Valid := gate1_valid mZ p (by intro a b; cases a <;> cases b <;> simp [mZ])

theorem q1_wf : WellFormed q1 1 := by
  refine .of_total ?_ idOut2_valid idOut2_total idOut2_ext
  intro o ho
  simp only [q1, List.mem_cons, List.not_mem_nil, or_false] at ho
  rcases ho with rfl | rfl <;> exact gateZ_valid _

theorem q2_wf : WellFormed q2 1 := by
  refine .of_total ?_ idOut2_valid idOut2_total idOut2_ext
  intro o ho
  simp only [q2, List.mem_cons, List.not_mem_nil, or_false] at ho
  subst ho
  exact gateZ_valid _

theorem q1_output (v : Basis 2 → ℂ) (z : Basis 2) : output q1 1 v z = (if z 0 then -1 else 1) * ((if z 1 then -1 else 1) * v z) := by
  simp only [Spec.output, Spec.readOut, Spec.execute, q1, Op.phys, SOp.phys, gZ_mulVec, Spec.load]
  rw [mul_left_comm]
  rfl

theorem q2_output (v : Basis 2 → ℂ) (z : Basis 2) : output q2 1 v z = (if z 1 then -1 else 1) * v z := by
  simp only [Spec.output, Spec.readOut, Spec.execute, q2, Op.phys, SOp.phys, gZ_mulVec, Spec.load]
  rfl

/-- The two circuits and the checkers. -/
noncomputable def pair : Mixed 1 2 where
  qc1 := q1
  qc2 := q2
  ω1 := 1
  ω2 := 1
  wf1 := q1_wf
  wf2 := q2_wf
  data := by omega
  garb := fun _ _ d => d
  garbV := fun _ _ d => d
  T := idealTests 2
  V := idealVectorTests 2 (1 / 100)
  threshold := by simp [idealVectorTests]
  opEq := fun _ _ => false
  schA := .counts oneToOneScheme
  schC := oneToOneScheme
  schS := oneToOneScheme
  confA := .counts _ ⟨oneToOneConfigured _ _⟩
  confC := ⟨oneToOneConfigured _ _⟩
  confS := ⟨oneToOneConfigured _ _⟩
  stateType := .random1QBasis
  cliff := fun k _ z => if z = fun _ => false then 1 else 0
  cliff_normalised := by intro k seed; simp [Normalised, Spec.inner]

/-- The stimulus `|+⟩` on the ancillary qubit and `|0⟩` on the data qubit. -/
noncomputable def stim : Basis 2 → ℂ := fun z => ∏ q : _root_.Fin 2, amp ([Basis1.plus, .zero].getD q.val .zero) (z q)

theorem stim_apply (z : Basis 2) : stim z = 1 / (Real.sqrt 2 : ℂ) * (if z 1 then 0 else 1) := by
  simp [stim, Fin.prod_univ_two, amp]

theorem sum_bits (f : Basis 2 → ℂ) : ∑ z, f z = f ![false, false] + f ![false, true] + f ![true, false] + f ![true, true] := by
  have h : (Finset.univ : Finset (Basis 2)) = {![false, false], ![false, true], ![true, false], ![true, true]} := by decide
  rw [h, Finset.sum_insert (by decide), Finset.sum_insert (by decide), Finset.sum_insert (by decide), Finset.sum_singleton]
  ring

/-- The outputs are orthogonal. -/
theorem orthogonal : Spec.inner (output q1 1 stim) (output q2 1 stim) = 0 := by
  unfold Spec.inner
  rw [sum_bits]
  simp [q1_output, q2_output, stim_apply]

theorem refuted : equalsVector (idealVectorTests 2 (1 / 100)).ptrEq (idealVectorTests 2 (1 / 100)).wEq
    (idealVectorTests 2 (1 / 100)).realClose (idealVectorTests 2 (1 / 100)).fidClose (output q1 1 stim) (output q2 1 stim) = .notEquivalent := by
  have hp : (idealVectorTests 2 (1 / 100)).ptrEq (output q1 1 stim) (output q2 1 stim) = false := by
    simp only [idealVectorTests, decide_eq_false_iff_not]
    rintro ⟨c, hc, h⟩
    have ha := congrFun h ![false, false]
    have hb := congrFun h ![true, false]
    simp [q1_output, q2_output, stim_apply] at ha hb
    rw [ha, one_mul] at hb
    have h2 : ((Real.sqrt 2 : ℝ) : ℂ) ≠ 0 := by simp
    have := neg_eq_self.1 hb
    exact absurd this (inv_ne_zero h2)
  have hr : (idealVectorTests 2 (1 / 100)).realClose (output q1 1 stim) (output q2 1 stim) = false := by
    simp only [idealVectorTests, decide_eq_false_iff_not, orthogonal]
    norm_num
  have hf : (idealVectorTests 2 (1 / 100)).fidClose (output q1 1 stim) (output q2 1 stim) = false := by
    simp only [idealVectorTests, decide_eq_false_iff_not, orthogonal]
    norm_num
  rw [equalsVector, hp, hr, hf]
  rfl

theorem pair_simulation : MAnswer pair false .simulation .notEquivalent := by
  obtain ⟨e, g', hg⟩ := product_all_combinations [.plus] 2 (by decide)
  obtain ⟨s, hs, _⟩ := simulation_true_output (fun _ _ d => d) q1 q2 1 1 q1_wf q2_wf oneToOneScheme (oneToOneConfigured _ _)
    (equalsVector (idealVectorTests 2 (1 / 100)).ptrEq (idealVectorTests 2 (1 / 100)).wEq (idealVectorTests 2 (1 / 100)).realClose
      (idealVectorTests 2 (1 / 100)).fidClose) .noInformation stim
  rw [refuted] at hs
  exact .simulation _ ⟨tape, _, g', _, stim, fun _ => false, _, s, hg, .product [Basis1.plus, .zero], fun _ _ _ h => h, by simp, Nat.le_refl _, hs⟩

theorem pair_same : Same (pair.someAnc false) pair.qc1 pair.ω1 pair.qc2 pair.ω2 := by
  intro v hv
  funext z
  rw [one_smul]
  show output q1 1 v z = output q2 1 v z
  rw [q1_output, q2_output]
  by_cases h : v z = 0
  · rw [h]; simp
  · have := hv z h 0 rfl
    rw [this]; simp

theorem d1_numbered : Numbered count d1 q1 := by
  refine ⟨rfl, ?_, rfl, ?_, rfl, ?_, ?_⟩
  · intro p p' q q' hp hp' he
    simp only [d1, List.mem_cons, Prod.mk.injEq, List.not_mem_nil, or_false] at hp hp'
    rcases hp with ⟨rfl, _⟩ | ⟨rfl, _⟩ <;> rcases hp' with ⟨rfl, _⟩ | ⟨rfl, _⟩
    · rfl
    · exact absurd he (by decide)
    · exact absurd he (by decide)
    · rfl
  · intro p q hp
    simp only [d1, List.mem_cons, Prod.mk.injEq, List.not_mem_nil, or_false] at hp
    rcases hp with ⟨rfl, rfl⟩ | ⟨rfl, rfl⟩ <;> rfl
  · intro q hq
    have : q = 0 ∨ q = 1 := by omega
    rcases this with rfl | rfl <;> rfl
  · intro q hq
    have : q = 0 ∨ q = 1 := by omega
    rcases this with rfl | rfl <;> rfl

theorem d2_numbered : Numbered count d2 q2 :=
  ⟨rfl, d1_numbered.inj, rfl, d1_numbered.initial, rfl, d1_numbered.ancillary, d1_numbered.garbage⟩

/-- Only one simulation. -/
def scfg : Configuration := testCfg true false false false 1 0

/-- **C81**, the exception `Displaced` is needed: both circuits declare the same qubit as ancillary, which is not the last one, and do the same whenever it
is `|0⟩`; but the simulation checker varies this qubit and keeps the last one at `|0⟩` instead, and `verify` reports `NotEquivalent`. -/
theorem displaced_ancilla_refuted : ∃ w res, Realises VerifyWitness.plain (imp d1 d2) w ∧ Param.verify w scfg VerifyWitness.a VerifyWitness.b = .ok res ∧
    res.equivalence = .notEquivalent ∧ Runnable d1 ∧ Runnable d2 ∧ SameAncillas d1 d2 ∧ Equal d1 d2 ∧ Displaced VerifyWitness.plain d1 d2 scfg [] .simulation := by
  let env := testEnv (fun _ => some .notEquivalent) (.returns .equivalent) (.returns .equivalent) (.returns .noInformation)
  have hm : mode env scfg = .sequential := rfl
  obtain ⟨s', hr, he⟩ : ∃ s', Mgr.run env 20 (State.fresh scfg) = some (.returned s') ∧ s'.results.equivalence = .notEquivalent := ⟨_, rfl, rfl⟩
  have hc : Prep.construct named nothingToDo scfg d1 d2 = .made { qc1 := d1, qc2 := d2, cfg := scfg } := rfl
  have hp : ∀ p ∈ planned scfg.optimizations true, Faithful nothingToDo p := fun p _ c hc => ⟨hc, rfl, fun _ => rfl, fun _ _ => rfl⟩
  have hrun : ManagerRun VerifyWitness.plain d1 d2 scfg [] .notEquivalent := by
    refine ⟨hp, _, hc, 1, 2, rfl, pair, _, _, d1_numbered, d2_numbered, 
      ⟨fun _ => by decide, fun _ => trivial⟩, fun _ _ _ _ h => Bool.noConfusion h, ?_⟩
    rw [← he]
    refine .sequential env 20 s' hm hr ?_
    rintro ⟨k, v⟩ h hen
    cases k
    · obtain ⟨_, h⟩ := h
      cases h
      exact pair_simulation
    · cases hen
    · cases hen
    · cases hen
  have key := mixed_constructed named_reliable d1_runnable d2_runnable hp hc pair d1_numbered d2_numbered
  refine ⟨knowing scfg { equivalence := .notEquivalent }, { equivalence := .notEquivalent }, knowing_realises hrun, knowing_verify _ _, rfl, d1_runnable,
    d2_runnable, fun _ _ _ => rfl, (key 1 false (by simp)).1.1 pair_same, _, hp, hc, rfl, ?_⟩
  intro h
  exact absurd (h 0 1 (by decide) (by decide) rfl) (by decide)

end QCEC.Props.VerifyDisplacedWitness
