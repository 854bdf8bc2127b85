import Verif.Props.VerifyEndToEndPartialWitness
/-!
# C61, C81: circuits that declare different qubits as ancillary
-/
namespace QCEC.Props.VerifyMixedWitness
open QCEC QCEC.DD QCEC.Param QCEC.Mgr QCEC.Prep QCEC.Spec QCEC.Spec.Wide QCEC.Spec.ZX QCEC.Wide QCEC.Sem QCEC.Spec.Param QCEC.Props
open QCEC.Props.PreparationWitness QCEC.Props.VerifyPartialWitness

/-- The rotation after a Z gate, its qubit being declared ancillary. -/
noncomputable def zRotA : QC 1 := { zRot with ancillary := [true] }

theorem zRotA_wf : WellFormed zRotA 1 := ⟨zRot_wf.ops, zRot_wf.out, zRot_wf.labels⟩

/-- Two one-qubit circuits, the qubit of the first one is ancillary. -/
noncomputable def mixedOf (q1 q2 : QC 1) (w1 : WellFormed q1 1) (w2 : WellFormed q2 1) :
    Mixed 0 1 where
  qc1 := q1
  qc2 := q2
  ω1 := 1
  ω2 := 1
  wf1 := w1
  wf2 := w2
  data := by omega
  garb := fun _ _ d => d
  garbV := fun _ _ d => d
  T := idealTests 1
  V := idealVectorTests 1 (1 / 100)
  threshold := by simp [idealVectorTests]
  opEq := fun _ _ => false
  schA := .counts oneToOneScheme
  schC := oneToOneScheme
  schS := oneToOneScheme
  confA := .counts _ ⟨oneToOneConfigured _ _⟩
  confC := ⟨oneToOneConfigured _ _⟩
  confS := ⟨oneToOneConfigured _ _⟩
  stateType := .random1QBasis
  cliff := fun k _ z => if z = fun _ => false then 1 else 0
  cliff_normalised := by intro k seed; simp [Normalised, Spec.inner]

/-- The rotation once with an ancillary qubit and once with a data qubit. -/
noncomputable def twice : Mixed 0 1 := mixedOf (rot [true]) (rot []) (rot_wf _) (rot_wf _)
/-- Z and the rotation on an ancillary qubit, and the rotation on a data qubit. -/
noncomputable def phased : Mixed 0 1 := mixedOf zRotA (rot []) zRotA_wf (rot_wf _)

theorem phased_safe : phased.Safe := ⟨⟨fun _ => .disjoint fun _ _ _ _ => rfl, fun h => absurd trivial h⟩,
  fun _ => Or.inl fun q h => by obtain ⟨_, h⟩ := h; exact absurd h (by revert q; decide)⟩

theorem exists_mixed_alternating {m n : Nat} (S : Mixed m n) (hs : S.Safe) (accepted : Accepted S.qc1 S.qc2) : ∃ c, MAnswer S true .alternating c := by
  obtain ⟨v, s, hr, _⟩ := alternating_outcome S.garb S.qc1 S.qc2 S.ω1 S.ω2 S.wf1 S.wf2 S.T S.opEq S.schA hs.1.1
    (S.confA.configured hs.1) (altVerdict S.T.close S.T.wOne) (fun _ => false) (fun _ _ _ h => h) .noInformation _ (Nat.le_refl _)
  exact ⟨v, .alternating (fun _ => false) (fun _ _ _ h => h) (fun _ _ => rfl) _ (Nat.le_refl _) accepted v s hr⟩

theorem twice_construction : MAnswer twice false .construction .notEquivalent := by
  obtain ⟨⟨s, hs⟩, _, _⟩ := construction_flags_incomplete (fun _ _ d => d) (idealTests 1)
  exact .construction (fun _ => false) (fun _ _ _ h => h) (by simp) _ (Nat.le_refl _) _ s hs

theorem phased_same : Same (phased.someAnc false) phased.qc1 phased.ω1 phased.qc2 phased.ω2 := by
  intro v hv
  funext x
  have h0 : v (bit true) = 0 := by
    by_contra h
    exact absurd (hv _ h 0 rfl) (by simp [bit])
  rw [one_smul, basis1 x]
  show output zRot 1 v (bit (x 0)) = output (rot []) 1 v (bit (x 0))
  rw [rot_output, zRot_output, h0, mul_zero, sub_zero, add_zero]

theorem phased_different : ¬ SameUpToPhase (phased.bothAnc false) phased.qc1 phased.ω1 phased.qc2 phased.ω2 := by
  rintro ⟨c, hc, h⟩
  have := congrFun (h (fun _ => 1) (fun x _ q hq => by
    rw [Mixed.bothAnc, marks_get] at hq
    exact absurd hq (by revert q; decide))) (bit true)
  have e : output zRot 1 (fun _ => 1) (bit true) = c * output (rot []) 1 (fun _ => 1) (bit true) := this
  rw [rot_output, zRot_output] at e
  have e' := congrArg (fun z : ℂ => ‖z‖) e
  simp only [norm_mul, hc, mR, mul_one, one_mul] at e'
  norm_num at e'

theorem phased_alternating : MAnswer phased false .alternating .notEquivalent := by
  obtain ⟨c, hc⟩ := exists_mixed_alternating phased phased_safe (fun q h => by obtain ⟨_, h⟩ := h; exact absurd h (by revert q; decide))
  have hw : MAnswer phased false .alternating c := by
    cases hc with
    | alternating stop hm hq fuel hf handled c s h => exact .alternating stop hm (by simp) fuel hf handled c s h
  rcases mixed_answer_means phased (fun _ => phased_safe) hc with h | h
  · exact absurd h.1 (by simp)
  · have : c = .notEquivalent := by
      exact h.notEquivalent.2 phased_different
    rwa [← this]

/-- The rotation on an ancillary qubit. -/
noncomputable def ka : Circ WOp := { k1 with ndata := 0, nancillae := 1, ancillary := [true] }
/-- Z and the rotation on an ancillary qubit. -/
noncomputable def kz : Circ WOp := { k2 with ndata := 0, nancillae := 1, ancillary := [true] }

theorem ancillary_runnable {ops : List WOp} (h : Runnable { k1 with ops := ops }) :
    Runnable { k1 with ops := ops, ndata := 0, nancillae := 1, ancillary := [true] } := by
  obtain ⟨⟨h1, h2, h3, h4, h5, h6, h7, _, h9, _⟩, p, i, o⟩ := h
  exact ⟨⟨h1, h2, h3, h4, h5, h6, h7, rfl, h9, rfl⟩, p, i, o⟩

theorem ka_runnable : Runnable ka := ancillary_runnable (kRunnable [wGate mR] (by simp))
theorem kz_runnable : Runnable kz := ancillary_runnable (kRunnable [wGate mZ, wGate mR] (by simp))
theorem k1_runnable : Runnable k1 := kRunnable [wGate mR] (by simp)

theorem ka_numbered : Numbered (fun _ => (0 : Fin 1)) ka (rot [true]) := by
  have := kNumbered [wGate mR]
  refine ⟨this.width, this.inj, this.ops, this.initial, this.output, ?_, this.garbage⟩
  intro q hq
  have : q = 0 := by omega
  subst this
  rfl

theorem kz_numbered : Numbered (fun _ => (0 : Fin 1)) kz zRotA := by
  have := kNumbered [wGate mZ, wGate mR]
  refine ⟨this.width, this.inj, this.ops, this.initial, this.output, ?_, this.garbage⟩
  intro q hq
  have : q = 0 := by omega
  subst this
  rfl

theorem different_ancillas : ¬ SameAncillas kz k1 ∧ ¬ SameAncillas ka k1 :=
  ⟨fun h => absurd (h 0 (by decide) (by decide)) (by decide), fun h => absurd (h 0 (by decide) (by decide)) (by decide)⟩

/-- Only the alternating checker. -/
def acfg : Configuration := testCfg false true false false 0 0
/-- Only the construction checker. -/
def ccfg : Configuration := testCfg false false true false 0 0

theorem knowing_realises {x y : Circ WOp} {cfg : Configuration} {r : Param.Res} (h : ManagerRun lib x y cfg [] r.equivalence) :
    Realises lib (imp x y) (knowing cfg r) := by
  intro k c s x' y' r' d1 d2 hp h1 h2 hk
  simp only [knowing] at hk
  split at hk
  · rename_i hh
    obtain ⟨rfl, rfl, rfl, rfl⟩ := hh
    simp only [imp, VerifyWitness.a, VerifyWitness.b, Option.some.injEq] at h1 h2
    subst h1 h2
    cases hk
    exact h
  · exact absurd hk (by simp)

/-- **C81**, circuits that declare different qubits as ancillary: `verify` with the alternating checker reports `NotEquivalent` for two circuits that do
the same whenever the qubit that is ancillary in one of them is `|0⟩` – the other direction of `Verdict.notEquivalent` cannot be strengthened. -/
theorem different_ancillas_refuted : ∃ w res, Realises VerifyWitness.plain (imp kz k1) w ∧ Param.verify w acfg VerifyWitness.a VerifyWitness.b = .ok res ∧
    res.equivalence = .notEquivalent ∧ Runnable kz ∧ Runnable k1 ∧ Equal kz k1 ∧ ¬ ∃ k : ℂ, ‖k‖ = 1 ∧ EqualOn (FixedInBoth kz k1) k kz k1 := by
  let env := testEnv (fun _ => some .equivalent) (.returns .notEquivalent) (.returns .equivalent) (.returns .noInformation)
  have hm : mode env acfg = .sequential := rfl
  obtain ⟨s', hr, he⟩ : ∃ s', Mgr.run env 20 (State.fresh acfg) = some (.returned s') ∧ s'.results.equivalence = .notEquivalent := ⟨_, rfl, rfl⟩
  have hc : Prep.construct named nothingToDo acfg kz k1 = .made { qc1 := kz, qc2 := k1, cfg := acfg } := rfl
  have hp : ∀ p ∈ planned acfg.optimizations true, Faithful nothingToDo p := fun p _ c hc => ⟨hc, rfl, fun _ => rfl, fun _ _ => rfl⟩
  have hrun : ManagerRun VerifyWitness.plain kz k1 acfg [] .notEquivalent := by
    refine ⟨hp, _, hc, 0, 1, rfl, phased, _, _, kz_numbered, kNumbered _,
      ⟨fun _ => by decide, fun _ => trivial⟩, fun _ _ _ _ h => Bool.noConfusion h, ?_⟩
    rw [← he]
    refine .sequential env 20 s' hm hr ?_
    rintro ⟨k, v⟩ h hen
    cases k
    · cases hen
    · cases h
      exact phased_alternating
    · cases hen
    · cases hen
  have key := mixed_constructed named_reliable kz_runnable k1_runnable hp hc phased kz_numbered (kNumbered _)
  refine ⟨knowing acfg { equivalence := .notEquivalent }, { equivalence := .notEquivalent }, knowing_realises hrun, knowing_verify _ _, rfl, kz_runnable,
    k1_runnable, (key 1 false (by simp)).1.1 phased_same, ?_⟩
  rintro ⟨k, hk, h⟩
  exact phased_different ⟨k, hk, (key k false (by simp)).2.2 h⟩

/-- **C81**, the exception `ConstructionMixed` is needed: `verify` with the construction checker reports `NotEquivalent` for the *same* operations, of
which the one circuit declares the qubit as ancillary, although they agree on all inputs. -/
theorem same_operations_refuted : ∃ w res, Realises VerifyWitness.plain (imp ka k1) w ∧ Param.verify w ccfg VerifyWitness.a VerifyWitness.b = .ok res ∧
    res.equivalence = .notEquivalent ∧ Runnable ka ∧ Runnable k1 ∧ ka.ops = k1.ops ∧ (∀ v x, Wide.output ka v x = Wide.output k1 v x) ∧
    EqualOn (FixedInBoth ka k1) 1 ka k1 ∧ ConstructionMixed VerifyWitness.plain ka k1 ccfg [] := by
  let env := testEnv (fun _ => some .equivalent) (.returns .equivalent) (.returns .notEquivalent) (.returns .noInformation)
  have hm : mode env ccfg = .sequential := rfl
  obtain ⟨s', hr, he⟩ : ∃ s', Mgr.run env 20 (State.fresh ccfg) = some (.returned s') ∧ s'.results.equivalence = .notEquivalent := ⟨_, rfl, rfl⟩
  have hc : Prep.construct named nothingToDo ccfg ka k1 = .made { qc1 := ka, qc2 := k1, cfg := ccfg } := rfl
  have hp : ∀ p ∈ planned ccfg.optimizations true, Faithful nothingToDo p := fun p _ c hc => ⟨hc, rfl, fun _ => rfl, fun _ _ => rfl⟩
  have hrun : ManagerRun VerifyWitness.plain ka k1 ccfg [] .notEquivalent := by
    refine ⟨hp, _, hc, 0, 1, rfl, twice, _, _, ka_numbered, kNumbered _,
      ⟨fun _ => by decide, fun _ => trivial⟩, fun _ _ _ _ h => Bool.noConfusion h, ?_⟩
    rw [← he]
    refine .sequential env 20 s' hm hr ?_
    rintro ⟨k, v⟩ h hen
    cases k
    · cases hen
    · cases hen
    · cases h
      exact twice_construction
    · cases hen
  have out : ∀ v x, Wide.output ka v x = Wide.output k1 v x := fun _ _ => rfl
  refine ⟨knowing ccfg { equivalence := .notEquivalent }, { equivalence := .notEquivalent }, knowing_realises hrun, knowing_verify _ _, rfl, ka_runnable,
    k1_runnable, rfl, out, fun v _ x => by rw [one_mul]; exact out v x, different_ancillas.2, _, hp, hc, rfl⟩

end QCEC.Props.VerifyMixedWitness
