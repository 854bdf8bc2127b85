import Verif.Props.EndToEnd
import Verif.Props.DDWitness
import Verif.Props.SequentialWitness
/-!
# C61: the hypotheses can be met, for every pair of circuits

For every setting the checkers have uninterrupted answers, so there is a run as in `sequential_verdict_decides`; two concrete pairs.
-/
namespace QCEC.Props
open QCEC QCEC.DD QCEC.Sem QCEC.Gen QCEC.ZX QCEC.Spec QCEC.Spec.ZX QCEC.Mgr QCEC.Prep Matrix

variable {m n : Nat}

theorem exists_alternating (S : Setting m n) (quiet : Bool)
    (handled : ∀ q : Fin n, m ≤ q.val → Idle S.qc1 S.ω1 q ∨ Idle S.qc2 S.ω2 q) : ∃ c, Answer S quiet .alternating c := by
  obtain ⟨v, s, hr, _⟩ := alternating_outcome S.garb S.qc1 S.qc2 S.ω1 S.ω2 S.wf1 S.wf2 S.T S.opEq S.schA S.cancel
    S.confA (altVerdict S.T.close S.T.wOne) (fun _ => false) (fun _ _ _ h => h) .noInformation _ (Nat.le_refl _)
  exact ⟨v, .alternating (fun _ => false) (fun _ _ _ h => h) (fun _ _ => rfl) _ (Nat.le_refl _) handled v s hr⟩

theorem exists_construction (S : Setting m n) (quiet : Bool) : ∃ c, Answer S quiet .construction c := by
  obtain ⟨hs⟩ := S.confC
  obtain ⟨s, h | h⟩ := runTwo_spec (exactMatrix n S.garb) S.schC false
    (equalsMatrix S.T.ptrEq S.T.wEq S.T.close fun e f => e * fᴴ) (fun _ => false) (fun _ _ _ h => h) .noInformation S.qc1 S.qc2 hs.good
    (constructionInit (exactMatrix n S.garb) 1 S.qc1) (constructionInit (exactMatrix n S.garb) 1 S.qc2) _ (Nat.le_refl _)
  · exact absurd h.1 (by simp)
  · exact ⟨_, .construction (fun _ => false) (fun _ _ _ h => h) (fun _ _ => rfl) _ (Nat.le_refl _) _ s h.2.1⟩

theorem exists_simulation (S : Setting m n) (quiet : Bool) (ht : S.stateType = .random1QBasis) : ∃ c, Answer S quiet .simulation c := by
  obtain ⟨hs⟩ := S.confS
  let x : Basis n → ℂ := fun z => ∏ q : Fin n, amp (((drawBases zeros (checkerReq n m S.stateType).random (Generator.new zeros 1 []).mt).1 ++
    List.replicate ((checkerReq n m S.stateType).total - (checkerReq n m S.stateType).random) Basis1.zero).getD q.val .zero) (z q)
  obtain ⟨s, h | h⟩ := runTwo_spec (exactVector n S.garbV) S.schS false
    (equalsVector S.V.ptrEq S.V.wEq S.V.realClose S.V.fidClose) (fun _ => false) (fun _ _ _ h => h) .noInformation S.qc1 S.qc2 hs.good
    x x _ (Nat.le_refl _)
  · exact absurd h.1 (by simp)
  · exact ⟨_, .simulation _ ⟨zeros, Generator.new zeros 1 [], _, _, x, fun _ => false, _, s, .product _ _ ht, .product _,
      fun _ _ _ h => h, fun _ _ => rfl, Nat.le_refl _, h.2.1⟩⟩

/-- As `decided_run_exists`; the run is a sequential one. -/
theorem sequential_run_exists (sims : Nat) (hs20 : sims < 20) (S : Setting m n) (ht : S.stateType = .random1QBasis)
    (handled : ∀ q : Fin n, m ≤ q.val → Idle S.qc1 S.ω1 q ∨ Idle S.qc2 S.ω2 q) :
    ∃ env : Env, mode env (testCfg true true true false sims 0) = .sequential ∧
      (∀ e, FromEnv env e → e.kind ≠ .zx → Answer S true e.kind e.verdict) ∧
      ∃ s', run env 20 (State.fresh (testCfg true true true false sims 0)) = some (.returned s') ∧
        Correct s'.results.equivalence (flags m n) S.qc1 S.ω1 S.qc2 S.ω2 := by
  obtain ⟨ca, ha⟩ := exists_alternating S true handled
  obtain ⟨cc, hc⟩ := exists_construction S true
  obtain ⟨cs, hs⟩ := exists_simulation S true ht
  have hfrom : ∀ e, FromEnv (testEnv (fun _ => some cs) (.returns ca) (.returns cc) (.returns .noInformation)) e → e.kind ≠ .zx →
      Answer S true e.kind e.verdict := by
    rintro ⟨k, v⟩ h hk
    cases k
    · obtain ⟨_, h⟩ := h
      cases h; exact hs
    · cases h; exact ha
    · cases h; exact hc
    · exact absurd rfl hk
  refine ⟨testEnv (fun _ => some cs) (.returns ca) (.returns cc) (.returns .noInformation), ?_, hfrom, ?_⟩
  · simp [mode, testEnv, testCfg, Configuration.anythingToExecute]
  refine sequential_verdict_decides S ?_ ?_ ?_ ?_ (Or.inl rfl) ?_ ?_
  · simp [mode, testEnv, testCfg, State.fresh, Configuration.anythingToExecute]
  · simp [CountersOk, State.fresh]
  · simp [State.fresh, testCfg]
  · simp only [State.fresh, testCfg]; exact hs20
  · rintro (⟨_, h | ⟨k, h⟩⟩ | ⟨_, h | h⟩ | ⟨_, h | h⟩ | ⟨h, _⟩)
    · cases h
    · cases h
    · cases h
    · cases h
    · cases h
    · cases h
    · cases h
  · intro e he hen
    refine hfrom e he ?_
    intro hk
    rw [hk] at hen
    cases hen

/-- **C61** is not vacuous: for every two circuits whose ancillary qubits are idle in one of them there are answers of the simulation, the
alternating and the construction checker with which a run of the manager returns the right verdict. -/
theorem decided_run_exists (sims : Nat) (hs20 : sims < 20) (S : Setting m n) (ht : S.stateType = .random1QBasis)
    (handled : ∀ q : Fin n, m ≤ q.val → Idle S.qc1 S.ω1 q ∨ Idle S.qc2 S.ω2 q) :
    ∃ env : Env, (∀ e, FromEnv env e → e.kind ≠ .zx → Answer S true e.kind e.verdict) ∧
      ∃ s', run env 20 (State.fresh (testCfg true true true false sims 0)) = some (.returned s') ∧
        Correct s'.results.equivalence (flags m n) S.qc1 S.ω1 S.qc2 S.ω2 := by
  obtain ⟨env, _, h⟩ := sequential_run_exists sims hs20 S ht handled
  exact ⟨env, h⟩

/-- Two circuits on two qubits without ancillary qubits; the package in exact arithmetic, `opEq` never recognises equal gates. -/
noncomputable def settingOf (qc1 qc2 : QC 2) (h1 : WellFormed qc1 1) (h2 : WellFormed qc2 1) (ha1 : qc1.ancillary = []) (ha2 : qc2.ancillary = []) :
    Setting 2 2 where
  qc1 := qc1
  qc2 := qc2
  ω1 := 1
  ω2 := 1
  wf1 := h1
  wf2 := h2
  data := Nat.le_refl _
  anc1 := by rw [ha1]; decide
  anc2 := by rw [ha2]; decide
  garb := fun _ _ d => d
  garbV := fun _ _ d => d
  T := idealTests 2
  V := idealVectorTests 2 (1 / 100)
  threshold := by simp [idealVectorTests]
  opEq := fun _ _ => false
  cancel _ := .disjoint fun _ _ _ _ => rfl
  schA := .counts oneToOneScheme
  schC := oneToOneScheme
  schS := oneToOneScheme
  confA := .counts _ ⟨oneToOneConfigured _ _⟩
  confC := ⟨oneToOneConfigured _ _⟩
  confS := ⟨oneToOneConfigured _ _⟩
  stateType := .random1QBasis
  cliff := fun k _ z => if z = fun _ => false then 1 else 0
  cliff_normalised := by intro k seed; simp [Normalised, Spec.inner]

/-- The pair `SWAP X SWAP` / `X(1)`: there is a run with verdict `Equivalent`. -/
theorem equivalent_pair : ∃ (env : Env) (s' : State),
    run env 20 (State.fresh (testCfg true true true false 16 0)) = some (.returned s') ∧ s'.results.equivalence = .equivalent := by
  obtain ⟨env, _, s', hr, hc⟩ := decided_run_exists 16 (by decide) (settingOf swapXswap justX1 swapXswap_wf justX1_wf rfl rfl) rfl
    (fun q hq => absurd q.isLt (by omega))
  exact ⟨env, s', hr, hc.equivalent.2 fun v _ => swapXswap_same_justX1 v (fun x _ q hq => by simp at hq)⟩

/-- The pair `SWAP X SWAP` / `X(0)`: there is a run with verdict `NotEquivalent`. -/
theorem different_pair : ∃ (env : Env) (s' : State),
    run env 20 (State.fresh (testCfg true true true false 16 0)) = some (.returned s') ∧ s'.results.equivalence = .notEquivalent := by
  obtain ⟨env, _, s', hr, hc⟩ := decided_run_exists 16 (by decide) (settingOf swapXswap justX swapXswap_wf justX_wf rfl rfl) rfl
    (fun q hq => absurd q.isLt (by omega))
  refine ⟨env, s', hr, hc.notEquivalent.2 ?_⟩
  rintro ⟨c, hn, h⟩
  refine swapXswap_ne_justX ⟨c, hn, fun v _ => h v ?_⟩
  intro x _ q hq
  have : ∀ q : Fin 2, (flags 2 2).getD q.val false = false := by decide
  rw [this q] at hq
  cases hq

end QCEC.Props
