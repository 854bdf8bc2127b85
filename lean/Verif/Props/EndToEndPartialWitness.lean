import Verif.Props.EndToEndPartial
import Verif.Props.EndToEndParallelWitness
import Verif.Props.PartialWitness
/-!
# C74: the hypotheses can be met; with the construction checker the verdict can be wrong, or depend on the schedule
-/
namespace QCEC.Props
open QCEC QCEC.DD QCEC.Sem QCEC.Gen QCEC.ZX QCEC.Spec QCEC.Spec.ZX QCEC.Mgr QCEC.Prep QCEC.Par Matrix

variable {m n : Nat}

theorem exists_partial_alternating (S : PSetting m n) (quiet : Bool) : ∃ c, PAnswer S.toPBase quiet .alternating c := by
  obtain ⟨v, s, hr, _⟩ := alternating_outcome reduceGarbageMat S.qc1 S.qc2 S.ω1 S.ω2 S.wf1 S.wf2 S.T S.opEq S.schA S.safe.1
    (S.confA.configured S.safe) (altCheck true S.G.closeG S.T.close S.T.wOne n S.qc1 S.qc2) (fun _ => false) (fun _ _ _ h => h) .noInformation _ (Nat.le_refl _)
  exact ⟨v, .alternating (fun _ => false) (fun _ _ _ h => h) (fun _ _ => rfl) _ (Nat.le_refl _) v s hr⟩

theorem exists_partial_construction (S : PSetting m n) (quiet : Bool) : ∃ c, PAnswer S.toPBase quiet .construction c := by
  obtain ⟨hs⟩ := S.confC
  obtain ⟨s, h | h⟩ := runTwo_spec (exactMatrix n reduceGarbageMat) S.schC true
    (equalsMatrix S.T.ptrEq S.T.wEq S.T.close fun e f => e * fᴴ) (fun _ => false) (fun _ _ _ h => h) .noInformation S.qc1 S.qc2 hs.good
    (constructionInit (exactMatrix n reduceGarbageMat) 1 S.qc1) (constructionInit (exactMatrix n reduceGarbageMat) 1 S.qc2) _
    (Nat.le_refl _)
  · exact absurd h.1 (by simp)
  · exact ⟨_, .construction (fun _ => false) (fun _ _ _ h => h) (fun _ _ => rfl) _ (Nat.le_refl _) _ s h.2.1⟩

theorem exists_partial_simulation (S : PSetting m n) (quiet : Bool) (ht : S.stateType = .random1QBasis) :
    ∃ c, PAnswer S.toPBase quiet .simulation c := by
  obtain ⟨hs⟩ := S.confS
  let x : Basis n → ℂ := fun z => ∏ q : Fin n, amp (((drawBases zeros (checkerReq n m S.stateType).random (Generator.new zeros 1 []).mt).1 ++
    List.replicate ((checkerReq n m S.stateType).total - (checkerReq n m S.stateType).random) Basis1.zero).getD q.val .zero) (z q)
  obtain ⟨s, h | h⟩ := runTwo_spec (exactVector n reduceGarbageVec) S.schS true
    (equalsVector S.V.ptrEq S.V.wEq S.V.realClose S.V.fidClose) (fun _ => false) (fun _ _ _ h => h) .noInformation S.qc1 S.qc2 hs.good
    x x _ (Nat.le_refl _)
  · exact absurd h.1 (by simp)
  · exact ⟨_, .simulation _ ⟨zeros, Generator.new zeros 1 [], _, _, x, fun _ => false, _, s, .product _ _ ht, .product _,
      fun _ _ _ h => h, fun _ _ => rfl, Nat.le_refl _, h.2.1⟩⟩

/-- **C74** is not vacuous: for every two circuits one of which acts on no ancillary qubit there are answers of the simulation and the
alternating checker with which a run of the manager decides partial equivalence. -/
theorem partial_decided_run_exists (S : PSetting m n) (ht : S.stateType = .random1QBasis) (hpl : S.Plain) (hidle : S.OneIdle) :
    ∃ env : Env, (∀ e, FromEnv env e → (e.kind = .simulation ∨ e.kind = .alternating) → PAnswer S.toPBase true e.kind e.verdict) ∧
      ∃ s', run env 20 (State.fresh (testCfg true true false false 16 0)) = some (.returned s') ∧
        (s'.results.equivalence = .notEquivalent ↔ ¬ S.Partially (flags m n)) ∧
        (s'.results.equivalence = .equivalent ∨ s'.results.equivalence = .equivalentUpToGlobalPhase ↔ S.Partially (flags m n)) := by
  obtain ⟨ca, ha⟩ := exists_partial_alternating S true
  obtain ⟨cs, hs⟩ := exists_partial_simulation S true ht
  have hfrom : ∀ e, FromEnv (testEnv (fun _ => some cs) (.returns ca) (.returns .noInformation) (.returns .noInformation)) e →
      (e.kind = .simulation ∨ e.kind = .alternating) → PAnswer S.toPBase true e.kind e.verdict := by
    rintro ⟨k, v⟩ h hk
    cases k
    · obtain ⟨_, h⟩ := h
      cases h; exact hs
    · cases h; exact ha
    · simp at hk
    · simp at hk
  refine ⟨testEnv (fun _ => some cs) (.returns ca) (.returns .noInformation) (.returns .noInformation), hfrom, ?_⟩
  refine partial_sequential_decides S ?_ ?_ ?_ ?_ rfl ?_ hpl hidle ?_ ?_
  · simp [mode, testEnv, testCfg, State.fresh, Configuration.anythingToExecute]
  · simp [CountersOk, State.fresh]
  · simp [State.fresh, testCfg]
  · simp [State.fresh, testCfg]
  · simp [State.fresh, testCfg, Enabled]
  · rintro (⟨_, h | ⟨k, h⟩⟩ | ⟨_, h | h⟩ | ⟨h, _⟩ | ⟨h, _⟩)
    · cases h
    · cases h
    · cases h
    · cases h
    · cases h
    · cases h
  · intro e he hen
    refine hfrom e he ?_
    rcases e with ⟨k, v⟩
    cases k
    · exact Or.inl rfl
    · exact Or.inr rfl
    · cases hen
    · cases hen

/-- Two circuits without ancillary qubits; the package in exact arithmetic, `opEq` never recognises equal gates. -/
noncomputable def psettingOf (qc1 qc2 : QC n) (h1 : WellFormed qc1 1) (h2 : WellFormed qc2 1) (hg : qc1.garbage = qc2.garbage) : PSetting n n where
  qc1 := qc1
  qc2 := qc2
  ω1 := 1
  ω2 := 1
  wf1 := h1
  wf2 := h2
  data := Nat.le_refl _
  garb := fun _ _ d => d
  garbV := fun _ _ d => d
  T := idealTests n
  V := idealVectorTests n (1 / 100)
  threshold := by simp [idealVectorTests]
  opEq := fun _ _ => false
  schA := .counts oneToOneScheme
  schC := oneToOneScheme
  schS := oneToOneScheme
  confA := .counts _ ⟨oneToOneConfigured _ _⟩
  confC := ⟨oneToOneConfigured _ _⟩
  confS := ⟨oneToOneConfigured _ _⟩
  stateType := .random1QBasis
  cliff := fun k _ z => if z = fun _ => false then 1 else 0
  cliff_normalised := by intro k seed; simp [Normalised, Spec.inner]
  G := idealGarbageTest n
  safe := ⟨fun _ => .disjoint fun _ _ _ _ => rfl, fun h => absurd trivial h⟩
  garbage := fun q => Or.inl (by simp only [hg])

theorem psetting_plain {S : Mixed n n} (h1 : S.qc1.ancillary = []) (h2 : S.qc2.ancillary = []) : S.Plain := by
  intro q
  rw [h1, h2, flags_get n n (Nat.le_refl _)]
  simp

theorem psetting_idle {S : Mixed n n} (h1 : S.qc1.ancillary = []) : S.OneIdle := by
  refine Or.inl fun q hq => ?_
  rw [h1] at hq
  simp at hq

/-- X on qubit 0, qubit 1 garbage. -/
noncomputable def keepX : QC 2 where
  ops := [.simple (.gate (gX 0))]
  initialLayout := 1
  outputPermutation := [(0, 0)]
  garbage := [false, true]

/-- X on both qubits, qubit 1 garbage. -/
noncomputable def bothX : QC 2 where
  ops := [.simple (.gate (gX 0)), .simple (.gate (gX 1))]
  initialLayout := 1
  outputPermutation := [(0, 0)]
  garbage := [false, true]

/-- X on the garbage qubit only. -/
noncomputable def garbageX : QC 2 where
  ops := [.simple (.gate (gX 1))]
  initialLayout := 1
  outputPermutation := [(0, 0)]
  garbage := [false, true]

theorem keepX_wf : WellFormed keepX 1 := by
  refine ⟨?_, ⟨by simp [keepX], by simp [keepX]⟩, rfl⟩
  intro o ho
  simp only [keepX, List.mem_cons, List.not_mem_nil, or_false] at ho
  subst ho
  exact gX_valid 0

theorem bothX_wf : WellFormed bothX 1 := by
  refine ⟨?_, ⟨by simp [bothX], by simp [bothX]⟩, rfl⟩
  intro o ho
  simp only [bothX, List.mem_cons, List.not_mem_nil, or_false] at ho
  rcases ho with rfl | rfl
  · exact gX_valid 0
  · exact gX_valid 1

theorem garbageX_wf : WellFormed garbageX 1 := by
  refine ⟨?_, ⟨by simp [garbageX], by simp [garbageX]⟩, rfl⟩
  intro o ho
  simp only [garbageX, List.mem_cons, List.not_mem_nil, or_false] at ho
  subst ho
  exact gX_valid 1

theorem keepX_output (v : Basis 2 → ℂ) (x : Basis 2) : output keepX 1 v x = v (Function.update x 0 (!x 0)) := by
  simp only [output, readOut, execute, keepX, Op.phys, SOp.phys, load, gX_mulVec]
  rfl

theorem bothX_output (v : Basis 2 → ℂ) (x : Basis 2) :
    output bothX 1 v x = v (Function.update (Function.update x 1 (!x 1)) 0 (!x 0)) := by
  simp only [output, readOut, execute, bothX, Op.phys, SOp.phys, load, gX_mulVec]
  rfl

theorem garbageX_output (v : Basis 2 → ℂ) (x : Basis 2) : output garbageX 1 v x = v (Function.update x 1 (!x 1)) := by
  simp only [output, readOut, execute, garbageX, Op.phys, SOp.phys, load, gX_mulVec]
  rfl

/-- Flipping one bit. -/
def flipBit (p : Fin n) : Basis n ≃ Basis n where
  toFun x := Function.update x p (!x p)
  invFun x := Function.update x p (!x p)
  left_inv x := by simp
  right_inv x := by simp

theorem unread_same (S : PSetting m n) (h : S.qc1.garbage = S.qc2.garbage) (q : Fin n) : S.unread.getD q.val false = S.qc1.garbage.getD q.val false := by
  rw [unread_get, ← h, Bool.and_self]

theorem keepX_partially_bothX (anc : List Bool) : PartiallyEquivalent [false, true] anc keepX 1 bothX 1 := by
  intro v _ k
  unfold prob
  refine Fintype.sum_equiv (flipBit 1) _ _ fun x => ?_
  rw [keepX_output, bothX_output]
  have e : (∀ q : Fin 2, [false, true].getD q.val false = false → x q = k q) ↔
      ∀ q : Fin 2, [false, true].getD q.val false = false → (flipBit 1) x q = k q := by
    simp [Fin.forall_fin_two, flipBit]
  simp only [e]
  congr 4
  funext q
  fin_cases q <;> simp [flipBit]

theorem keepX_not_partially_garbageX : ¬ PartiallyEquivalent [false, true] (flags 2 2) keepX 1 garbageX 1 := by
  intro h
  have fl : ∀ q : Fin 2, (flags 2 2).getD q.val false = false := by decide
  have := h (ket fun _ => false) (by intro x _ q hq; rw [fl] at hq; cases hq) (fun _ => false)
  unfold prob at this
  simp only [keepX_output, garbageX_output, ket, Fin.forall_fin_two, funext_iff] at this
  rw [Finset.sum_eq_zero (fun x _ => by
    by_cases hx : x 0 = false <;> simp [hx])] at this
  refine absurd this.symm (ne_of_gt (Finset.sum_pos' (fun x _ => by split <;> positivity) ⟨fun q => decide (q = 1), Finset.mem_univ _, ?_⟩))
  simp

/-- The pair `X(0)` / `X(0) X(1)` with garbage qubit 1: it is not equal up to a phase, but there is a run with a positive verdict. -/
theorem partial_equivalent_pair : ∃ (env : Env) (s' : State),
    run env 20 (State.fresh (testCfg true true false false 16 0)) = some (.returned s') ∧
    (s'.results.equivalence = .equivalent ∨ s'.results.equivalence = .equivalentUpToGlobalPhase) := by
  obtain ⟨env, _, s', hr, _, hc⟩ := partial_decided_run_exists (psettingOf keepX bothX keepX_wf bothX_wf rfl) rfl
    (psetting_plain rfl rfl) (psetting_idle rfl)
  exact ⟨env, s', hr, hc.2 ((partially_congr (unread_same _ rfl) (fun _ => rfl) _ _ _ _).2 (keepX_partially_bothX _))⟩

/-- The pair `X(0)` / `X(1)` with garbage qubit 1: there is a run with verdict `NotEquivalent`. -/
theorem partial_different_pair : ∃ (env : Env) (s' : State),
    run env 20 (State.fresh (testCfg true true false false 16 0)) = some (.returned s') ∧ s'.results.equivalence = .notEquivalent := by
  obtain ⟨env, _, s', hr, hc, _⟩ := partial_decided_run_exists (psettingOf keepX garbageX keepX_wf garbageX_wf rfl) rfl
    (psetting_plain rfl rfl) (psetting_idle rfl)
  exact ⟨env, s', hr, hc.2 fun h => keepX_not_partially_garbageX ((partially_congr (unread_same _ rfl) (fun _ => rfl) _ _ _ _).1 h)⟩

/-! ## The construction checker -/

/-- A rotation, alone and after a Z gate. -/
noncomputable def rotPair : PSetting 1 1 := psettingOf (rot []) zRot (rot_wf []) zRot_wf rfl

theorem rotPair_basis {anc : List Bool} (ha : ∀ q : Fin 1, anc.getD q.val false = false) : rotPair.OnBasis anc := by
  refine (onBasis_congr (fun q => ?_) (fun q => (unread_same _ rfl q).symm) (fun q => (unread_same _ rfl q).symm) _ _ _ _).1 rot_basis
  rw [ha]
  simp

theorem rotPair_not_partially {anc : List Bool} (ha : ∀ q : Fin 1, anc.getD q.val false = false) : ¬ rotPair.Partially anc := by
  intro h
  refine rot_not_partial ((partially_congr (unread_same _ rfl) (fun q => ?_) _ _ _ _).1 h)
  rw [ha]
  simp

theorem rotPair_common (q : Fin 1) : (commonAnc rotPair.toMixed).getD q.val false = false := by
  rw [commonAnc, altAncillary_flag]
  simp [rotPair, psettingOf, rot]

theorem rotPair_alternating : PAnswer rotPair.toPBase true .alternating .notEquivalent := by
  obtain ⟨c, hc⟩ := exists_partial_alternating rotPair true
  rcases partial_answer_means rotPair hc with h | h
  · exact absurd h.1 (by simp)
  · have : c = .notEquivalent := by
      by_contra hne
      exact rotPair_not_partially rotPair_common (h.2.1 hne)
    rwa [← this]

theorem rotPair_construction : PAnswer rotPair.toPBase true .construction .equivalent := by
  obtain ⟨c, hc⟩ := exists_partial_construction rotPair true
  rcases partial_answer_means rotPair hc with h | ⟨_, h⟩
  · exact absurd h.1 (by simp)
  · rcases h (fun q => rfl) with h | h
    · rwa [← h.1]
    · exact absurd (rotPair_basis rotPair_common) h.2

/-- **C74**, the restriction on the construction checker is needed (a sequential run): with it alone, the manager reports `Equivalent` for
circuits that are not partially equivalent. -/
theorem partial_manager_unsound : ∃ (env : Env) (s' : State),
    (∀ e : Event, FromEnv env e → e.kind = .construction → PAnswer rotPair.toPBase true e.kind e.verdict) ∧
    run env 20 (State.fresh (testCfg false false true false 0 0)) = some (.returned s') ∧ s'.results.equivalence = .equivalent ∧
    ¬ rotPair.Partially (flags 1 1) := by
  refine ⟨testEnv (fun _ => some .notEquivalent) (.returns .notEquivalent) (.returns .equivalent) (.returns .noInformation), _, ?_, rfl, rfl,
    rotPair_not_partially (fun q => by rw [flags_get 1 1 (Nat.le_refl _)]; simp)⟩
  rintro ⟨k, v⟩ h hk
  cases hk
  cases h
  exact rotPair_construction

/-- … and a parallel run with both the alternating and the construction checker, both answering undisturbed, reports `Equivalent` or
`NotEquivalent` for the same circuits, depending on the schedule only. -/
theorem partial_verdict_depends_on_schedule : ∃ env : ParEnv,
    (∀ k c, Enabled (parCfg false true true false 0 2 0) k → env.may k c → PAnswer rotPair.toPBase false k c) ∧
    (∃ s, Reachable env (parCfg false true true false 0 2 0) {} s ∧ s.main = .ended .returned ∧ s.results.equivalence = .equivalent) ∧
    (∃ s, Reachable env (parCfg false true true false 0 2 0) {} s ∧ s.main = .ended .returned ∧ s.results.equivalence = .notEquivalent) := by
  have weaken : ∀ {k c}, PAnswer rotPair.toPBase true k c → k = .alternating ∨ k = .construction → PAnswer rotPair.toPBase false k c := by
    intro k c h hk
    cases h with
    | alternating stop hm hq fuel hf c s h => exact .alternating stop hm (by simp) fuel hf c s h
    | construction stop hm hq fuel hf c s h => exact .construction stop hm (by simp) fuel hf c s h
    | simulation c h => simp at hk
    | simulationAgain prev c hp h => simp at hk
    | zx c h => simp at hk
  let may := twoAnswers .notEquivalent .equivalent []
  refine ⟨listEnv may fun _ => false, ?_, ?_, ?_⟩
  · rintro k c - h
    cases k <;> simp [may, listEnv, twoAnswers] at h
    · subst h; exact weaken rotPair_alternating (Or.inl rfl)
    · subst h; exact weaken rotPair_construction (Or.inr rfl)
  · have : ∃ c, execAll may (fun _ => false) (launch true (parCfg false true true false 0 2 0) {})
        [.construct 0, .begin 0, .construct 1, .begin 1, .runReturns 1 .equivalent, .push 1, .pop, .runReturns 0 .notEquivalent, .push 0,
          .signal, .signal, .signal, .join] = some c ∧ c.main = .ended .returned ∧ c.results.equivalence = .equivalent := ⟨_, rfl, rfl, rfl⟩
    obtain ⟨c, h, h'⟩ := this
    exact ⟨c, execAll_steps _ h, h'⟩
  · have : ∃ c, execAll may (fun _ => false) (launch true (parCfg false true true false 0 2 0) {})
        [.construct 0, .begin 0, .construct 1, .begin 1, .runReturns 0 .notEquivalent, .push 0, .pop, .runReturns 1 .equivalent, .push 1,
          .signal, .signal, .signal, .join] = some c ∧ c.main = .ended .returned ∧ c.results.equivalence = .notEquivalent :=
      ⟨_, rfl, rfl, rfl⟩
    obtain ⟨c, h, h'⟩ := this
    exact ⟨c, execAll_steps _ h, h'⟩

end QCEC.Props
