import Verif.Props.EndToEndRounding
import Verif.Props.RoundingWitness
import Verif.Props.EndToEndWitness
/-!
# C86: the hypotheses can be met

A package that makes every product too large by one millionth; `SWAP X SWAP` against `X` on the second and on the first qubit.
-/
namespace QCEC.Props
open QCEC QCEC.DD QCEC.Sem QCEC.Gen QCEC.ZX QCEC.Spec QCEC.Spec.ZX QCEC.Mgr QCEC.Prep Matrix

namespace Inexactly

theorem ancProj_indic (n : Nat) (anc : List Bool) : ∃ I : Finset (Basis n), I.Nonempty ∧ (ancProj anc : Mat n) = indic I := by
  classical
  refine ⟨Finset.univ.filter fun x => ∀ q : Fin n, anc.getD q.val false = true → x q = false, ⟨fun _ => false, by simp⟩, ?_⟩
  unfold ancProj indic
  congr 1
  funext x
  simp only [Finset.mem_filter, Finset.mem_univ, true_and]

open Classical in
/-- Tests that accept exactly what lies within `θ` of what they look for. -/
noncomputable def tests (n : Nat) (θ : ℝ) : RoundedTests (fun d : Mat n => d) θ θ 0 where
  close d := decide (∃ (c : ℂ) (I : Finset (Basis n)), I.Nonempty ∧ Stretch θ (d - c • indic I))
  wOne d := decide (∃ I : Finset (Basis n), I.Nonempty ∧ Stretch θ (d - indic I))
  isId d := decide (∃ c : ℂ, d = c • (1 : Mat n))
  ptrEq _ _ := false
  wEq _ _ := false
  mulDagger e f := e * fᴴ
  isId_sound d h := by simpa using h
  close_sound d h := of_decide_eq_true h
  wOne_sound d _ h := of_decide_eq_true h
  close_complete d c anc _ h := by
    rw [decide_eq_true_iff]
    obtain ⟨I, hI, e⟩ := ancProj_indic n anc
    exact ⟨c, I, hI, e ▸ h⟩
  wOne_complete d anc h := by
    rw [decide_eq_true_iff]
    obtain ⟨I, hI, e⟩ := ancProj_indic n anc
    exact ⟨I, hI, e ▸ h⟩
  ptrEq_sound _ _ h := absurd h (by simp)
  mulDagger_error e f c c' _ _ v := by simp [nrm_zero]

/-- Two circuits on two qubits. -/
noncomputable def pair (qc1 qc2 : QC 2) (h1 : WellFormed qc1 1) (h2 : WellFormed qc2 1) : Inexact 2 2 where
  qc1 := qc1
  qc2 := qc2
  ω1 := 1
  ω2 := 1
  wf1 := h1
  wf2 := h2
  data := Nat.le_refl _
  ε := 1 / 10 ^ 6
  DM := Mat 2
  MM := Mat 2
  bM := scaledMatrix 2 (1 / 10 ^ 6)
  valM := fun d => d
  roundM := scaledMatrix_rounded 2 (by norm_num)
  ident := 1
  ident_val := rfl
  θ := 1 / 1000
  θ₀ := 1 / 1000
  ηM := 0
  θ_nonneg := by norm_num
  ηM_nonneg := le_rfl
  T := tests 2 (1 / 1000)
  DV := Basis 2 → ℂ
  MV := Mat 2
  bV := scaledVector 2 (1 / 10 ^ 6)
  valV := fun d => d
  roundV := scaledVector_rounded 2 (by norm_num)
  δ := 0
  ηV := 0
  w := 0
  ηV_nonneg := le_rfl
  V := exactOverlap 2 (1 / 1000)
  opEq := fun _ _ => false
  schA := .counts oneToOneScheme
  schC := oneToOneScheme
  schS := oneToOneScheme
  confA := .counts _ ⟨oneToOneConfigured _ _⟩
  confC := ⟨oneToOneConfigured _ _⟩
  confS := ⟨oneToOneConfigured _ _⟩
  stateType := .random1QBasis
  cliff := fun k _ z => if z = fun _ => false then 1 else 0
  cliff_normalised := by intro k seed; simp [Normalised, Spec.inner]

theorem pair_safe (qc1 qc2 : QC 2) (h1 : WellFormed qc1 1) (h2 : WellFormed qc2 1) (ha : ∀ q : Fin 2, ¬ qc1.ancillary.getD q.val false = true) :
    (pair qc1 qc2 h1 h2).Safe :=
  ⟨fun _ => (CancelSafe.disjoint fun _ _ _ _ => rfl).nearSafe _, fun h => absurd trivial h, fun _ => Or.inl fun q hq => absurd hq.1 (ha q)⟩

theorem alternating_answer (qc1 qc2 : QC 2) (h1 : WellFormed qc1 1) (h2 : WellFormed qc2 1) (ha : qc1.ancillary = []) :
    ∃ c, RAnswer (pair qc1 qc2 h1 h2) true .alternating c := by
  have hanc : ∀ q : Fin 2, ¬ qc1.ancillary.getD q.val false = true := by rw [ha]; simp
  obtain ⟨v, s, hr, _⟩ := alternating_rounded_outcome (b := scaledMatrix 2 (1 / 10 ^ 6)) (δ := 1) zero_le_one
    (scaledMatrix_rounded 2 (by norm_num)) qc1 qc2 1 1 h1 h2
    (tests 2 (1 / 1000)).isId (tests 2 (1 / 1000)).isId_sound (fun _ _ => false) (.counts oneToOneScheme)
    (.counts _ ⟨oneToOneConfigured _ _⟩) (altVerdict (tests 2 (1 / 1000)).close (tests 2 (1 / 1000)).wOne) (fun _ => false) (fun _ _ _ h => h)
    .noInformation (altInit (scaledMatrix 2 (1 / 10 ^ 6)) 1 2 qc1 qc2) (altInit (scaledMatrix 2 (1 / 10 ^ 6)) 1 2 qc1 qc2)
    (fun _ => (CancelSafe.disjoint fun _ _ _ _ => rfl).nearFrom _ _) (by
      have e : altInit (scaledMatrix 2 (1 / 10 ^ 6)) 1 2 qc1 qc2 = ancProj (altAncillary 2 qc1.ancillary qc2.ancillary) := by
        simp [altInit, scaledMatrix, exactMatrix, reduceAncillae]
      rw [e]; exact stretch_ancProj _)
    (by rw [sub_self]; intro v; simpa [nrm_zero] using nrm_nonneg v) _ (Nat.le_refl _)
  exact ⟨v, .alternating (S := pair qc1 qc2 h1 h2) (fun _ => false) (fun _ _ _ h => h) (fun _ _ => rfl) _ (Nat.le_refl _)
    (fun q hq => absurd hq.1 (hanc q)) v s hr⟩

theorem simulation_answer (qc1 qc2 : QC 2) (h1 : WellFormed qc1 1) (h2 : WellFormed qc2 1) :
    ∃ c, RAnswer (pair qc1 qc2 h1 h2) true .simulation c := by
  let S := pair qc1 qc2 h1 h2
  let x : Basis 2 → ℂ := fun z => ∏ q : Fin 2, amp (((drawBases zeros (checkerReq 2 2 .random1QBasis).random (Generator.new zeros 1 []).mt).1 ++
    List.replicate ((checkerReq 2 2 .random1QBasis).total - (checkerReq 2 2 .random1QBasis).random) Basis1.zero).getD q.val .zero) (z q)
  obtain ⟨s, h | h⟩ := runTwo_spec S.bV oneToOneScheme false
    (equalsVector S.V.ptrEq S.V.wEq S.V.realClose S.V.fidClose) (fun _ => false) (fun _ _ _ h => h) .noInformation qc1 qc2
    (oneToOneConfigured qc1 qc2).good x x _ (Nat.le_refl _)
  · exact absurd h.1 (by simp)
  · exact ⟨_, .simulation (S := S) _ ⟨zeros, Generator.new zeros 1 [], _, _, x, x, fun _ => false, _, s, .product _ _ rfl, .product _,
      by show nrm (x - x) ≤ 0; rw [sub_self, nrm_zero], fun _ _ _ h => h, fun _ _ => rfl, Nat.le_refl _, h.2.1⟩⟩

/-- There is an uninterrupted run with simulations and the alternating checker; its verdict is one of the three, with its meaning. -/
theorem run_exists (qc1 qc2 : QC 2) (h1 : WellFormed qc1 1) (h2 : WellFormed qc2 1) (ha : qc1.ancillary = []) :
    ∃ (env : Env) (s' : State), run env 20 (State.fresh (testCfg true true false false 16 0)) = some (.returned s') ∧
      RMeaning (pair qc1 qc2 h1 h2) (testCfg true true false false 16 0) s'.results.equivalence ∧
      (s'.results.equivalence = .equivalent ∨ s'.results.equivalence = .equivalentUpToGlobalPhase ∨ s'.results.equivalence = .notEquivalent) := by
  obtain ⟨ca, hca⟩ := alternating_answer qc1 qc2 h1 h2 ha
  obtain ⟨cs, hcs⟩ := simulation_answer qc1 qc2 h1 h2
  refine ⟨testEnv (fun _ => some cs) (.returns ca) (.returns .noInformation) (.returns .noInformation), ?_⟩
  refine rounded_sequential_decides (pair qc1 qc2 h1 h2) (fun _ => pair_safe _ _ _ _ (by rw [ha]; simp)) ?_ ?_ ?_ ?_ (Or.inl rfl) ?_ ?_
  · simp [mode, testEnv, testCfg, State.fresh, Configuration.anythingToExecute]
  · simp [CountersOk, State.fresh]
  · simp [State.fresh, testCfg]
  · simp [State.fresh, testCfg]
  · rintro (⟨_, h | ⟨k, h⟩⟩ | ⟨_, h | h⟩ | ⟨h, _⟩ | ⟨h, _⟩) <;> cases h
  · rintro ⟨k, v⟩ he hen
    cases k
    · obtain ⟨_, h⟩ := he
      cases h; exact hcs
    · cases he; exact hca
    · cases hen
    · cases hen

theorem budget (qc1 qc2 : QC 2) (h1 : WellFormed qc1 1) (h2 : WellFormed qc2 1) (hc1 : cost qc1 = 5) (hc2 : cost qc2 = 3) :
    (pair qc1 qc2 h1 h2).Budget ∧ (pair qc1 qc2 h1 h2).drift ≤ 1 / 100 := by
  refine ⟨⟨?_, ?_⟩, ?_⟩
  · show accumulated (1 / 10 ^ 6) 0 (cost qc1 + cost qc2 + 1) ≤ 1 / 1000
    rw [hc1, hc2]; unfold accumulated; norm_num
  · show 2 * overlapError (1 / 10 ^ 6) 0 0 qc1 qc2 + overlapError (1 / 10 ^ 6) 0 0 qc1 qc2 ^ 2 < 1 / 1000
    unfold overlapError accumulated; rw [hc1, hc2]; norm_num
  · show 1 / 1000 + ((1 + 0) * (1 + 1 / 10 ^ 6) ^ (cost qc1 + cost qc2 + 4) - 1) ≤ 1 / 100
    rw [hc1, hc2]; norm_num

/-- `SWAP X SWAP` against `X` on the second qubit, with a rounding package: there is a run with verdict `Equivalent`, and the outputs are
known to be within eight per cent. -/
theorem equivalent_pair : ∃ (env : Env) (s' : State),
    run env 20 (State.fresh (testCfg true true false false 16 0)) = some (.returned s') ∧ s'.results.equivalence = .equivalent ∧
    OutputsWithinOn ((pair swapXswap justX1 swapXswap_wf justX1_wf).someAnc false) (8 / 100) 1 swapXswap 1 justX1 1 := by
  obtain ⟨env, s', hr, hm, h3⟩ := run_exists swapXswap justX1 swapXswap_wf justX1_wf rfl
  obtain ⟨hB, hd⟩ := budget swapXswap justX1 swapXswap_wf justX1_wf rfl rfl
  have hsep := rounded_verdict_separates _ hm h3 (by simp [Enabled, testCfg]) hB (le_trans hd (by norm_num))
  have hv := hsep.1 fun v _ => swapXswap_same_justX1 v (fun x _ q hq => by simp at hq)
  refine ⟨env, s', hr, hv, within_mono (hm.equivalent hv (by simp [Enabled, testCfg]) (le_trans hd (by norm_num))) ?_⟩
  linarith

/-- The outputs of `SWAP X SWAP` and of `X` on the first qubit are far apart, whatever factor is removed. -/
theorem far_apart (b : Bool) (c : ℂ) : ∃ x, AncillasZero ((pair swapXswap justX swapXswap_wf justX_wf).someAnc b) x ∧
    nrm (output swapXswap 1 x - c • output justX 1 x) > 8 * (pair swapXswap justX swapXswap_wf justX_wf).drift * nrm x := by
  obtain ⟨_, hd⟩ := budget swapXswap justX swapXswap_wf justX_wf rfl rfl
  refine ⟨ket00, ?_, ?_⟩
  · intro y _ q hq
    rw [Inexact.someAnc, marks_get] at hq
    have : ¬ (2 ≤ q.val) := by omega
    simp [pair, swapXswap, justX, this] at hq
  · have hk : nrm ket00 = 1 := nrm_normalised (by simp [Normalised, Spec.inner, ket00])
    rw [hk, mul_one]
    have h1 : (1 : ℝ) ≤ nrm (output swapXswap 1 ket00 - c • output justX 1 ket00) := by
      unfold nrm
      rw [Real.one_le_sqrt]
      have e1 : output swapXswap 1 ket00 (fun q => decide (q = 1)) = 1 := by
        simp only [output, readOut, execute, swapXswap, Op.phys, SOp.phys, swapMat_mulVec, gX_mulVec, load, ket00, Function.comp_def]
        rw [if_pos (by decide)]
      have e2 : output justX 1 ket00 (fun q => decide (q = 1)) = 0 := by
        simp only [output, readOut, execute, justX, Op.phys, SOp.phys, gX_mulVec, load, ket00, Function.comp_def]
        rw [if_neg (by decide)]
      have : (1 : ℝ) = Complex.normSq ((output swapXswap 1 ket00 - c • output justX 1 ket00) (fun q => decide (q = 1))) := by
        rw [Pi.sub_apply, Pi.smul_apply, e1, e2, smul_zero, sub_zero, Complex.normSq_one]
      rw [this]
      exact Finset.single_le_sum (f := fun z => Complex.normSq ((output swapXswap 1 ket00 - c • output justX 1 ket00) z))
        (fun _ _ => Complex.normSq_nonneg _) (Finset.mem_univ _)
    refine lt_of_lt_of_le ?_ h1
    linarith

/-- `SWAP X SWAP` against `X` on the first qubit: there is a run with verdict `NotEquivalent`. -/
theorem different_pair : ∃ (env : Env) (s' : State),
    run env 20 (State.fresh (testCfg true true false false 16 0)) = some (.returned s') ∧ s'.results.equivalence = .notEquivalent := by
  obtain ⟨env, s', hr, hm, h3⟩ := run_exists swapXswap justX swapXswap_wf justX_wf rfl
  obtain ⟨hB, hd⟩ := budget swapXswap justX swapXswap_wf justX_wf rfl rfl
  have hsep := rounded_verdict_separates _ hm h3 (by simp [Enabled, testCfg]) hB (le_trans hd (by norm_num))
  exact ⟨env, s', hr, hsep.2.2 (far_apart _)⟩

end Inexactly

end QCEC.Props
