import Verif.Props.Detection
import Verif.Props.ExhaustiveWitness
import Mathlib.Probability.UniformOn
/-!
# C91: the hypotheses can be met
-/
namespace QCEC.Props
open QCEC QCEC.DD QCEC.Sem QCEC.Gen QCEC.ZX QCEC.Spec QCEC.Spec.ZX QCEC.Mgr QCEC.Prep MeasureTheory ProbabilityTheory

variable {m n : Nat}

/-! ## Stimuli -/

section
variable {R : Rng} [MeasurableSpace R.σ] {μ : Measure R.σ}

/-- **C91**: with an idealised random source, almost surely `K ≤ 2^m` requests for classical stimuli return. -/
theorem requests_return_ae (hd : m ≤ n) (h63 : m ≤ 63) (hμ : IdealSource R μ m) {K : Nat} (hK : K ≤ 2 ^ m) (seed : Nat) :
    ∀ᵐ w ∂μ, ∃ (sts : List Stim) (g' : Generator R),
      History ⟨seed, w, []⟩ (List.replicate K (.request (checkerReq n m .computationalBasis))) sts g' := by
  filter_upwards [drawn_again hμ] with w hw
  obtain ⟨sts, g', h, _⟩ := history_exists hd h63 K ⟨seed, w, []⟩ rfl hw hK
  exact ⟨sts, g', h⟩

/-- **C91**: with an idealised random source, every sequence of `K` different classical inputs is equally likely to be the sequence of
stimuli. -/
theorem stimuli_equally_likely (hd : m ≤ n) (h63 : m ≤ 63) (hμ : IdealSource R μ m) {K : Nat} (hK : K ≤ 2 ^ m) (seed : Nat)
    (f : Fin K ↪ Fin (2 ^ m)) :
    μ {w | ∃ (sts : List Stim) (g' : Generator R),
      History ⟨seed, w, []⟩ (List.replicate K (.request (checkerReq n m .computationalBasis))) sts g' ∧
      ∀ k : Fin K, sts[k.1]? = some (.basis (List.ofFn (inputOf m n (f k))))} = ((2 ^ m).descFactorial K : ENNReal)⁻¹ := by
  have hcard : K ≤ Fintype.card (Fin (2 ^ m)) := by rw [Fintype.card_fin]; exact hK
  have h := firstDistinct_prob hμ hcard f
  rw [Fintype.card_fin] at h
  rw [← h]
  have hst : ∀ v : Fin (2 ^ m), stimOf n m v.1 = .basis (List.ofFn (inputOf m n v)) := by
    intro v
    unfold stimOf
    congr 1
    refine List.ext_getElem (by simp) fun i a b => ?_
    simp [inputOf]
  have hinj : ∀ u v : Fin (2 ^ m), stimOf n m u.1 = stimOf n m v.1 → u = v := by
    intro u v huv
    exact Fin.ext (bits_injective hd u.2 v.2 (Stim.basis.inj huv))
  refine measure_congr ?_
  filter_upwards [requests_return_ae hd h63 hμ hK seed] with w ⟨sts, g', hh⟩
  obtain ⟨f', hf', hs⟩ := history_firstDistinct hd h63 rfl hh
  refine propext ⟨?_, ?_⟩
  · rintro ⟨sts2, g2, hh2, hs2⟩
    obtain ⟨rfl, _⟩ := history_deterministic hh hh2
    have : f = f' := by
      ext k
      have h1 := hs2 k
      rw [hs k, ← hst] at h1
      exact congrArg Fin.val (hinj _ _ (Option.some.inj h1)).symm
    rw [this]
    exact hf'
  · intro hf
    have : f = f' := firstDistinct_unique hf hf'
    refine ⟨sts, g', hh, fun k => ?_⟩
    rw [hs k, hst, this]

/-- **C91** is not vacuous: for every two circuits and with every idealised random source there are almost surely runs as in
`detection_probability`. -/
theorem runs_exist (S : Setting m n) (ht : S.stateType = .computationalBasis) (h63 : m ≤ 63) (hμ : IdealSource R μ m) {K : Nat}
    (h0 : 0 < K) (hK : K ≤ 2 ^ m) (seed : Nat) :
    ∃ (env : R.σ → Env) (s' : R.σ → State), (∀ᵐ w ∂μ, RunWith S K R ⟨seed, w, []⟩ (env w) (simOnly K) (s' w)) ∧
      OnlySimulations (simOnly K) := by
  classical
  have hex : ∀ w : R.σ, ∃ p : Env × State,
      (∃ (sts : List Stim) (g' : Generator R),
        History ⟨seed, w, []⟩ (List.replicate K (.request (checkerReq n m .computationalBasis))) sts g') →
      RunWith S K R ⟨seed, w, []⟩ p.1 (simOnly K) p.2 := by
    intro w
    by_cases h : ∃ (sts : List Stim) (g' : Generator R),
        History ⟨seed, w, []⟩ (List.replicate K (.request (checkerReq n m .computationalBasis))) sts g'
    · obtain ⟨sts, g', hh⟩ := h
      obtain ⟨env, s', h1, h2, h3, _⟩ := simulation_run_exists S h0 (by rw [ht]; exact hh)
      refine ⟨(env, s'), fun _ => ⟨h1, rfl, rfl, rfl, ?_, ⟨_, h2⟩, h3⟩⟩
      simp [State.fresh, testCfg]
    · exact ⟨(testEnv (fun _ => none) (.returns .noInformation) (.returns .noInformation) (.returns .noInformation), simOnly K),
        fun h' => absurd h' h⟩
  choose p hp using hex
  refine ⟨fun w => (p w).1, fun w => (p w).2, ?_, rfl, ?_⟩
  · filter_upwards [requests_return_ae S.data h63 hμ hK seed] with w hw
    exact hp w hw
  · intro k hk
    cases k
    · rfl
    · cases hk
    · cases hk
    · cases hk

end

/-! ## An idealised source -/

/-- A tape of numbers below `2^m`. -/
def numberTape (m : Nat) : Rng where
  σ := ℕ → Fin (2 ^ m)
  seed := fun _ _ => ⟨0, Nat.two_pow_pos m⟩
  seedSeq := fun _ _ => ⟨0, Nat.two_pow_pos m⟩
  next := fun w => (0, w)
  next_lt := fun _ => by norm_num
  uniform := fun hi w => (min (w 0).1 hi, fun k => w (k + 1))
  uniform_le := fun _ _ => Nat.min_le_right _ _

instance (m : Nat) : MeasurableSpace (numberTape m).σ := inferInstanceAs (MeasurableSpace (ℕ → Fin (2 ^ m)))

instance (m : Nat) : Nonempty (Fin (2 ^ m)) := ⟨⟨0, Nat.two_pow_pos m⟩⟩

instance (m : Nat) : IsProbabilityMeasure (uniformOn (Set.univ : Set (Fin (2 ^ m)))) :=
  isProbabilityMeasure_uniformOn Set.finite_univ Set.univ_nonempty

/-- The entries of the tape are independent and uniformly distributed. -/
noncomputable def tapeMeasure (m : Nat) : Measure (numberTape m).σ :=
  (Measure.infinitePi fun _ : ℕ => uniformOn (Set.univ : Set (Fin (2 ^ m))) : Measure (ℕ → Fin (2 ^ m)))

theorem numberTape_after (m hi : Nat) : ∀ (k : Nat) (w : ℕ → Fin (2 ^ m)), after (numberTape m) hi k w = fun j => w (k + j)
  | 0, w => by funext j; simp [after]
  | k + 1, w => by
    have h := numberTape_after m hi k (fun j => w (j + 1))
    have h2 : after (numberTape m) hi (k + 1) w = after (numberTape m) hi k (fun j => w (j + 1)) := rfl
    rw [h2, h]
    funext j
    show w (k + j + 1) = w (k + 1 + j)
    congr 1
    omega

theorem numberTape_number (m k : Nat) (w : ℕ → Fin (2 ^ m)) : number (numberTape m) m k w = w k := by
  refine Fin.ext ?_
  show drawn (numberTape m) ((1 <<< m) - 1) k w = _
  unfold drawn
  rw [numberTape_after]
  show min (w (k + 0)).1 ((1 <<< m) - 1) = _
  have h := (w k).2
  have h2 : 1 <<< m = 2 ^ m := Nat.one_shiftLeft m
  rw [h2, Nat.add_zero]
  omega

theorem coordinates_uniform (α : Type) [Fintype α] [Nonempty α] [MeasurableSpace α] [MeasurableSingletonClass α] :
    haveI : IsProbabilityMeasure (uniformOn (Set.univ : Set α)) := isProbabilityMeasure_uniformOn Set.finite_univ Set.univ_nonempty
    IndependentUniform (fun (k : ℕ) (w : ℕ → α) => w k) (Measure.infinitePi fun _ : ℕ => uniformOn (Set.univ : Set α)) := by
  haveI : IsProbabilityMeasure (uniformOn (Set.univ : Set α)) := isProbabilityMeasure_uniformOn Set.finite_univ Set.univ_nonempty
  refine ⟨inferInstance, fun k => measurable_pi_apply (X := fun _ : ℕ => α) k, ?_, ?_⟩
  · exact iIndepFun_infinitePi (P := fun _ : ℕ => uniformOn (Set.univ : Set α)) (X := fun _ x => x) fun _ => measurable_id
  · intro k a
    have h := Measure.infinitePi_map_eval (fun _ : ℕ => uniformOn (Set.univ : Set α)) k
    have h1 : (Measure.infinitePi fun _ : ℕ => uniformOn (Set.univ : Set α)) {w : ℕ → α | w k = a} =
        (Measure.map (fun x : ℕ → α => x k) (Measure.infinitePi fun _ : ℕ => uniformOn (Set.univ : Set α))) {a} := by
      rw [Measure.map_apply (measurable_pi_apply (X := fun _ : ℕ => α) k) (measurableSet_singleton a)]
      rfl
    rw [h1, h, uniformOn_univ]
    simp

/-- **C91** is not vacuous: there is an idealised source. -/
theorem numberTape_ideal (m : Nat) : IdealSource (numberTape m) (tapeMeasure m) m := by
  unfold IdealSource
  have hX : (fun k w => number (numberTape m) m k w) = fun (k : ℕ) (w : ℕ → Fin (2 ^ m)) => w k := by
    funext k w
    exact numberTape_number m k w
  rw [hX]
  exact coordinates_uniform (Fin (2 ^ m))

/-! ## A concrete case: a SWAP gate is missed by one random simulation with probability 1/2, by two with probability 1/6 -/

/-- A SWAP gate on two qubits. -/
noncomputable def justSwap : QC 2 where
  ops := [.simple (.swap 0 1)]
  initialLayout := 1
  outputPermutation := idOut2

theorem justSwap_wf : WellFormed justSwap 1 := by
  refine .of_total ?_ idOut2_valid idOut2_total idOut2_ext
  intro o ho
  simp only [justSwap, List.mem_cons, List.not_mem_nil, or_false] at ho
  subst ho
  trivial

theorem justSwap_output (v : Basis 2 → ℂ) (z : Basis 2) : output justSwap 1 v z = v (z ∘ Equiv.swap 0 1) := by
  simp only [output, readOut, execute, justSwap, Op.phys, SOp.phys, swapMat_mulVec, load]
  congr 1

/-- A SWAP gate and no gate at all. -/
noncomputable def swapSetting : Setting 2 2 := classicalSetting justSwap nothing2 justSwap_wf nothing2_wf rfl rfl

theorem swap_disagree (b : Basis 2) : Disagree swapSetting b ↔ b 0 ≠ b 1 := by
  have hfree : AncillaFree 2 b := fun q hq => absurd q.2 (by omega)
  have e1 : output justSwap 1 (basisState b) = basisState (b ∘ Equiv.swap 0 1) := by
    funext z
    rw [justSwap_output]
    unfold basisState
    have : (z ∘ Equiv.swap 0 1 = b) ↔ (z = b ∘ Equiv.swap 0 1) := by
      clear hfree
      revert z b
      decide
    simp only [this]
  have e2 : output nothing2 1 (basisState b) = basisState b := funext (nothing2_output _)
  have hag : Agrees swapSetting.V.threshold (output swapSetting.qc1 swapSetting.ω1 (basisState b))
      (output swapSetting.qc2 swapSetting.ω2 (basisState b)) ↔ b ∘ Equiv.swap 0 1 = b := by
    show Agrees (1 / 100 : ℝ) (output justSwap 1 (basisState b)) (output nothing2 1 (basisState b)) ↔ _
    rw [e1, e2]
    unfold Agrees
    rw [basisState_inner]
    by_cases h : b ∘ Equiv.swap 0 1 = b
    · rw [if_pos h]
      norm_num [h]
    · rw [if_neg h]
      norm_num [h]
  unfold Disagree
  rw [hag]
  have : b ∘ Equiv.swap 0 1 = b ↔ b 0 = b 1 := by
    clear e1 e2 hag hfree
    revert b
    decide
  rw [this]
  exact ⟨fun h => h.2, fun h => ⟨hfree, h⟩⟩

theorem swap_disagreements : disagreements swapSetting = 2 := by
  unfold disagreements
  have : {b : Basis 2 | Disagree swapSetting b} = ↑((Finset.univ : Finset (Basis 2)).filter fun b => b 0 ≠ b 1) := by
    ext b
    simp [swap_disagree]
  rw [this, Set.ncard_coe_finset]
  decide

/-- **C91**: two random simulations miss a SWAP gate with probability `1/6`. -/
theorem swap_missed_rarely : ∃ (env : (numberTape 2).σ → Env) (s' : (numberTape 2).σ → State),
    (∀ᵐ w ∂tapeMeasure 2, RunWith swapSetting 2 (numberTape 2) ⟨0, w, []⟩ (env w) (simOnly 2) (s' w)) ∧
    tapeMeasure 2 {w | (s' w).results.equivalence = .probablyEquivalent} = 1 / 6 ∧
    tapeMeasure 2 {w | (s' w).results.equivalence = .notEquivalent} = 1 - 1 / 6 := by
  obtain ⟨env, s', hrun, honly⟩ := runs_exist swapSetting rfl (by decide) (numberTape_ideal 2) (K := 2) (by decide) (by decide) 0
  have h := detection_probability swapSetting rfl (by decide) (numberTape_ideal 2) (K := 2) (by decide) 0 env (fun _ => simOnly 2) s' hrun
    fun _ => honly
  rw [swap_disagreements] at h
  have hq : (((2 ^ 2 - 2 : Nat).descFactorial 2 : Nat) : ENNReal) / (((2 ^ 2 : Nat).descFactorial 2 : Nat) : ENNReal) = 1 / 6 := by
    have h1 : (2 ^ 2 - 2 : Nat).descFactorial 2 = 2 := by decide
    have h2 : (2 ^ 2 : Nat).descFactorial 2 = 12 := by decide
    rw [h1, h2]
    rw [ENNReal.div_eq_div_iff (by norm_num) (by norm_num) (by norm_num) (by norm_num)]
    norm_num
  rw [hq] at h
  exact ⟨env, s', hrun, h.1, h.2⟩

/-- **C91**: three simulations do not miss it, whatever the random source. -/
theorem swap_never_missed {R : Rng} {g : Generator R} (hg : g.generated = []) {env : Env} {s s' : State}
    (h : RunWith swapSetting 3 R g env s s') (honly : OnlySimulations s) : s'.results.equivalence = .notEquivalent :=
  enough_simulations_decide swapSetting rfl (by decide) hg h honly (by rw [swap_disagreements]; decide)

end QCEC.Props
