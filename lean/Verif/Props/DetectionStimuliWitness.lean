import Verif.Props.ProductStimuli
import Verif.Props.DetectionParallelWitness
import Verif.Props.EndToEndWitness
/-!
# C92: the hypotheses can be met
-/
namespace QCEC.Props
open QCEC QCEC.DD QCEC.Sem QCEC.Gen QCEC.ZX QCEC.Spec QCEC.Spec.ZX QCEC.Mgr QCEC.Prep QCEC.Par MeasureTheory ProbabilityTheory

variable {m n : Nat} {R : Rng}

/-! ## Runs -/

/-- All requests return. -/
theorem kinds_requests_return (S : Setting m n) (hc : S.stateType = .computationalBasis → 63 < m) (hz : S.stateType = .stabilizer → m ≠ 0)
    (K : Nat) (g : Generator R) :
    ∃ (sts : List Stim) (g' : Generator R), History g (List.replicate K (.request (checkerReq n m S.stateType))) sts g' := by
  induction K generalizing g with
  | zero => exact ⟨[], g, .nil g⟩
  | succ K ih =>
    have hone : ∃ st g', Generate g (checkerReq n m S.stateType) st g' := by
      by_cases ht : S.stateType = .computationalBasis
      · obtain ⟨bits, _, g', hg⟩ := wide_stimulus g (checkerReq n m S.stateType) ht (by rw [checkerReq_random S.data]; exact hc ht)
          (by simp [checkerReq])
        exact ⟨_, g', hg⟩
      · rw [other_requests_return g _ ht, checkerReq_random S.data]
        rintro ⟨h1, h2⟩
        exact hz h1 h2
    obtain ⟨st, g', hg⟩ := hone
    obtain ⟨sts, g'', hh⟩ := ih g'
    exact ⟨st :: sts, g'', .request _ _ _ _ _ _ _ hg hh⟩

theorem simOnly_only (K : Nat) : OnlySimulations (simOnly K) := by
  refine ⟨rfl, fun k hk => ?_⟩
  cases k
  · rfl
  · cases hk
  · cases hk
  · cases hk

/-- **C92** is not vacuous: for every two circuits, every random source in every state and every kind of stimuli – classical ones of more than
63 qubits, stabilizer states of at least one – there are sequential and parallel runs as in the theorems (and, in the sequential ones, no other checker that answers). -/
theorem kinds_runs_exist (S : Setting m n) (hc : S.stateType = .computationalBasis → 63 < m) (hz : S.stateType = .stabilizer → m ≠ 0)
    {K T : Nat} (hK : 0 < K) (hT : 1 < T) (seed : Nat) :
    (∃ (env : R.σ → Env) (s' : R.σ → State), ∀ w, RunWith S K R ⟨seed, w, []⟩ (env w) (simOnly K) (s' w) ∧ ∀ e : Event, FromEnv (env w) e → e.kind = .simulation) ∧
    (∃ s : R.σ → PState, ∀ w, ParallelRunWith S K R ⟨seed, w, []⟩ calmEnv (manySims K T) {} (s w)) := by
  constructor
  · have hex : ∀ w : R.σ, ∃ p : Env × State, RunWith S K R ⟨seed, w, []⟩ p.1 (simOnly K) p.2 ∧
        ∀ e : Event, FromEnv p.1 e → e.kind = .simulation := by
      intro w
      obtain ⟨sts, g', hh⟩ := kinds_requests_return S hc hz K (⟨seed, w, []⟩ : Generator R)
      obtain ⟨env, s', h1, h2, h3, h4⟩ := simulation_run_exists S hK hh
      exact ⟨(env, s'), ⟨h1, rfl, rfl, rfl, by simp [State.fresh, testCfg], ⟨_, h2⟩, h3⟩, h4⟩
    choose p hp using hex
    exact ⟨fun w => (p w).1, fun w => (p w).2, hp⟩
  · have hex : ∀ w : R.σ, ∃ s : PState, ParallelRunWith S K R ⟨seed, w, []⟩ calmEnv (manySims K T) {} s := by
      intro w
      obtain ⟨sts, g', hh⟩ := kinds_requests_return S hc hz K (⟨seed, w, []⟩ : Generator R)
      exact parallel_simulation_run_exists S hK hT hh
    choose s hs using hex
    exact ⟨s, hs⟩

/-! ## Idealised sources -/

/-- A tape of faces of a die, read by distributions, and one of words, read by the engine itself. -/
def twoTapes (b : Nat) (hb : 0 < b) (hb' : b ≤ 2 ^ 64) : Rng where
  σ := (ℕ → Fin 6) × (ℕ → Fin b)
  seed := fun _ => (fun _ => 0, fun _ => ⟨0, hb⟩)
  seedSeq := fun _ => (fun _ => 0, fun _ => ⟨0, hb⟩)
  next := fun w => ((w.2 0).1, w.1, fun k => w.2 (k + 1))
  next_lt := fun w => Nat.lt_of_lt_of_le (w.2 0).2 hb'
  uniform := fun hi w => (min (w.1 0).1 hi, fun k => w.1 (k + 1), w.2)
  uniform_le := fun _ _ => Nat.min_le_right _ _

theorem tapes_after {b : Nat} {hb : 0 < b} {hb' : b ≤ 2 ^ 64} (hi : Nat) : ∀ (k : Nat) (w : (ℕ → Fin 6) × (ℕ → Fin b)),
    after (twoTapes b hb hb') hi k w = (fun j => w.1 (k + j), w.2)
  | 0, w => by
    refine Prod.ext (funext fun j => ?_) rfl
    show w.1 j = w.1 (0 + j)
    rw [Nat.zero_add]
  | k + 1, w => by
    have h := tapes_after (hb := hb) (hb' := hb') hi k (fun j => w.1 (j + 1), w.2)
    have h2 : after (twoTapes b hb hb') hi (k + 1) w = after (twoTapes b hb hb') hi k (fun j => w.1 (j + 1), w.2) := rfl
    rw [h2, h]
    refine Prod.ext (funext fun j => ?_) rfl
    exact congrArg w.1 (by omega : k + j + 1 = k + 1 + j)

theorem tapes_die {b : Nat} {hb : 0 < b} {hb' : b ≤ 2 ^ 64} (k : Nat) (w : (ℕ → Fin 6) × (ℕ → Fin b)) :
    die (twoTapes b hb hb') k w = w.1 k := by
  refine Fin.ext ?_
  show drawn (twoTapes b hb hb') 5 k w = _
  unfold drawn
  rw [tapes_after]
  show min (w.1 (k + 0)).1 5 = _
  have h := (w.1 k).2
  rw [Nat.add_zero]
  omega

theorem tapes_words {b : Nat} {hb : 0 < b} {hb' : b ≤ 2 ^ 64} : ∀ (k : Nat) (w : (ℕ → Fin 6) × (ℕ → Fin b)),
    wordsAfter (twoTapes b hb hb') k w = (w.1, fun j => w.2 (k + j))
  | 0, w => by
    refine Prod.ext rfl (funext fun j => ?_)
    show w.2 j = w.2 (0 + j)
    rw [Nat.zero_add]
  | k + 1, w => by
    show ((twoTapes b hb hb').next (wordsAfter (twoTapes b hb hb') k w)).2 = _
    rw [tapes_words k w]
    refine Prod.ext rfl (funext fun j => ?_)
    exact congrArg w.2 (by omega : k + (j + 1) = k + 1 + j)

instance (b : Nat) (hb : 0 < b) (hb' : b ≤ 2 ^ 64) : MeasurableSpace (twoTapes b hb hb').σ :=
  inferInstanceAs (MeasurableSpace ((ℕ → Fin 6) × (ℕ → Fin b)))

/-- The uniform distribution of sequences. -/
noncomputable def sequences (α : Type) [Fintype α] [Nonempty α] [MeasurableSpace α] [MeasurableSingletonClass α] : Measure (ℕ → α) :=
  haveI : IsProbabilityMeasure (uniformOn (Set.univ : Set α)) := isProbabilityMeasure_uniformOn Set.finite_univ Set.univ_nonempty
  Measure.infinitePi fun _ : ℕ => uniformOn (Set.univ : Set α)

theorem sequences_uniform (α : Type) [Fintype α] [Nonempty α] [MeasurableSpace α] [MeasurableSingletonClass α] :
    IndependentUniform (fun (k : ℕ) (w : ℕ → α) => w k) (sequences α) := coordinates_uniform α

/-- Independent, uniformly distributed variables remain so if their argument is obtained by a measure-preserving map. -/
theorem uniform_comap {Ω Ω' α : Type*} [MeasurableSpace Ω] [MeasurableSpace Ω'] [Fintype α] [MeasurableSpace α] [MeasurableSingletonClass α]
    {X : ℕ → Ω → α} {μ : Measure Ω} {ν : Measure Ω'} (h : IndependentUniform X μ) (p : Ω' → Ω) (hp : MeasurePreserving p ν μ) :
    IndependentUniform (fun k w => X k (p w)) ν := by
  have := h.prob
  refine ⟨?_, fun k => (h.measurable k).comp hp.measurable, ?_, ?_⟩
  · refine ⟨?_⟩
    have h1 := hp.measure_preimage (MeasurableSet.univ.nullMeasurableSet)
    rw [Set.preimage_univ] at h1
    rw [h1]
    exact measure_univ
  · have hi := h.indep
    rw [iIndepFun_iff_measure_inter_preimage_eq_mul] at hi ⊢
    intro s sets hs
    have h1 := hi s hs
    have e1 : (⋂ i ∈ s, (fun w => X i (p w)) ⁻¹' sets i) = p ⁻¹' (⋂ i ∈ s, X i ⁻¹' sets i) := by
      ext w; simp
    have e2 : ∀ i ∈ s, ν ((fun w => X i (p w)) ⁻¹' sets i) = μ (X i ⁻¹' sets i) := fun i hi =>
      hp.measure_preimage ((h.measurable i (hs i hi)).nullMeasurableSet)
    rw [e1, Finset.prod_congr rfl e2, ← h1]
    exact hp.measure_preimage ((Finset.measurableSet_biInter _ fun i hi => h.measurable i (hs i hi)).nullMeasurableSet)
  · intro k a
    rw [← h.uniform k a]
    exact hp.measure_preimage ((h.measurable k (measurableSet_singleton a)).nullMeasurableSet)

theorem idealised_exist (b : Nat) (hb : 0 < b) (hb' : b ≤ 2 ^ 64) : ∃ μ : Measure (twoTapes b hb hb').σ,
    IdealDice (twoTapes b hb hb') μ ∧
    IndependentUniform (fun (k : ℕ) (w : (ℕ → Fin 6) × (ℕ → Fin b)) => w.2 k) (μ : Measure ((ℕ → Fin 6) × (ℕ → Fin b))) := by
  haveI : Nonempty (Fin b) := ⟨⟨0, hb⟩⟩
  have u1 := sequences_uniform (Fin 6)
  have u2 := sequences_uniform (Fin b)
  haveI := u1.prob
  haveI := u2.prob
  refine ⟨((sequences (Fin 6)).prod (sequences (Fin b)) : Measure ((ℕ → Fin 6) × (ℕ → Fin b))), ?_, ?_⟩
  · have h := uniform_comap u1 (Prod.fst : (ℕ → Fin 6) × (ℕ → Fin b) → ℕ → Fin 6)
      (measurePreserving_fst (μ := sequences (Fin 6)) (ν := sequences (Fin b)))
    unfold IdealDice
    have hX : (fun k w => die (twoTapes b hb hb') k w) = fun (k : ℕ) (w : (ℕ → Fin 6) × (ℕ → Fin b)) => w.1 k := by
      funext k w
      exact tapes_die k w
    rw [hX]
    exact h
  · exact uniform_comap u2 (Prod.snd : (ℕ → Fin 6) × (ℕ → Fin b) → ℕ → Fin b)
      (measurePreserving_snd (μ := sequences (Fin 6)) (ν := sequences (Fin b)))

/-- **C92** is not vacuous: there is a source idealised for every kind of stimuli. -/
theorem ideal_source_exists : ∃ (R : Rng) (_ : MeasurableSpace R.σ) (μ : Measure R.σ), IdealDice R μ ∧ IdealEngine R μ := by
  obtain ⟨μ, h1, h2⟩ := idealised_exist (2 ^ 64) (Nat.two_pow_pos 64) (Nat.le_refl _)
  refine ⟨twoTapes (2 ^ 64) (Nat.two_pow_pos 64) (Nat.le_refl _), inferInstance, μ, h1, ?_⟩
  unfold IdealEngine
  have hX : (fun k w => word (twoTapes (2 ^ 64) (Nat.two_pow_pos 64) (Nat.le_refl _)) k w) =
      fun (k : ℕ) (w : (ℕ → Fin 6) × (ℕ → Fin (2 ^ 64))) => w.2 k := by
    funext k w
    refine Fin.ext ?_
    show ((twoTapes (2 ^ 64) (Nat.two_pow_pos 64) (Nat.le_refl _)).next (wordsAfter _ k w)).1 = _
    rw [tapes_words k w]
    show (w.2 (k + 0)).1 = _
    rw [Nat.add_zero]
  rw [hX]
  exact h2

/-! ## A concrete case: a Z gate, which no classical stimulus sees, is missed by `K` product stimuli with probability `3^-K` -/

/-- A Z gate and no gate at all, compared with product stimuli. -/
noncomputable def zSetting : Setting 2 2 := settingOf justZ nothing2 justZ_wf nothing2_wf rfl rfl

theorem zSetting_inner (l : Fin 2 → Basis1) :
    Spec.inner (output justZ 1 (productState 2 l)) (output nothing2 1 (productState 2 l)) =
      star (amp (l 0) false) * amp (l 0) false - star (amp (l 0) true) * amp (l 0) true := by
  unfold Spec.inner productState
  simp only [justZ_output, nothing2_output]
  have hprod := Finset.prod_univ_sum (fun _ : Fin 2 => (Finset.univ : Finset Bool)) (fun (q : Fin 2) (c : Bool) =>
    star ((if q = 0 ∧ c = true then (-1 : ℂ) else 1) * amp (stateAt l q.1) c) * amp (stateAt l q.1) c)
  rw [Fintype.piFinset_univ] at hprod
  have hterm : ∀ z : Basis 2, star ((if z 0 = true then (-1 : ℂ) else 1) * ∏ q : Fin 2, amp (stateAt l q.1) (z q)) *
      ∏ q : Fin 2, amp (stateAt l q.1) (z q) =
      ∏ q : Fin 2, star ((if q = 0 ∧ z q = true then (-1 : ℂ) else 1) * amp (stateAt l q.1) (z q)) * amp (stateAt l q.1) (z q) := by
    intro z
    simp only [Fin.prod_univ_two, star_mul']
    simp
    ring
  rw [Finset.sum_congr rfl fun z _ => hterm z, ← hprod, Fin.prod_univ_two, Fintype.sum_bool, Fintype.sum_bool]
  have h1 := amp_normalised (stateAt l (1 : Fin 2).1)
  have e0 : stateAt l (0 : Fin 2).1 = l 0 := rfl
  simp only [one_ne_zero, false_and, if_false, one_mul, true_and, if_true, Bool.false_eq_true, and_false, e0]
  rw [add_comm (star (amp (stateAt l (1 : Fin 2).1) true) * _), h1]
  simp
  ring

theorem zSetting_disagree (l : Fin 2 → Basis1) : DisagreeOn zSetting (productStim 2 l) ↔ l 0 ≠ .zero ∧ l 0 ≠ .one := by
  have hiff : DisagreeOn zSetting (productStim 2 l) ↔
      ¬ Agrees (1 / 100 : ℝ) (output justZ 1 (productState 2 l)) (output nothing2 1 (productState 2 l)) := by
    constructor
    · rintro ⟨x, hx, hno⟩
      rw [productStim_denotes] at hx
      subst hx
      exact hno
    · exact fun hno => ⟨_, (productStim_denotes l _).mpr rfl, hno⟩
  rw [hiff]
  unfold Agrees
  rw [zSetting_inner]
  have hs := sqrt_two_sq
  have h0 : (Real.sqrt 2 : ℂ) ≠ 0 := by
    intro h; rw [h] at hs; norm_num at hs
  have hval : ∀ (x : Basis1) (c : Bool), x ≠ .zero → x ≠ .one → star (amp x c) * amp x c = 1 / 2 := by
    intro x c hz ho
    have hsq : ((Real.sqrt 2 : ℂ))⁻¹ * ((Real.sqrt 2 : ℂ))⁻¹ = 2⁻¹ := by rw [← mul_inv, hs]
    have hI : ∀ a b : ℂ, a * b * (a * b) = a * a * (b * b) := fun a b => by ring
    cases x <;> cases c <;> first
      | exact absurd rfl hz
      | exact absurd rfl ho
      | (simp [amp, Complex.conj_ofReal, div_eq_mul_inv, hsq]; done)
      | (simp [amp, Complex.conj_ofReal, div_eq_mul_inv]
         rw [hI, hsq]
         simp)
  cases hl : l 0
  · simp [amp]
    try norm_num
  · simp [amp]
    try norm_num
  all_goals
    rw [hval _ _ (by simp) (by simp), hval _ _ (by simp) (by simp)]
    simp only [sub_self, map_zero, norm_zero, sub_zero, abs_one]
    norm_num
    try simp

theorem zSetting_disagreements : productDisagreements zSetting = 24 := by
  unfold productDisagreements
  have hd : ∀ d : Fin 2 → Fin 6, DisagreeOn zSetting (productStim 2 fun i => Gen.basis1 (d i).1) ↔ d 0 ≠ 0 ∧ d 0 ≠ 1 := by
    intro d
    rw [zSetting_disagree]
    have : ∀ i : Fin 6, (Gen.basis1 i.1 ≠ .zero ∧ Gen.basis1 i.1 ≠ .one) ↔ (i ≠ 0 ∧ i ≠ 1) := by decide
    exact this (d 0)
  have h1 := agreeingFaces_card zSetting
  have h2 : (allBut (BadFaces zSetting)) = Finset.univ.filter fun d : Fin 2 → Fin 6 => d 0 = 0 ∨ d 0 = 1 := by
    ext d
    rw [mem_allBut]
    unfold BadFaces
    rw [hd]
    simp
    tauto
  have h3 : (Finset.univ.filter fun d : Fin 2 → Fin 6 => d 0 = 0 ∨ d 0 = 1).card = 12 := by decide
  rw [h2, h3] at h1
  unfold productDisagreements at h1
  have h4 : (6 : Nat) ^ 2 = 36 := by norm_num
  omega

theorem zSetting_agreement : agreement zSetting = 1 / 3 := by
  have : agreement zSetting = ((6 ^ 2 - productDisagreements zSetting : ℕ) : ENNReal) / (6 ^ 2 : ℕ) := rfl
  rw [this, zSetting_disagreements]
  have h1 : ((6 ^ 2 - 24 : ℕ) : ENNReal) = 12 := by norm_num
  have h2 : ((6 ^ 2 : ℕ) : ENNReal) = 36 := by norm_num
  rw [h1, h2, ENNReal.div_eq_div_iff (by norm_num) (by norm_num) (by norm_num) (by norm_num)]
  norm_num

/-- **C92**: the Z gate that all classical stimuli miss (`exhaustive_misses_phases`) is missed by `K` product stimuli with probability `3^-K`,
sequentially and in two threads. -/
theorem z_missed_rarely {K : Nat} (hK : 0 < K) : ∃ (R : Rng) (_ : MeasurableSpace R.σ) (μ : Measure R.σ) (env : R.σ → Env)
    (s' : R.σ → State) (s : R.σ → PState),
    (∀ w, RunWith zSetting K R ⟨0, w, []⟩ (env w) (simOnly K) (s' w)) ∧
    (∀ w, ParallelRunWith zSetting K R ⟨0, w, []⟩ calmEnv (manySims K 2) {} (s w)) ∧
    μ {w | (s' w).results.equivalence = .probablyEquivalent} = (1 / 3) ^ K ∧
    μ {w | (s' w).results.equivalence = .notEquivalent} = 1 - (1 / 3) ^ K ∧
    μ {w | (s w).results.equivalence = .probablyEquivalent} = (1 / 3) ^ K ∧
    μ {w | (s w).results.equivalence = .notEquivalent} = 1 - (1 / 3) ^ K := by
  obtain ⟨R, hR, μ, hdice, _⟩ := ideal_source_exists
  obtain ⟨⟨env, s', hrun⟩, s, hpar⟩ := kinds_runs_exist (R := R) zSetting (fun h => by cases h) (fun h => by cases h) hK
    (by decide : 1 < 2) 0
  have h1 := stimuli_probability (R := R) (μ := μ) zSetting hdice 0 env (fun _ => simOnly K) s' (Filter.Eventually.of_forall fun w => (hrun w).1)
    fun _ => simOnly_only K
  have h2 := parallel_stimuli_probability (R := R) (μ := μ) zSetting hdice 0 (fun _ => calmEnv) (fun _ => manySims K 2) (fun _ => {}) s
    (Filter.Eventually.of_forall hpar) fun _ => manySims_only K 2
  rw [zSetting_agreement] at h1 h2
  exact ⟨R, hR, μ, env, s', s, fun w => (hrun w).1, hpar, h1.1, h1.2, h2.1, h2.2⟩

end QCEC.Props
