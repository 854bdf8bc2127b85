import Verif.Spec.FirstDistinct
import Mathlib.Logic.Equiv.Fintype
import Mathlib.Data.Fintype.CardEmbedding
import Mathlib.Tactic.ByContra
/-!
# The first distinct values of a sequence of independent uniform random variables

Each list of `K` distinct values is equally likely.  Used for C91.
-/
namespace QCEC.Props
open QCEC.Spec MeasureTheory ProbabilityTheory

variable {α : Type*} {K : ℕ}

theorem firstDistinct_unique {w : ℕ → α} {f g : Fin K ↪ α} (hf : FirstDistinct w f) (hg : FirstDistinct w g) : f = g := by
  have key : ∀ (n : ℕ) (h : n < K), f ⟨n, h⟩ = g ⟨n, h⟩ := by
    intro n
    induction n using Nat.strong_induction_on with
    | _ n ih =>
      intro h
      obtain ⟨t, ht, hb⟩ := hf ⟨n, h⟩
      obtain ⟨u, hu, hc⟩ := hg ⟨n, h⟩
      rcases lt_trichotomy t u with htu | rfl | htu
      · obtain ⟨i', hi', hw⟩ := hc t htu
        rw [ht, ← ih i'.1 hi' i'.2] at hw
        exact absurd (f.injective hw) (ne_of_gt hi')
      · rw [← ht, ← hu]
      · obtain ⟨i', hi', hw⟩ := hb u htu
        rw [hu, ih i'.1 hi' i'.2] at hw
        exact absurd (g.injective hw) (ne_of_gt hi')
  ext i
  exact key i.1 i.2

theorem firstDistinct_map {β : Type*} {w : ℕ → α} {f : Fin K ↪ α} (e : α ≃ β) :
    FirstDistinct (fun k => e (w k)) (f.trans e.toEmbedding) ↔ FirstDistinct w f := by
  unfold FirstDistinct
  simp

/-- A prefix. -/
theorem firstDistinct_prefix {w : ℕ → α} {L : ℕ} (h : L ≤ K) {f : Fin K ↪ α} (hf : FirstDistinct w f) :
    FirstDistinct w ((Fin.castLEEmb h).trans f) := by
  intro i
  obtain ⟨t, ht, hb⟩ := hf (Fin.castLE h i)
  refine ⟨t, ht, fun j hj => ?_⟩
  obtain ⟨i', hi', hw⟩ := hb j hj
  exact ⟨⟨i'.1, lt_of_lt_of_le hi' (by simpa using i.2.le)⟩, hi', hw⟩

theorem firstDistinct_exists [Fintype α] {w : ℕ → α} (hw : Function.Surjective w) : ∀ {K : ℕ}, K ≤ Fintype.card α →
    ∃ f : Fin K ↪ α, FirstDistinct w f := by
  classical
  intro K
  induction K with
  | zero => intro _; exact ⟨⟨Fin.elim0, fun i => i.elim0⟩, fun i => i.elim0⟩
  | succ K ih =>
    intro h
    obtain ⟨f, hf⟩ := ih (by omega)
    have hex : ∃ t, w t ∉ Set.range f := by
      by_contra hno
      push Not at hno
      have : Function.Surjective f := by
        intro a
        obtain ⟨t, rfl⟩ := hw a
        exact hno t
      have := Fintype.card_le_of_surjective f this
      simp at this
      omega
    let t := Nat.find hex
    have ht : w t ∉ Set.range f := Nat.find_spec hex
    have hmin : ∀ j < t, w j ∈ Set.range f := fun j hj => by simpa using Nat.find_min hex hj
    refine ⟨⟨Fin.snoc f (w t), ?_⟩, ?_⟩
    · rw [Fin.snoc_injective_iff]
      exact ⟨f.injective, ht⟩
    · intro i
      refine Fin.lastCases ?_ (fun i => ?_) i
      · refine ⟨t, by simp, fun j hj => ?_⟩
        obtain ⟨i', hi'⟩ := hmin j hj
        exact ⟨i'.castSucc, Fin.castSucc_lt_last i', by simp [hi']⟩
      · obtain ⟨u, hu, hb⟩ := hf i
        refine ⟨u, by simp [hu], fun j hj => ?_⟩
        obtain ⟨i', hi', hwj⟩ := hb j hj
        exact ⟨i'.castSucc, by simpa using hi', by simp [hwj]⟩

/-- Any list of distinct values can be permuted into any other. -/
theorem embedding_transitive [Finite α] (f g : Fin K ↪ α) : ∃ e : Equiv.Perm α, f.trans e.toEmbedding = g := by
  classical
  let e0 : {a // a ∈ Set.range f} ≃ {a // a ∈ Set.range g} :=
    (Equiv.ofInjective f f.injective).symm.trans (Equiv.ofInjective g g.injective)
  haveI := Fintype.ofFinite α
  refine ⟨e0.extendSubtype, ?_⟩
  ext i
  have := e0.extendSubtype_apply_of_mem (f i) (Set.mem_range_self i)
  simp only [Function.Embedding.trans_apply, Equiv.coe_toEmbedding]
  rw [this]
  simp [e0, Equiv.ofInjective_symm_apply]

section Prob
variable {Ω : Type*} [MeasurableSpace Ω] [Fintype α] [MeasurableSpace α] [MeasurableSingletonClass α] {X : ℕ → Ω → α} {μ : Measure Ω}

theorem measurable_firstDistinct (f : Fin K ↪ α) : MeasurableSet {w : ℕ → α | FirstDistinct w f} := by
  have : {w : ℕ → α | FirstDistinct w f} =
      ⋂ i : Fin K, ⋃ t : ℕ, ({w | w t = f i} ∩ ⋂ j : ℕ, ⋂ _ : j < t, ⋃ i' : Fin K, ⋃ _ : i' < i, {w | w j = f i'}) := by
    ext w
    simp [FirstDistinct]
  rw [this]
  have hc : ∀ (t : ℕ) (a : α), MeasurableSet {w : ℕ → α | w t = a} := fun t a =>
    (measurable_pi_apply (X := fun _ : ℕ => α) t) (measurableSet_singleton a)
  refine MeasurableSet.iInter fun i => MeasurableSet.iUnion fun t => (hc _ _).inter ?_
  exact MeasurableSet.iInter fun j => MeasurableSet.iInter fun _ => MeasurableSet.iUnion fun i' => MeasurableSet.iUnion fun _ => hc _ _

/-- Permuting the values does not change the distribution. -/
theorem law_permuted (h : IndependentUniform X μ) (e : Equiv.Perm α) :
    μ.map (fun ω k => e (X k ω)) = μ.map (fun ω k => X k ω) := by
  have := h.prob
  have hd : DiscreteMeasurableSpace α := by infer_instance
  have he : Measurable e := measurable_of_finite _
  have h1 := h.indep.map_fun_eq_infinitePi_map h.measurable
  have h2 := (h.indep.comp (fun _ => e) (fun _ => he)).map_fun_eq_infinitePi_map (fun k => he.comp (h.measurable k))
  have h3 : ∀ k, μ.map (e ∘ X k) = μ.map (X k) := by
    intro k
    refine Measure.ext_of_singleton fun a => ?_
    rw [Measure.map_apply (he.comp (h.measurable k)) (measurableSet_singleton a),
      Measure.map_apply (h.measurable k) (measurableSet_singleton a)]
    have e1 : (e ∘ X k) ⁻¹' {a} = {ω | X k ω = e.symm a} := by
      ext ω
      simp [Equiv.eq_symm_apply]
    have e2 : X k ⁻¹' {a} = {ω | X k ω = a} := rfl
    rw [e1, e2, h.uniform, h.uniform]
  rw [h1]
  simp only [h3] at h2
  exact h2

theorem prob_eq (h : IndependentUniform X μ) (f g : Fin K ↪ α) :
    μ {ω | FirstDistinct (fun k => X k ω) f} = μ {ω | FirstDistinct (fun k => X k ω) g} := by
  obtain ⟨e, rfl⟩ := embedding_transitive f g
  have hm : Measurable (fun ω k => X k ω) := measurable_pi_iff.mpr h.measurable
  have he : Measurable (fun ω k => e (X k ω)) := measurable_pi_iff.mpr fun k => (measurable_of_finite e).comp (h.measurable k)
  have h1 := Measure.map_apply (μ := μ) hm (measurable_firstDistinct (f.trans e.toEmbedding))
  have h2 := Measure.map_apply (μ := μ) he (measurable_firstDistinct (f.trans e.toEmbedding))
  rw [law_permuted h e, h1] at h2
  refine Eq.trans ?_ h2.symm
  congr 1
  ext ω
  exact (firstDistinct_map (w := fun k => X k ω) e).symm

/-- A value misses a long initial segment with small probability. -/
theorem missed_prob (h : IndependentUniform X μ) (a : α) (k0 L : ℕ) :
    μ {ω | ∀ k, k0 ≤ k → k < k0 + L → X k ω ≠ a} = (1 - (Fintype.card α : ENNReal)⁻¹) ^ L := by
  have := h.prob
  have hs : {ω | ∀ k, k0 ≤ k → k < k0 + L → X k ω ≠ a} = ⋂ k ∈ Finset.Ico k0 (k0 + L), X k ⁻¹' {a}ᶜ := by
    ext ω; simp
  rw [hs, h.indep.measure_inter_preimage_eq_mul (Finset.Ico k0 (k0 + L)) (sets := fun _ => {a}ᶜ)
    (fun _ _ => (measurableSet_singleton a).compl)]
  have hk : ∀ k, μ (X k ⁻¹' {a}ᶜ) = 1 - (Fintype.card α : ENNReal)⁻¹ := by
    intro k
    rw [Set.preimage_compl, prob_compl_eq_one_sub ((h.measurable k) (measurableSet_singleton a))]
    congr 1
    exact h.uniform k a
  rw [Finset.prod_congr rfl fun k _ => hk k]
  simp

/-- Almost surely every value is drawn again and again. -/
theorem drawn_again (h : IndependentUniform X μ) : ∀ᵐ ω ∂μ, ∀ (a : α) (k0 : ℕ), ∃ k, k0 ≤ k ∧ X k ω = a := by
  have := h.prob
  rw [ae_all_iff]
  intro a
  rw [ae_all_iff]
  intro k0
  rw [ae_iff]
  have hne : Nonempty α := ⟨a⟩
  have hlt : (1 - (Fintype.card α : ENNReal)⁻¹) < 1 := by
    refine ENNReal.sub_lt_self (by simp) (by simp) ?_
    simp
  refine le_antisymm (ge_of_tendsto' (ENNReal.tendsto_pow_atTop_nhds_zero_of_lt_one hlt) fun L => ?_) (zero_le)
  rw [← missed_prob h a k0 L]
  refine measure_mono fun ω hω k h1 _ h3 => hω ⟨k, h1, h3⟩

/-- Almost surely the sequence has `K` different values. -/
theorem firstDistinct_ae (h : IndependentUniform X μ) (hK : K ≤ Fintype.card α) :
    ∀ᵐ ω ∂μ, ∃ f : Fin K ↪ α, FirstDistinct (fun k => X k ω) f := by
  filter_upwards [drawn_again h] with ω hω
  exact firstDistinct_exists (fun a => (hω a 0).imp fun _ h => h.2) hK

/-- Every list of `K` distinct values has the same probability. -/
theorem firstDistinct_prob (h : IndependentUniform X μ) (hK : K ≤ Fintype.card α) (f : Fin K ↪ α) :
    μ {ω | FirstDistinct (fun k => X k ω) f} = ((Fintype.card α).descFactorial K : ENNReal)⁻¹ := by
  classical
  have := h.prob
  have hm : Measurable (fun ω k => X k ω) := measurable_pi_iff.mpr h.measurable
  have hmeas : ∀ g : Fin K ↪ α, MeasurableSet {ω | FirstDistinct (fun k => X k ω) g} := fun g => hm (measurable_firstDistinct g)
  have hU : μ (⋃ g : Fin K ↪ α, {ω | FirstDistinct (fun k => X k ω) g}) = 1 := by
    have hae := firstDistinct_ae h hK
    rw [← measure_univ (μ := μ)]
    refine measure_congr ?_
    filter_upwards [hae] with ω hω
    refine propext ⟨fun _ => Set.mem_univ ω, fun _ => ?_⟩
    exact Set.mem_iUnion.mpr hω
  have hdis : Pairwise (Function.onFun Disjoint fun g : Fin K ↪ α => {ω | FirstDistinct (fun k => X k ω) g}) := fun f g hfg =>
    Set.disjoint_left.mpr fun ω h1 h2 => hfg (firstDistinct_unique (w := fun k => X k ω) h1 h2)
  rw [measure_iUnion hdis hmeas, tsum_fintype] at hU
  rw [Finset.sum_congr rfl fun g _ => prob_eq h g f] at hU
  simp only [Finset.sum_const, Finset.card_univ, Fintype.card_embedding_eq, Fintype.card_fin, nsmul_eq_mul] at hU
  exact ENNReal.eq_inv_of_mul_eq_one_left (by rw [mul_comm]; exact hU)

theorem measurable_avoid (h : IndependentUniform X μ) (good : Finset α) :
    MeasurableSet {ω | ∃ f : Fin K ↪ α, FirstDistinct (fun k => X k ω) f ∧ ∀ i, f i ∈ good} := by
  classical
  have hm : Measurable (fun ω k => X k ω) := measurable_pi_iff.mpr h.measurable
  have hs : {ω | ∃ f : Fin K ↪ α, FirstDistinct (fun k => X k ω) f ∧ ∀ i, f i ∈ good} =
      ⋃ f : Fin K ↪ α, ⋃ _ : ∀ i, f i ∈ good, {ω | FirstDistinct (fun k => X k ω) f} := by
    ext ω
    simp only [Set.mem_ofPred_eq, Set.mem_iUnion]
    constructor
    · rintro ⟨f, hf, hg⟩; exact ⟨f, hg, hf⟩
    · rintro ⟨f, hg, hf⟩; exact ⟨f, hf, hg⟩
  rw [hs]
  exact MeasurableSet.iUnion fun f => MeasurableSet.iUnion fun _ => hm (measurable_firstDistinct f)

/-- The probability that the first `K` distinct values avoid a set of `D` values. -/
theorem avoid_prob (h : IndependentUniform X μ) (hK : K ≤ Fintype.card α) (good : Finset α) :
    μ {ω | ∃ f : Fin K ↪ α, FirstDistinct (fun k => X k ω) f ∧ ∀ i, f i ∈ good} =
      (good.card.descFactorial K : ENNReal) / ((Fintype.card α).descFactorial K : ENNReal) := by
  classical
  have := h.prob
  have hm : Measurable (fun ω k => X k ω) := measurable_pi_iff.mpr h.measurable
  have hmeas : ∀ g : Fin K ↪ α, MeasurableSet {ω | FirstDistinct (fun k => X k ω) g} := fun g => hm (measurable_firstDistinct g)
  have hs : {ω | ∃ f : Fin K ↪ α, FirstDistinct (fun k => X k ω) f ∧ ∀ i, f i ∈ good} =
      ⋃ g : Fin K ↪ good, {ω | FirstDistinct (fun k => X k ω) (g.trans (Function.Embedding.subtype _))} := by
    ext ω
    simp only [Set.mem_ofPred_eq, Set.mem_iUnion]
    constructor
    · rintro ⟨f, hf, hg⟩
      refine ⟨⟨fun i => ⟨f i, hg i⟩, fun i j hij => f.injective (by simpa using hij)⟩, ?_⟩
      exact hf
    · rintro ⟨g, hg⟩
      exact ⟨_, hg, fun i => (g i).2⟩
  have hdis : Pairwise (Function.onFun Disjoint fun g : Fin K ↪ good =>
      {ω | FirstDistinct (fun k => X k ω) (g.trans (Function.Embedding.subtype _))}) := fun f g hfg =>
    Set.disjoint_left.mpr fun ω h1 h2 => hfg (by
      have := firstDistinct_unique (w := fun k => X k ω) h1 h2
      ext i
      have := DFunLike.congr_fun this i
      simpa using this)
  rw [hs, measure_iUnion hdis (fun g => hmeas _), tsum_fintype]
  simp only [firstDistinct_prob h hK]
  simp [Fintype.card_embedding_eq, div_eq_mul_inv]

end Prob

theorem descFactorial_mul_le {M N : ℕ} (h : M ≤ N) (K : ℕ) : M.descFactorial K * N ^ K ≤ M ^ K * N.descFactorial K := by
  induction K with
  | zero => simp
  | succ K ih =>
    rw [Nat.descFactorial_succ, Nat.descFactorial_succ, pow_succ, pow_succ]
    have h1 : (M - K) * N ≤ M * (N - K) := by
      rw [Nat.sub_mul, Nat.mul_sub]
      refine Nat.sub_le_sub_left ?_ _
      rw [mul_comm]
      exact Nat.mul_le_mul_left _ h
    calc (M - K) * M.descFactorial K * (N ^ K * N) = (M.descFactorial K * N ^ K) * ((M - K) * N) := by ring
      _ ≤ (M ^ K * N.descFactorial K) * (M * (N - K)) := Nat.mul_le_mul ih h1
      _ = M ^ K * M * ((N - K) * N.descFactorial K) := by ring

/-- Distinct values miss the rest with at most the probability with which independent ones do. -/
theorem descFactorial_ratio_le {M N : ℕ} (h : M ≤ N) (K : ℕ) : (M.descFactorial K : ENNReal) / N.descFactorial K ≤ ((M : ENNReal) / N) ^ K := by
  by_cases hK : K ≤ N
  · have h0 : N.descFactorial K ≠ 0 := by rw [Ne, Nat.descFactorial_eq_zero_iff_lt]; omega
    rw [ENNReal.div_le_iff (by exact_mod_cast h0) (by simp)]
    by_cases hN : N = 0
    · subst hN
      have hM : M = 0 := by omega
      have hK : K = 0 := by omega
      subst hM hK
      simp
    · rw [div_eq_mul_inv, mul_pow, ← ENNReal.inv_pow, mul_right_comm, ← div_eq_mul_inv,
        ENNReal.le_div_iff_mul_le (Or.inl (by positivity)) (Or.inl (by simp))]
      exact_mod_cast descFactorial_mul_le h K
  · rw [Nat.descFactorial_of_lt (n := M) (by omega)]
    simp

end QCEC.Props
