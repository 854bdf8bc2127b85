import Verif.Spec.FirstDistinct
import Mathlib.Tactic.NormNum
/-!
# Blocks of independent, uniformly distributed values

Nothing here is about the program.
-/
namespace QCEC.Props
open QCEC.Spec MeasureTheory ProbabilityTheory

variable {Ω α : Type*} [MeasurableSpace Ω] [Fintype α] [MeasurableSpace α] [MeasurableSingletonClass α] {X : ℕ → Ω → α} {μ : Measure Ω}

/-- The first `N` values are a given list with probability `|α|^-N`. -/
theorem initial_prob (h : IndependentUniform X μ) (N : ℕ) (a : ℕ → α) :
    μ {ω | ∀ i < N, X i ω = a i} = ((Fintype.card α : ENNReal)⁻¹) ^ N := by
  have hs : {ω | ∀ i < N, X i ω = a i} = ⋂ i ∈ Finset.range N, X i ⁻¹' {a i} := by
    ext ω; simp
  rw [hs, h.indep.measure_inter_preimage_eq_mul (Finset.range N) (sets := fun i => {a i}) (fun i _ => measurableSet_singleton (a i))]
  have : ∀ i ∈ Finset.range N, μ (X i ⁻¹' {a i}) = (Fintype.card α : ENNReal)⁻¹ := fun i _ => h.uniform i (a i)
  rw [Finset.prod_congr rfl this, Finset.prod_const, Finset.card_range]

theorem measurable_blocks (h : IndependentUniform X μ) (K L : ℕ) (good : Finset (Fin L → α)) :
    MeasurableSet {ω | ∀ k < K, (fun i : Fin L => X (k * L + i.1) ω) ∈ good} := by
  have hs : {ω | ∀ k < K, (fun i : Fin L => X (k * L + i.1) ω) ∈ good} =
      ⋂ k : ℕ, ⋂ _ : k < K, {ω | (fun i : Fin L => X (k * L + i.1) ω) ∈ good} := by
    ext ω; simp
  rw [hs]
  refine MeasurableSet.iInter fun k => MeasurableSet.iInter fun _ => ?_
  exact (measurable_pi_iff.mpr fun i : Fin L => h.measurable (k * L + i.1)) good.finite_toSet.measurableSet

/-- `K` successive blocks of `L` values are all in `good` with probability `(|good| / |α|^L)^K`. -/
theorem blocks_prob (h : IndependentUniform X μ) (K L : ℕ) (good : Finset (Fin L → α)) :
    μ {ω | ∀ k < K, (fun i : Fin L => X (k * L + i.1) ω) ∈ good} =
      ((good.card : ENNReal) / ((Fintype.card α ^ L : ℕ) : ENNReal)) ^ K := by
  classical
  -- all lists of `K` good blocks
  have hset : {ω | ∀ k < K, (fun i : Fin L => X (k * L + i.1) ω) ∈ good} =
      ⋃ f ∈ Fintype.piFinset (fun _ : Fin K => good), {ω | ∀ (k : Fin K) (i : Fin L), X (k.1 * L + i.1) ω = f k i} := by
    ext ω
    simp only [Set.mem_ofPred_eq, Set.mem_iUnion, Fintype.mem_piFinset, exists_prop]
    constructor
    · intro hg
      exact ⟨fun k i => X (k.1 * L + i.1) ω, fun k => hg k.1 k.2, fun _ _ => rfl⟩
    · rintro ⟨f, hf, he⟩ k hk
      have : (fun i : Fin L => X (k * L + i.1) ω) = f ⟨k, hk⟩ := funext fun i => he ⟨k, hk⟩ i
      rw [this]
      exact hf _
  have hone : ∀ f : Fin K → Fin L → α,
      μ {ω | ∀ (k : Fin K) (i : Fin L), X (k.1 * L + i.1) ω = f k i} = ((Fintype.card α : ENNReal)⁻¹) ^ (K * L) := by
    intro f
    by_cases hN : K * L = 0
    · rw [hN, pow_zero]
      have : {ω | ∀ (k : Fin K) (i : Fin L), X (k.1 * L + i.1) ω = f k i} = Set.univ := by
        ext ω
        simp only [Set.mem_ofPred_eq, Set.mem_univ, iff_true]
        intro k i
        have h1 := k.2
        have h2 := i.2
        rcases Nat.mul_eq_zero.mp hN with h' | h' <;> omega
      rw [this]
      exact h.prob.measure_univ
    · have hL : 0 < L := Nat.pos_of_ne_zero fun h' => hN (by rw [h', Nat.mul_zero])
      have hK : 0 < K := Nat.pos_of_ne_zero fun h' => hN (by rw [h', Nat.zero_mul])
      rw [← initial_prob h (K * L) (fun j => f ⟨j / L % K, Nat.mod_lt _ hK⟩ ⟨j % L, Nat.mod_lt _ hL⟩)]
      congr 1
      ext ω
      simp only [Set.mem_ofPred_eq]
      constructor
      · intro he j hj
        have hd : j / L < K := by rw [Nat.div_lt_iff_lt_mul hL]; exact hj
        have := he ⟨j / L, hd⟩ ⟨j % L, Nat.mod_lt _ hL⟩
        simp only [Nat.mod_eq_of_lt hd]
        rw [← this]
        congr 1
        rw [Nat.mul_comm]
        exact (Nat.div_add_mod j L).symm
      · intro he k i
        have hlt : k.1 * L + i.1 < K * L := by
          have h1 := k.2
          have h2 := i.2
          calc k.1 * L + i.1 < k.1 * L + L := by omega
            _ = (k.1 + 1) * L := by ring
            _ ≤ K * L := Nat.mul_le_mul_right _ h1
        rw [he _ hlt]
        have e1 : (k.1 * L + i.1) / L = k.1 := by
          rw [Nat.mul_comm, Nat.mul_add_div hL, Nat.div_eq_of_lt i.2, Nat.add_zero]
        have e2 : (k.1 * L + i.1) % L = i.1 := by
          rw [Nat.mul_comm, Nat.mul_add_mod, Nat.mod_eq_of_lt i.2]
        have f1 : (⟨(k.1 * L + i.1) / L % K, Nat.mod_lt _ hK⟩ : Fin K) = k := Fin.ext ((congrArg (· % K) e1).trans (Nat.mod_eq_of_lt k.2))
        have f2 : (⟨(k.1 * L + i.1) % L, Nat.mod_lt _ hL⟩ : Fin L) = i := Fin.ext e2
        show f _ _ = f k i
        rw [f1, f2]
  have hmeas : ∀ f : Fin K → Fin L → α, MeasurableSet {ω | ∀ (k : Fin K) (i : Fin L), X (k.1 * L + i.1) ω = f k i} := by
    intro f
    have : {ω | ∀ (k : Fin K) (i : Fin L), X (k.1 * L + i.1) ω = f k i} =
        ⋂ k : Fin K, ⋂ i : Fin L, X (k.1 * L + i.1) ⁻¹' {f k i} := by
      ext ω; simp
    rw [this]
    exact MeasurableSet.iInter fun k => MeasurableSet.iInter fun i => h.measurable _ (measurableSet_singleton _)
  rw [hset, measure_biUnion_finset ?_ (fun f _ => hmeas f), Finset.sum_congr rfl fun f _ => hone f, Finset.sum_const,
    Fintype.card_piFinset_const, nsmul_eq_mul, div_eq_mul_inv, mul_pow, Nat.cast_pow, Nat.cast_pow, Nat.mul_comm K L, pow_mul,
    ENNReal.inv_pow]
  · intro f _ f' _ hne
    rw [Function.onFun, Set.disjoint_left]
    intro ω h1 h2
    exact hne (funext fun k => funext fun i => (h1 k i).symm.trans (h2 k i))

end QCEC.Props
