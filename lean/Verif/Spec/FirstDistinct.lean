import Mathlib.Probability.Independence.InfinitePi
/-!
# Specification: the first distinct values of a sequence

Nothing here is about the program.
-/
namespace QCEC.Spec
open MeasureTheory ProbabilityTheory

/-- `f 0, f 1, …` are the first `K` different values of the sequence `w`, in the order in which they first occur: each of them occurs at
some time before which there were only earlier ones. -/
def FirstDistinct {α : Type*} {K : ℕ} (w : ℕ → α) (f : Fin K ↪ α) : Prop :=
  ∀ i : Fin K, ∃ t : ℕ, w t = f i ∧ ∀ j < t, ∃ i' < i, w j = f i'

/-- The random variables `X 0, X 1, …` are independent and each takes every value with the same probability. -/
structure IndependentUniform {Ω α : Type*} [MeasurableSpace Ω] [Fintype α] [MeasurableSpace α] (X : ℕ → Ω → α) (μ : Measure Ω) : Prop where
  prob : IsProbabilityMeasure μ
  measurable : ∀ k, Measurable (X k)
  indep : iIndepFun X μ
  uniform : ∀ k a, μ {ω | X k ω = a} = (Fintype.card α : ENNReal)⁻¹

end QCEC.Spec
