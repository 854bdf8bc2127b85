import Verif.Spec.PartialEquivalence
import Verif.Lemmas.DDSem
/-!
# Helper lemmas for partial equivalence
-/
namespace QCEC.Sem
open QCEC QCEC.DD QCEC.Spec QCEC.Props Matrix

variable {n : Nat}

/-- Projector onto the basis states that agree with `k` on the qubits that are not garbage. -/
noncomputable def keepProj (g : List Bool) (k : Basis n) : Mat n := Matrix.diagonal fun x => if Agree g x k then 1 else 0

theorem keepProj_sq (g : List Bool) (k : Basis n) : keepProj g k * keepProj g k = keepProj g k := by
  unfold keepProj
  rw [Matrix.diagonal_mul_diagonal]
  congr 1
  funext x
  split <;> simp

theorem keepProj_ct (g : List Bool) (k : Basis n) : (keepProj g k)ᴴ = keepProj g k := by
  unfold keepProj
  rw [Matrix.diagonal_conjTranspose]
  congr 1
  funext x
  simp only [Pi.star_apply]
  split <;> simp

theorem keepProj_anc (g anc : List Bool) (k : Basis n) : keepProj g k * ancProj anc = ancProj anc * keepProj g k := by
  unfold keepProj ancProj
  rw [Matrix.diagonal_mul_diagonal, Matrix.diagonal_mul_diagonal]
  congr 1
  funext x
  exact mul_comm _ _

theorem agree_refl (g : List Bool) (x : Basis n) : Agree g x x := fun _ _ => rfl

theorem Agree.symm {g : List Bool} {x y : Basis n} (h : Agree g x y) : Agree g y x := fun q hq => (h q hq).symm

theorem Agree.trans {g : List Bool} {x y z : Basis n} (h : Agree g x y) (h' : Agree g y z) : Agree g x z :=
  fun q hq => (h q hq).trans (h' q hq)

/-- The garbage-aware identity test in terms of the projectors. -/
theorem block_iff (g : List Bool) (B : Mat n) :
    (∀ x y, B x y ≠ 0 → ∀ q : Fin n, g.getD q.val false = false → x q = y q) ↔ ∀ k, keepProj g k * B = B * keepProj g k := by
  have entry : ∀ k x y, (keepProj g k * B = B * keepProj g k) →
      (if Agree g x k then (1 : ℂ) else 0) * B x y = B x y * (if Agree g y k then 1 else 0) := by
    intro k x y h
    have := congrFun (congrFun h x) y
    unfold keepProj at this
    rwa [Matrix.diagonal_mul, Matrix.mul_diagonal] at this
  constructor
  · intro h k
    funext x y
    unfold keepProj
    rw [Matrix.diagonal_mul, Matrix.mul_diagonal]
    by_cases h0 : B x y = 0
    · simp [h0]
    · have hxy : Agree g x y := h x y h0
      by_cases hx : Agree g x k
      · rw [if_pos hx, if_pos (hxy.symm.trans hx)]; ring
      · rw [if_neg hx, if_neg fun hy => hx (hxy.trans hy)]; ring
  · intro h x y h0
    have := entry y x y (h y)
    rw [if_pos (agree_refl g y), mul_one] at this
    by_contra hn
    have hx : ¬ Agree g x y := fun e => hn e
    rw [if_neg hx, zero_mul] at this
    exact h0 this.symm

theorem prob_eq (g : List Bool) (v : Basis n → ℂ) (k : Basis n) : ((prob g v k : ℝ) : ℂ) = star v ⬝ᵥ (keepProj g k).mulVec v := by
  unfold prob dotProduct
  rw [Complex.ofReal_sum]
  refine Finset.sum_congr rfl fun x _ => ?_
  unfold keepProj
  rw [Matrix.mulVec_diagonal]
  by_cases h : Agree g x k
  · rw [if_pos h, if_pos (show ∀ q : Fin n, g.getD q.val false = false → x q = k q from h), one_mul, Pi.star_apply]
    rw [Complex.star_def, ← Complex.normSq_eq_conj_mul_self, Complex.normSq_eq_norm_sq]
  · rw [if_neg h, if_neg (show ¬ ∀ q : Fin n, g.getD q.val false = false → x q = k q from h)]
    simp

theorem quad_mul (F M : Mat n) (v : Basis n → ℂ) :
    star (F.mulVec v) ⬝ᵥ M.mulVec (F.mulVec v) = star v ⬝ᵥ (Fᴴ * M * F).mulVec v := by
  rw [Matrix.star_mulVec, ← Matrix.dotProduct_mulVec, Matrix.mulVec_mulVec, Matrix.mulVec_mulVec, Matrix.mul_assoc]

/-- A complex matrix whose quadratic form vanishes is zero. -/
theorem quad_zero (M : Mat n) (h : ∀ w : Basis n → ℂ, star w ⬝ᵥ M.mulVec w = 0) : M = 0 := by
  have hs : ∀ x y (a b : ℂ), star (Pi.single x a : Basis n → ℂ) ⬝ᵥ M.mulVec (Pi.single y b) = star a * M x y * b := by
    intro x y a b
    rw [Pi.star_single]
    rw [single_dotProduct, Matrix.mulVec_single]
    simp [mul_assoc]
  have hq : ∀ x y (a b : ℂ), star a * M x x * a + star a * M x y * b + (star b * M y x * a + star b * M y y * b) = 0 := by
    intro x y a b
    have := h (Pi.single x a + Pi.single y b)
    rw [star_add, Matrix.mulVec_add, add_dotProduct, dotProduct_add, dotProduct_add, hs, hs, hs, hs] at this
    exact this
  funext x y
  have d : ∀ x, M x x = 0 := by
    intro x
    have := hq x x 1 0
    simpa using this
  have h1 := hq x y 1 1
  have h2 := hq x y 1 Complex.I
  simp only [d, star_one, one_mul, mul_one, mul_zero, zero_mul, add_zero, zero_add, Complex.star_def, Complex.conj_I] at h1 h2
  have e : M y x = - M x y := by linear_combination h1
  rw [e] at h2
  have : (2 * Complex.I) * M x y = 0 := by linear_combination h2
  rcases mul_eq_zero.mp this with h3 | h3
  · exact absurd h3 (by simp [Complex.I_ne_zero])
  · simpa using h3

/-- Effect of measuring outcome `k` after `F`. -/
noncomputable def effect (g : List Bool) (F : Mat n) (k : Basis n) : Mat n := Fᴴ * keepProj g k * F

theorem prob_output (g : List Bool) (qc : QC n) (ω : Equiv.Perm (Fin n)) (v : Basis n → ℂ) (k : Basis n) :
    ((prob g (output qc ω v) k : ℝ) : ℂ) = star v ⬝ᵥ (effect g (funcOf qc ω) k).mulVec v := by
  rw [prob_eq, output_eq, quad_mul]
  rfl

/-- Partial equivalence as equality of the effects on the subspace of admissible inputs. -/
theorem partial_iff (g anc : List Bool) (qc1 qc2 : QC n) (ω1 ω2 : Equiv.Perm (Fin n)) :
    PartiallyEquivalent g anc qc1 ω1 qc2 ω2 ↔
      ∀ k, ancProj anc * effect g (funcOf qc1 ω1) k * ancProj anc = ancProj anc * effect g (funcOf qc2 ω2) k * ancProj anc := by
  have key : ∀ (E : Mat n) w, star ((ancProj anc).mulVec w) ⬝ᵥ E.mulVec ((ancProj anc).mulVec w) =
      star w ⬝ᵥ (ancProj anc * E * ancProj anc).mulVec w := by
    intro E w
    rw [quad_mul, ancProj_ct]
  constructor
  · intro h k
    rw [← sub_eq_zero]
    apply quad_zero
    intro w
    have := h ((ancProj anc).mulVec w) (ancProj_zero anc w) k
    have h2 := congrArg (fun r : ℝ => (r : ℂ)) this
    simp only [prob_output, key] at h2
    rw [Matrix.sub_mulVec, dotProduct_sub, h2, sub_self]
  · intro h v hv k
    apply Complex.ofReal_injective
    rw [prob_output, prob_output, ← ancProj_apply anc v hv, key, key, h k]

/-- Soundness of the garbage-aware identity test. -/
theorem block_sound (g anc : List Bool) (qc1 qc2 : QC n) (ω1 ω2 : Equiv.Perm (Fin n)) (h1 : ∀ o ∈ qc1.ops, o.Valid)
    (h2 : ∀ o ∈ qc2.ops, o.Valid)
    (h : ∀ k, keepProj g k * (funcOf qc1 ω1 * ancProj anc * (funcOf qc2 ω2)ᴴ) =
      (funcOf qc1 ω1 * ancProj anc * (funcOf qc2 ω2)ᴴ) * keepProj g k) :
    PartiallyEquivalent g anc qc1 ω1 qc2 ω2 := by
  rw [partial_iff]
  intro k
  have c1 := unitary_comm _ (funcOf_unitary qc1 ω1 h1)
  have c2 := unitary_comm _ (funcOf_unitary qc2 ω2 h2)
  generalize funcOf qc1 ω1 = F1 at *
  generalize funcOf qc2 ω2 = F2 at *
  have e : effect g F1 k * ancProj anc = ancProj anc * effect g F2 k := by
    have := congrArg (fun X => F1ᴴ * X * F2) (h k)
    calc effect g F1 k * ancProj anc = F1ᴴ * (keepProj g k * (F1 * ancProj anc * (F2ᴴ * F2))) := by
            rw [c2]; simp only [effect, Matrix.mul_one, Matrix.mul_assoc]
      _ = F1ᴴ * (keepProj g k * (F1 * ancProj anc * F2ᴴ)) * F2 := by simp only [Matrix.mul_assoc]
      _ = F1ᴴ * (F1 * ancProj anc * F2ᴴ * keepProj g k) * F2 := this
      _ = (F1ᴴ * F1) * (ancProj anc * (F2ᴴ * (keepProj g k * F2))) := by simp only [Matrix.mul_assoc]
      _ = ancProj anc * effect g F2 k := by rw [c1, Matrix.one_mul]; simp only [effect, Matrix.mul_assoc]
  rw [Matrix.mul_assoc, e, ← Matrix.mul_assoc, ancProj_sq]
  have e' : effect g F1 k * ancProj anc = ancProj anc * effect g F2 k * ancProj anc := by
    rw [← e, Matrix.mul_assoc, ancProj_sq]
  rw [← e', e]

theorem effect_sq (g : List Bool) (F : Mat n) (h : F * Fᴴ = 1) (k : Basis n) : effect g F k * effect g F k = effect g F k := by
  unfold effect
  calc Fᴴ * keepProj g k * F * (Fᴴ * keepProj g k * F) = Fᴴ * keepProj g k * (F * Fᴴ) * (keepProj g k * F) := by
          simp only [Matrix.mul_assoc]
    _ = Fᴴ * (keepProj g k * keepProj g k) * F := by rw [h]; simp only [Matrix.mul_one, Matrix.mul_assoc]
    _ = _ := by rw [keepProj_sq]

theorem effect_ct (g : List Bool) (F : Mat n) (k : Basis n) : (effect g F k)ᴴ = effect g F k := by
  unfold effect
  rw [Matrix.conjTranspose_mul, Matrix.conjTranspose_mul, keepProj_ct, Matrix.conjTranspose_conjTranspose, Matrix.mul_assoc]

open scoped ComplexOrder in
/-- Two projectors that agree on a subspace with which the second commutes. -/
theorem proj_agree (A E1 E2 : Mat n) (hA : A * A = A) (hAc : Aᴴ = A) (h1 : E1 * E1 = E1) (h1c : E1ᴴ = E1) (h2 : E2 * E2 = E2)
    (hc : E2 * A = A * E2) (h : A * E1 * A = A * E2 * A) : E1 * A = A * E2 := by
  have e2 : A * E2 = A * E1 * A := by rw [h, Matrix.mul_assoc, hc, ← Matrix.mul_assoc, hA]
  have sq : (A * E1 * A) * (A * E1 * A) = A * E1 * A := by
    rw [← e2]
    calc A * E2 * (A * E2) = A * (E2 * A) * E2 := by simp only [Matrix.mul_assoc]
      _ = (A * A) * (E2 * E2) := by rw [hc]; simp only [Matrix.mul_assoc]
      _ = A * E2 := by rw [hA, h2]
  have sq' : A * E1 * A * E1 * A = A * E1 * A := by
    calc A * E1 * A * E1 * A = A * E1 * (A * A) * E1 * A := by rw [hA]
      _ = (A * E1 * A) * (A * E1 * A) := by simp only [Matrix.mul_assoc]
      _ = _ := sq
  have hX : (E1 * A - A * E1 * A)ᴴ * (E1 * A - A * E1 * A) = 0 := by
    have ct : (E1 * A - A * E1 * A)ᴴ = A * E1 - A * E1 * A := by
      rw [Matrix.conjTranspose_sub, Matrix.conjTranspose_mul, Matrix.conjTranspose_mul, Matrix.conjTranspose_mul, hAc, h1c,
        Matrix.mul_assoc]
    rw [ct, Matrix.sub_mul, Matrix.mul_sub, Matrix.mul_sub]
    have t1 : A * E1 * (E1 * A) = A * E1 * A := by
      calc A * E1 * (E1 * A) = A * (E1 * E1) * A := by simp only [Matrix.mul_assoc]
        _ = _ := by rw [h1]
    have t2 : A * E1 * (A * E1 * A) = A * E1 * A := by
      simp only [Matrix.mul_assoc] at sq' ⊢
      exact sq'
    have t3 : A * E1 * A * (E1 * A) = A * E1 * A := by rw [← Matrix.mul_assoc]; exact sq'
    rw [t1, t2, t3, sq]
    simp
  have := Matrix.conjTranspose_mul_self_eq_zero.mp hX
  rw [e2]
  exact sub_eq_zero.mp this

/-- Completeness of the garbage-aware identity test if all ancillary qubits are idle in one of the circuits. -/
theorem block_complete (g anc : List Bool) (qc1 qc2 : QC n) (ω1 ω2 : Equiv.Perm (Fin n)) (h1 : ∀ o ∈ qc1.ops, o.Valid)
    (h2 : ∀ o ∈ qc2.ops, o.Valid)
    (hidle : (∀ q : Fin n, anc.getD q.val false = true → Idle qc1 ω1 q) ∨ (∀ q : Fin n, anc.getD q.val false = true → Idle qc2 ω2 q))
    (h : PartiallyEquivalent g anc qc1 ω1 qc2 ω2) (k : Basis n) :
    keepProj g k * (funcOf qc1 ω1 * ancProj anc * (funcOf qc2 ω2)ᴴ) =
      (funcOf qc1 ω1 * ancProj anc * (funcOf qc2 ω2)ᴴ) * keepProj g k := by
  rw [partial_iff] at h
  have u1 := funcOf_unitary qc1 ω1 h1
  have u2 := funcOf_unitary qc2 ω2 h2
  have hcm : funcOf qc1 ω1 * ancProj anc = ancProj anc * funcOf qc1 ω1 ∨ funcOf qc2 ω2 * ancProj anc = ancProj anc * funcOf qc2 ω2 := by
    rcases hidle with h | h
    · exact Or.inl (idle_commutes anc h)
    · exact Or.inr (idle_commutes anc h)
  have hk := h k
  generalize funcOf qc1 ω1 = F1 at *
  generalize funcOf qc2 ω2 = F2 at *
  have comm : ∀ F : Mat n, F * ancProj anc = ancProj anc * F → effect g F k * ancProj anc = ancProj anc * effect g F k := by
    intro F hF
    have hF' : Fᴴ * ancProj anc = ancProj anc * Fᴴ := by
      have := congrArg Matrix.conjTranspose hF
      rw [Matrix.conjTranspose_mul, Matrix.conjTranspose_mul, ancProj_ct] at this
      exact this.symm
    unfold effect
    calc Fᴴ * keepProj g k * F * ancProj anc = Fᴴ * (keepProj g k * (F * ancProj anc)) := by simp only [Matrix.mul_assoc]
      _ = Fᴴ * ((keepProj g k * ancProj anc) * F) := by rw [hF]; simp only [Matrix.mul_assoc]
      _ = (Fᴴ * ancProj anc) * (keepProj g k * F) := by rw [keepProj_anc]; simp only [Matrix.mul_assoc]
      _ = _ := by rw [hF']; simp only [Matrix.mul_assoc]
  have e : effect g F1 k * ancProj anc = ancProj anc * effect g F2 k := by
    rcases hcm with hc | hc
    · have := proj_agree (ancProj anc) (effect g F2 k) (effect g F1 k) (ancProj_sq anc) (ancProj_ct anc) (effect_sq g F2 u2 k)
        (effect_ct g F2 k) (effect_sq g F1 u1 k) (comm F1 hc) hk.symm
      have h' := congrArg Matrix.conjTranspose this
      rw [Matrix.conjTranspose_mul, Matrix.conjTranspose_mul, ancProj_ct, effect_ct, effect_ct] at h'
      exact h'.symm
    · exact proj_agree (ancProj anc) (effect g F1 k) (effect g F2 k) (ancProj_sq anc) (ancProj_ct anc) (effect_sq g F1 u1 k)
        (effect_ct g F1 k) (effect_sq g F2 u2 k) (comm F2 hc) hk
  calc keepProj g k * (F1 * ancProj anc * F2ᴴ) = (F1 * F1ᴴ) * keepProj g k * (F1 * ancProj anc * F2ᴴ) := by rw [u1, Matrix.one_mul]
    _ = F1 * (effect g F1 k * ancProj anc) * F2ᴴ := by simp only [effect, Matrix.mul_assoc]
    _ = F1 * (ancProj anc * effect g F2 k) * F2ᴴ := by rw [e]
    _ = F1 * ancProj anc * F2ᴴ * keepProj g k * (F2 * F2ᴴ) := by simp only [effect, Matrix.mul_assoc]
    _ = _ := by rw [u2, Matrix.mul_one]

/-! ## The reduced objects -/

theorem combined_eq (g : List Bool) (v : Basis n → ℂ) (k : Basis n) : combined g v k = Real.sqrt (prob g v k) := rfl

theorem prob_nonneg (g : List Bool) (v : Basis n → ℂ) (k : Basis n) : 0 ≤ prob g v k := by
  unfold prob
  refine Finset.sum_nonneg fun x _ => ?_
  split
  · positivity
  · exact le_refl _

theorem reduceGarbageVec_eq (g : List Bool) (r : Bool) (v : Basis n → ℂ) (x : Basis n) :
    reduceGarbageVec g r v x = ((Real.sqrt (reported g v x) : ℝ) : ℂ) := by
  unfold reduceGarbageVec reported
  by_cases h : GarbageZero g x
  · rw [if_pos h, if_pos (show ∀ q : Fin n, g.getD q.val false = true → x q = false from h), combined_eq]
  · rw [if_neg h, if_neg (show ¬ ∀ q : Fin n, g.getD q.val false = true → x q = false from h)]; simp

theorem reported_nonneg (g : List Bool) (v : Basis n → ℂ) (k : Basis n) : 0 ≤ reported g v k := by
  unfold reported
  split
  · exact prob_nonneg g v k
  · exact le_refl _

/-- The representative of an outcome: garbage qubits set to `0`. -/
def clearGarbage (g : List Bool) (z : Basis n) : Basis n := fun q => if g.getD q.val false = true then false else z q

theorem agree_clear (g : List Bool) (z x : Basis n) : (GarbageZero g x ∧ Agree g z x) ↔ x = clearGarbage g z := by
  constructor
  · rintro ⟨h0, ha⟩
    funext q
    unfold clearGarbage
    by_cases h : g.getD q.val false = true
    · rw [if_pos h, h0 q h]
    · rw [if_neg h, ha q (by simpa using h)]
  · rintro rfl
    refine ⟨fun q h => by unfold clearGarbage; rw [if_pos h], fun q h => by unfold clearGarbage; rw [if_neg (by rw [h]; simp)]⟩

/-- The reported probabilities sum up to the squared norm. -/
theorem sum_reported (g : List Bool) (v : Basis n → ℂ) : ∑ x, reported g v x = ∑ z, ‖v z‖ ^ 2 := by
  have : ∀ x, reported g v x = ∑ z : Basis n, if GarbageZero g x ∧ Agree g z x then ‖v z‖ ^ 2 else 0 := by
    intro x
    unfold reported
    by_cases h : GarbageZero g x
    · rw [if_pos (show ∀ q : Fin n, g.getD q.val false = true → x q = false from h)]
      unfold prob
      refine Finset.sum_congr rfl fun z _ => ?_
      have e : (∀ q : Fin n, g.getD q.val false = false → z q = x q) ↔ (GarbageZero g x ∧ Agree g z x) := ⟨fun h' => ⟨h, h'⟩, fun h' => h'.2⟩
      simp only [e]
    · rw [if_neg (show ¬ ∀ q : Fin n, g.getD q.val false = true → x q = false from h)]
      symm
      refine Finset.sum_eq_zero fun z _ => ?_
      rw [if_neg fun h' => h h'.1]
  simp only [this]
  rw [Finset.sum_comm]
  refine Finset.sum_congr rfl fun z _ => ?_
  simp only [agree_clear]
  rw [Finset.sum_ite_eq' Finset.univ (clearGarbage g z) fun _ => ‖v z‖ ^ 2]
  simp

/-! ## Comparing non-negative matrices -/

/-- Two matrices with non-negative entries whose columns have the same norms, each zero or one. -/
structure Comparable (r1 r2 : Basis n → Basis n → ℝ) : Prop where
  nonneg1 : ∀ x y, 0 ≤ r1 x y
  nonneg2 : ∀ x y, 0 ≤ r2 x y
  norms : ∀ y, (∑ x, r1 x y ^ 2 = 1 ∧ ∑ x, r2 x y ^ 2 = 1) ∨ ((∀ x, r1 x y = 0) ∧ ∀ x, r2 x y = 0)
  nontrivial : ∃ y, ∑ x, r1 x y ^ 2 = 1

/-- The matrix with the given real entries. -/
noncomputable def real (r : Basis n → Basis n → ℝ) : Mat n := fun x y => (r x y : ℂ)

theorem real_inj {r1 r2 : Basis n → Basis n → ℝ} : real r1 = real r2 ↔ r1 = r2 := by
  constructor
  · intro h
    funext x y
    have := congrFun (congrFun h x) y
    simpa [real] using this
  · rintro rfl; rfl

theorem Comparable.symm {r1 r2 : Basis n → Basis n → ℝ} (h : Comparable r1 r2) : Comparable r2 r1 := by
  refine ⟨h.nonneg2, h.nonneg1, fun y => ?_, ?_⟩
  · rcases h.norms y with h | h
    · exact Or.inl ⟨h.2, h.1⟩
    · exact Or.inr ⟨h.2, h.1⟩
  · obtain ⟨y, hy⟩ := h.nontrivial
    refine ⟨y, ?_⟩
    rcases h.norms y with h | h
    · exact h.2
    · rw [Finset.sum_eq_zero fun x _ => by rw [h.1 x]; norm_num] at hy
      norm_num at hy

theorem pos_of_norm {r : Basis n → ℝ} (hn : ∀ x, 0 ≤ r x) (h : ∑ x, r x ^ 2 = 1) : ∃ x, 0 < r x := by
  by_contra hc
  push Not at hc
  have : ∀ x, r x = 0 := fun x => le_antisymm (hc x) (hn x)
  rw [Finset.sum_eq_zero fun x _ => by rw [this x]; norm_num] at h
  norm_num at h

theorem Comparable.ne_zero {r1 r2 : Basis n → Basis n → ℝ} (h : Comparable r1 r2) : real r1 ≠ 0 := by
  intro h0
  obtain ⟨y, hy⟩ := h.nontrivial
  obtain ⟨x, hx⟩ := pos_of_norm (fun x => h.nonneg1 x y) hy
  have := congrFun (congrFun h0 x) y
  simp only [real, Matrix.zero_apply, Complex.ofReal_eq_zero] at this
  exact hx.ne' this

/-- Multiples are equal. -/
theorem Comparable.multiple {r1 r2 : Basis n → Basis n → ℝ} (h : Comparable r1 r2) {c : ℂ} (he : real r1 = c • real r2) :
    r1 = r2 := by
  have entry : ∀ x y, (r1 x y : ℂ) = c * (r2 x y : ℂ) := by
    intro x y
    have := congrFun (congrFun he x) y
    simpa [real] using this
  obtain ⟨y, hy⟩ := h.symm.nontrivial
  obtain ⟨x, hx⟩ := pos_of_norm (fun x => h.nonneg2 x y) hy
  have hc : c = ((r1 x y / r2 x y : ℝ) : ℂ) := by
    push_cast
    rw [entry x y, mul_div_assoc, div_self (by exact_mod_cast hx.ne'), mul_one]
  obtain ⟨a, ha, rfl⟩ : ∃ a : ℝ, 0 ≤ a ∧ c = a := ⟨_, div_nonneg (h.nonneg1 x y) hx.le, hc⟩
  have entry' : ∀ x y, r1 x y = a * r2 x y := by
    intro x y
    have := entry x y
    exact_mod_cast this
  have h1 : ∑ x, r1 x y ^ 2 = 1 := by
    rcases h.norms y with h' | h'
    · exact h'.1
    · rw [Finset.sum_eq_zero fun x _ => by rw [h'.2 x]; norm_num] at hy
      norm_num at hy
  have h2 : a ^ 2 = 1 := by
    rw [← h1]
    simp only [entry', mul_pow]
    rw [← Finset.mul_sum, hy, mul_one]
  have ha1 : a = 1 := by nlinarith
  funext x y
  rw [entry', ha1, one_mul]

/-- If the product with the transpose is diagonal, the matrices are equal. -/
theorem Comparable.diagonal {r1 r2 : Basis n → Basis n → ℝ} (h : Comparable r1 r2)
    (hd : ∀ x x', x ≠ x' → (real r1 * (real r2)ᴴ) x x' = 0) : r1 = r2 := by
  have cross : ∀ x x' y, x ≠ x' → r1 x y * r2 x' y = 0 := by
    intro x x' y hne
    have := hd x x' hne
    rw [Matrix.mul_apply] at this
    simp only [real, Matrix.conjTranspose_apply, Complex.star_def, Complex.conj_ofReal] at this
    have h' : ∑ y, r1 x y * r2 x' y = 0 := by exact_mod_cast this
    exact (Finset.sum_eq_zero_iff_of_nonneg fun y _ => mul_nonneg (h.nonneg1 x y) (h.nonneg2 x' y)).mp h' y (Finset.mem_univ _)
  funext x0 y
  rcases h.norms y with ⟨n1, n2⟩ | ⟨z1, z2⟩
  · obtain ⟨x, hx⟩ := pos_of_norm (fun x => h.nonneg1 x y) n1
    have other2 : ∀ x', x' ≠ x → r2 x' y = 0 := by
      intro x' hne
      rcases mul_eq_zero.mp (cross x x' y hne.symm) with h0 | h0
      · exact absurd h0 hx.ne'
      · exact h0
    have one2 : r2 x y = 1 := by
      rw [Finset.sum_eq_single x (fun x' _ hne => by rw [other2 x' hne]; norm_num) (by simp)] at n2
      have := h.nonneg2 x y
      nlinarith
    have other1 : ∀ x', x' ≠ x → r1 x' y = 0 := by
      intro x' hne
      rcases mul_eq_zero.mp (cross x' x y hne) with h0 | h0
      · exact h0
      · rw [one2] at h0; exact absurd h0 one_ne_zero
    have one1 : r1 x y = 1 := by
      rw [Finset.sum_eq_single x (fun x' _ hne => by rw [other1 x' hne]; norm_num) (by simp)] at n1
      nlinarith
    by_cases e : x0 = x
    · rw [e, one1, one2]
    · rw [other1 x0 e, other2 x0 e]
  · rw [z1, z2]

/-- A comparable matrix that passes the identity test is a 0/1 diagonal matrix. -/
theorem Comparable.indicator {r1 r2 : Basis n → Basis n → ℝ} (h : Comparable r1 r2) {c : ℂ} {S : Finset (Basis n)} (hS : S.Nonempty)
    (he : real r1 = c • Matrix.diagonal fun x => if x ∈ S then 1 else 0) :
    ∀ x y, r1 x y = if x = y ∧ ∑ z, r1 z y ^ 2 = 1 then 1 else 0 := by
  have entry : ∀ x y, (r1 x y : ℂ) = if x = y ∧ y ∈ S then c else 0 := by
    intro x y
    have := congrFun (congrFun he x) y
    simp only [real, Matrix.smul_apply, Matrix.diagonal_apply, smul_eq_mul] at this
    rw [this]
    by_cases e : x = y
    · subst e
      by_cases hx : x ∈ S <;> simp [hx]
    · simp [e]
  intro x y
  have off : ∀ x', x' ≠ y → r1 x' y = 0 := by
    intro x' hne
    have := entry x' y
    rw [if_neg fun h => hne h.1] at this
    exact_mod_cast this
  have col : ∑ z, r1 z y ^ 2 = r1 y y ^ 2 :=
    Finset.sum_eq_single y (fun x' _ hne => by rw [off x' hne]; norm_num) (by simp)
  by_cases e : x = y
  · subst e
    rcases h.norms x with ⟨n1, _⟩ | ⟨z1, _⟩
    · rw [if_pos ⟨rfl, n1⟩]
      rw [col] at n1
      have := h.nonneg1 x x
      nlinarith
    · rw [z1, if_neg]
      rintro ⟨_, h1⟩
      rw [col, z1] at h1
      norm_num at h1
  · rw [off x e, if_neg fun h => e h.1]

/-- The comparison of two non-negative matrices: equal or not. -/
theorem equalsMatrix_comparable (T : ExactTests n) {r1 r2 : Basis n → Basis n → ℝ} (h : Comparable r1 r2) :
    (r1 = r2 → equalsMatrix T.ptrEq T.wEq T.close (fun e f => e * fᴴ) (real r1) (real r2) = .equivalent) ∧
    (r1 ≠ r2 → equalsMatrix T.ptrEq T.wEq T.close (fun e f => e * fᴴ) (real r1) (real r2) = .notEquivalent) := by
  have ne1 := h.ne_zero
  have ne2 := h.symm.ne_zero
  constructor
  · rintro rfl
    have hp : T.ptrEq (real r1) (real r1) = true := (T.ptrEq_iff _ _ ne1 ne1).mpr ⟨1, one_ne_zero, by rw [one_smul]⟩
    have hw : T.wEq (real r1) (real r1) = true := (T.wEq_iff _ _ ne1 ne1 hp).mpr rfl
    unfold equalsMatrix
    rw [if_pos hp, if_pos hw]
  · intro hne
    have hp : T.ptrEq (real r1) (real r2) = false := by
      by_contra hc
      obtain ⟨c, _, he⟩ := (T.ptrEq_iff _ _ ne1 ne2).mp (by simpa using hc)
      exact hne (h.multiple he)
    have hclose : (if T.close (real r1) || T.close (real r2) then T.close (real r1) && T.close (real r2)
        else T.close (real r1 * (real r2)ᴴ)) = false := by
      by_contra hc
      rw [Bool.not_eq_false] at hc
      split at hc
      · rw [Bool.and_eq_true] at hc
        obtain ⟨c, S, _, hS, he⟩ := T.close_sound _ hc.1
        obtain ⟨c', S', _, hS', he'⟩ := T.close_sound _ hc.2
        have a := h.indicator hS he
        have b := h.symm.indicator hS' he'
        apply hne
        funext x y
        rw [a, b]
        rcases h.norms y with ⟨n1, n2⟩ | ⟨z1, z2⟩
        · simp only [n1, n2]
        · simp only [z1, z2]
      · obtain ⟨c, S, _, hS, he⟩ := T.close_sound _ hc
        apply hne
        apply h.diagonal
        intro x x' hxx
        rw [he]
        simp [Matrix.diagonal_apply_ne _ hxx]
    unfold equalsMatrix
    simp only [hp, hclose, Bool.false_eq_true, if_false]

end QCEC.Sem
