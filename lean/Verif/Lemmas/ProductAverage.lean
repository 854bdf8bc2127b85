import Verif.Spec.EndToEnd
import Mathlib.Data.Fin.Tuple.Basic
import Mathlib.Algebra.BigOperators.Fin
import Mathlib.Algebra.Order.Chebyshev
import Mathlib.Analysis.InnerProductSpace.PiL2
/-!
# The average of a quadratic form over the product states

For the six states of a qubit, the average of `|⟨s|M|s⟩|²` is `(‖M‖² + |tr M|²) / 6`; over the product states of `m` qubits it is at most
`‖W‖² / (3·2^m) + 2·|tr W|² / (3·4^m)`.
-/
namespace QCEC.Props
open QCEC QCEC.Gen QCEC.Spec QCEC.Sem Finset

variable {m : Nat}

/-- All six states. -/
def allStates : List Basis1 := [.zero, .one, .plus, .minus, .right, .left]

instance : Fintype Basis1 := ⟨⟨allStates, by decide⟩, fun x => by cases x <;> decide⟩

theorem sum_basis1 {β : Type*} [AddCommMonoid β] (f : Basis1 → β) :
    ∑ s, f s = f .zero + (f .one + (f .plus + (f .minus + (f .right + (f .left + 0))))) := rfl

/-- Amplitude of the product state. -/
noncomputable def prodAmp (l : Fin m → Basis1) (z : Fin m → Bool) : ℂ := ∏ i, amp (l i) (z i)

/-- `⟨l|W|l⟩` -/
noncomputable def quad (W : (Fin m → Bool) → (Fin m → Bool) → ℂ) (l : Fin m → Basis1) : ℂ :=
  ∑ x, ∑ y, star (prodAmp l x) * W x y * prodAmp l y

/-- The projector on a state. -/
noncomputable def rho (s : Basis1) (c d : Bool) : ℂ := star (amp s c) * amp s d

theorem sqrt_two_inv : ((Real.sqrt 2 : ℂ))⁻¹ * ((Real.sqrt 2 : ℂ))⁻¹ = 2⁻¹ := by
  rw [← mul_inv, ← Complex.ofReal_mul, Real.mul_self_sqrt (by norm_num)]
  norm_num

theorem rho_zero (c d : Bool) : rho .zero c d = if c = false ∧ d = false then 1 else 0 := by
  cases c <;> cases d <;> simp [rho, amp]

theorem rho_one (c d : Bool) : rho .one c d = if c = true ∧ d = true then 1 else 0 := by
  cases c <;> cases d <;> simp [rho, amp]

theorem rho_plus (c d : Bool) : rho .plus c d = 2⁻¹ := by
  cases c <;> cases d <;> simp [rho, amp, Complex.conj_ofReal, sqrt_two_inv]

theorem rho_minus (c d : Bool) : rho .minus c d = if c = d then 2⁻¹ else -2⁻¹ := by
  cases c <;> cases d <;> simp [rho, amp, Complex.conj_ofReal, div_eq_mul_inv, sqrt_two_inv]

theorem rho_right (c d : Bool) : rho .right c d = if c = d then 2⁻¹ else if d then Complex.I * 2⁻¹ else -(Complex.I * 2⁻¹) := by
  have h := sqrt_two_inv
  cases c <;> cases d <;> simp [rho, amp, Complex.conj_ofReal, div_eq_mul_inv, h]
  · linear_combination Complex.I * h
  · linear_combination Complex.I * h
  · linear_combination (-(Complex.I * Complex.I)) * h - 2⁻¹ * Complex.I_mul_I

theorem rho_left (c d : Bool) : rho .left c d = if c = d then 2⁻¹ else if d then -(Complex.I * 2⁻¹) else Complex.I * 2⁻¹ := by
  have h := sqrt_two_inv
  cases c <;> cases d <;> simp [rho, amp, Complex.conj_ofReal, div_eq_mul_inv, h]
  · linear_combination Complex.I * h
  · linear_combination Complex.I * h
  · linear_combination (-(Complex.I * Complex.I)) * h - 2⁻¹ * Complex.I_mul_I

/-- The form on one qubit. -/
noncomputable def form1 (M : Bool → Bool → ℂ) (s : Basis1) : ℂ := ∑ c, ∑ d, rho s c d * M c d

/-- The six states of a qubit average a quadratic form as all states do. -/
theorem six_average (M : Bool → Bool → ℂ) :
    ∑ s, Complex.normSq (form1 M s) =
      (Complex.normSq (M false false) + Complex.normSq (M false true) + Complex.normSq (M true false) + Complex.normSq (M true true)) +
        Complex.normSq (M false false + M true true) := by
  rw [sum_basis1]
  unfold form1
  simp only [Fintype.sum_bool, rho_zero, rho_one, rho_plus, rho_minus, rho_right, rho_left]
  simp only [Complex.normSq_apply]
  simp
  ring

/-! ## Several qubits -/

theorem sum_cons {α β : Type*} [Fintype α] [AddCommMonoid β] (f : (Fin (m + 1) → α) → β) :
    ∑ z, f z = ∑ a, ∑ z : Fin m → α, f (Fin.cons a z) := by
  rw [← Fintype.sum_prod_type']
  exact (Fintype.sum_equiv (Fin.consEquiv fun _ => α) (fun p : α × (Fin m → α) => f (Fin.cons p.1 p.2)) f fun p => rfl).symm

theorem prodAmp_cons (s : Basis1) (l : Fin m → Basis1) (c : Bool) (x : Fin m → Bool) :
    prodAmp (Fin.cons s l : Fin (m + 1) → Basis1) (Fin.cons c x) = amp s c * prodAmp l x := by
  unfold prodAmp
  rw [Fin.prod_univ_succ]
  simp

/-- What is left of a matrix if the first qubit is put into state `s`. -/
noncomputable def rest (W : (Fin (m + 1) → Bool) → (Fin (m + 1) → Bool) → ℂ) (s : Basis1) (x y : Fin m → Bool) : ℂ :=
  form1 (fun c d => W (Fin.cons c x) (Fin.cons d y)) s

theorem quad_cons (W : (Fin (m + 1) → Bool) → (Fin (m + 1) → Bool) → ℂ) (s : Basis1) (l : Fin m → Basis1) :
    quad W (Fin.cons s l) = quad (rest W s) l := by
  have h1 : quad W (Fin.cons s l) = ∑ c, ∑ x, ∑ d, ∑ y, star (prodAmp l x) * (rho s c d * W (Fin.cons c x) (Fin.cons d y)) * prodAmp l y := by
    unfold quad
    rw [sum_cons]
    refine sum_congr rfl fun c _ => sum_congr rfl fun x _ => ?_
    rw [sum_cons]
    refine sum_congr rfl fun d _ => sum_congr rfl fun y _ => ?_
    rw [prodAmp_cons, prodAmp_cons, star_mul']
    unfold rho
    ring
  rw [h1]
  unfold quad rest form1
  simp only [Fintype.sum_bool, mul_add, add_mul, sum_add_distrib]

/-- Squared Frobenius norm. -/
noncomputable def frob (W : (Fin m → Bool) → (Fin m → Bool) → ℂ) : ℝ := ∑ x, ∑ y, Complex.normSq (W x y)

/-- Trace. -/
noncomputable def tr (W : (Fin m → Bool) → (Fin m → Bool) → ℂ) : ℂ := ∑ x, W x x

/-- Block of a matrix. -/
def block (W : (Fin (m + 1) → Bool) → (Fin (m + 1) → Bool) → ℂ) (c d : Bool) (x y : Fin m → Bool) : ℂ := W (Fin.cons c x) (Fin.cons d y)

theorem frob_nonneg (W : (Fin m → Bool) → (Fin m → Bool) → ℂ) : 0 ≤ frob W :=
  sum_nonneg fun _ _ => sum_nonneg fun _ _ => Complex.normSq_nonneg _

theorem frob_blocks (W : (Fin (m + 1) → Bool) → (Fin (m + 1) → Bool) → ℂ) :
    frob W = frob (block W false false) + frob (block W false true) + frob (block W true false) + frob (block W true true) := by
  unfold frob block
  rw [sum_cons, Fintype.sum_bool]
  simp only [sum_cons (fun y => Complex.normSq (W _ y)), Fintype.sum_bool, sum_add_distrib]
  ring

theorem tr_blocks (W : (Fin (m + 1) → Bool) → (Fin (m + 1) → Bool) → ℂ) : tr W = tr (block W false false) + tr (block W true true) := by
  unfold tr block
  rw [sum_cons, Fintype.sum_bool, add_comm]

theorem tr_rest (W : (Fin (m + 1) → Bool) → (Fin (m + 1) → Bool) → ℂ) (s : Basis1) :
    tr (rest W s) = form1 (fun c d => tr (block W c d)) s := by
  unfold tr rest form1 block
  simp only [Fintype.sum_bool, sum_add_distrib, mul_sum]

theorem frob_rest (W : (Fin (m + 1) → Bool) → (Fin (m + 1) → Bool) → ℂ) :
    ∑ s, frob (rest W s) = frob W + frob (fun x y => block W false false x y + block W true true x y) := by
  rw [frob_blocks]
  unfold frob rest
  rw [sum_comm]
  simp only [← sum_add_distrib]
  refine sum_congr rfl fun x _ => ?_
  rw [sum_comm]
  refine sum_congr rfl fun y _ => ?_
  rw [six_average]
  rfl

/-- Cauchy–Schwarz for the trace. -/
theorem tr_le (W : (Fin m → Bool) → (Fin m → Bool) → ℂ) : Complex.normSq (tr W) ≤ 2 ^ m * frob W := by
  have h1 : ‖tr W‖ ≤ ∑ x, ‖W x x‖ := norm_sum_le _ _
  have h2 := sq_sum_le_card_mul_sum_sq (s := (Finset.univ : Finset (Fin m → Bool))) (f := fun x => ‖W x x‖)
  have h3 : ∑ x, ‖W x x‖ ^ 2 ≤ frob W := by
    refine sum_le_sum fun x _ => ?_
    rw [← Complex.normSq_eq_norm_sq]
    exact single_le_sum (f := fun y => Complex.normSq (W x y)) (fun y _ => Complex.normSq_nonneg _) (mem_univ x)
  have h4 : ((Finset.univ : Finset (Fin m → Bool)).card : ℝ) = 2 ^ m := by simp
  rw [h4] at h2
  rw [Complex.normSq_eq_norm_sq]
  calc ‖tr W‖ ^ 2 ≤ (∑ x, ‖W x x‖) ^ 2 := by gcongr
    _ ≤ 2 ^ m * ∑ x, ‖W x x‖ ^ 2 := h2
    _ ≤ 2 ^ m * frob W := by gcongr

theorem normSq_parallelogram (a b : ℂ) : Complex.normSq (a + b) + Complex.normSq (a - b) = 2 * Complex.normSq a + 2 * Complex.normSq b := by
  simp only [Complex.normSq_apply, Complex.add_re, Complex.add_im, Complex.sub_re, Complex.sub_im]
  ring

theorem frob_parallelogram (A B : (Fin m → Bool) → (Fin m → Bool) → ℂ) :
    frob (fun x y => A x y + B x y) + frob (fun x y => A x y - B x y) = 2 * frob A + 2 * frob B := by
  unfold frob
  simp only [mul_sum, ← sum_add_distrib]
  exact sum_congr rfl fun x _ => sum_congr rfl fun y _ => normSq_parallelogram _ _

/-- **The average of a quadratic form over the product states.** -/
theorem product_average : ∀ (m : Nat) (W : (Fin m → Bool) → (Fin m → Bool) → ℂ),
    3 * 2 ^ m * ∑ l, Complex.normSq (quad W l) ≤ 6 ^ m * frob W + 2 * 3 ^ m * Complex.normSq (tr W)
  | 0, W => by
    have hu : ∀ x : Fin 0 → Bool, x = default := fun x => Subsingleton.elim _ _
    simp [quad, frob, tr, prodAmp]
    linarith
  | m + 1, W => by
    have ih := fun s => product_average m (rest W s)
    have hsum := sum_le_sum fun (s : Basis1) (_ : s ∈ Finset.univ) => ih s
    rw [← mul_sum, sum_add_distrib, ← mul_sum, ← mul_sum, frob_rest] at hsum
    have hq : ∑ l, Complex.normSq (quad W l) = ∑ s, ∑ l, Complex.normSq (quad (rest W s) l) := by
      rw [sum_cons]
      exact sum_congr rfl fun s _ => sum_congr rfl fun l _ => by rw [quad_cons]
    have ht : ∑ s, Complex.normSq (tr (rest W s)) = Complex.normSq (tr (block W false false)) + Complex.normSq (tr (block W false true)) +
        Complex.normSq (tr (block W true false)) + Complex.normSq (tr (block W true true)) + Complex.normSq (tr W) := by
      rw [sum_congr rfl fun s _ => congrArg Complex.normSq (tr_rest W s), six_average, tr_blocks]
    rw [← hq, ht] at hsum
    have hN := frob_blocks W
    have hpar := frob_parallelogram (block W false false) (block W true true)
    have htpar := normSq_parallelogram (tr (block W false false)) (tr (block W true true))
    rw [← tr_blocks] at htpar
    have c1 := tr_le (block W false true)
    have c2 := tr_le (block W true false)
    have c3 := tr_le (fun x y => block W false false x y - block W true true x y)
    have htd : tr (fun x y => block W false false x y - block W true true x y) = tr (block W false false) - tr (block W true true) := by
      unfold tr
      rw [sum_sub_distrib]
    rw [htd] at c3
    have h36 : (6 : ℝ) ^ m = 3 ^ m * 2 ^ m := by rw [← mul_pow]; norm_num
    have hp3 : (0 : ℝ) < 3 ^ m := by positivity
    have hkey : 2 ^ m * frob (fun x y => block W false false x y + block W true true x y) +
        2 * (Complex.normSq (tr (block W false false)) + Complex.normSq (tr (block W false true)) +
        Complex.normSq (tr (block W true false)) + Complex.normSq (tr (block W true true))) ≤ 2 * 2 ^ m * frob W + Complex.normSq (tr W) := by
      have e : 2 * 2 ^ m * frob W = 2 ^ m * (2 * frob (block W false false) + 2 * frob (block W true true)) +
          2 * (2 ^ m * frob (block W false true)) + 2 * (2 ^ m * frob (block W true false)) := by rw [hN]; ring
      rw [e, ← hpar, mul_add]
      linarith
    have hkey' := mul_le_mul_of_nonneg_left hkey hp3.le
    have e1 : (2 : ℝ) ^ (m + 1) = 2 * 2 ^ m := by ring
    have e2 : (6 : ℝ) ^ (m + 1) = 6 * (3 ^ m * 2 ^ m) := by rw [pow_succ, h36]; ring
    have e3 : (3 : ℝ) ^ (m + 1) = 3 * 3 ^ m := by ring
    rw [e1, e2, e3]
    rw [h36] at hsum
    nlinarith [hsum, hkey']

/-! ## From below -/

theorem six_sum (M : Bool → Bool → ℂ) : ∑ s, form1 M s = 3 * (M false false + M true true) := by
  rw [sum_basis1]
  unfold form1
  simp only [Fintype.sum_bool, rho_zero, rho_one, rho_plus, rho_minus, rho_right, rho_left]
  simp
  ring

/-- The average of a quadratic form over the product states is its trace divided by the dimension. -/
theorem quad_sum : ∀ (m : Nat) (W : (Fin m → Bool) → (Fin m → Bool) → ℂ), ∑ l, quad W l = 3 ^ m * tr W
  | 0, W => by simp [quad, tr, prodAmp]
  | m + 1, W => by
    rw [sum_cons, sum_congr rfl fun s _ => sum_congr rfl fun l _ => quad_cons W s l, sum_congr rfl fun s _ => quad_sum m (rest W s), ← mul_sum,
      sum_congr rfl fun s _ => tr_rest W s, six_sum, tr_blocks, pow_succ]
    ring

/-- **The average of the squared modulus from below.** -/
theorem product_average_ge (m : Nat) (W : (Fin m → Bool) → (Fin m → Bool) → ℂ) :
    9 ^ m * Complex.normSq (tr W) ≤ 6 ^ m * ∑ l, Complex.normSq (quad W l) := by
  have h1 : ‖∑ l, quad W l‖ ≤ ∑ l, ‖quad W l‖ := norm_sum_le _ _
  have h2 := sq_sum_le_card_mul_sum_sq (s := (Finset.univ : Finset (Fin m → Basis1))) (f := fun l => ‖quad W l‖)
  have h4 : ((Finset.univ : Finset (Fin m → Basis1)).card : ℝ) = 6 ^ m := by
    rw [card_univ, Fintype.card_fun, Fintype.card_fin]
    push_cast
    rfl
  rw [h4] at h2
  rw [quad_sum, norm_mul, norm_pow, Complex.norm_ofNat] at h1
  have h5 : (9 : ℝ) ^ m = 3 ^ m * 3 ^ m := by rw [← mul_pow]; norm_num
  rw [Complex.normSq_eq_norm_sq, sum_congr rfl fun l _ => Complex.normSq_eq_norm_sq (quad W l)]
  calc 9 ^ m * ‖tr W‖ ^ 2 = (3 ^ m * ‖tr W‖) ^ 2 := by rw [h5]; ring
    _ ≤ (∑ l, ‖quad W l‖) ^ 2 := by gcongr
    _ ≤ _ := h2

end QCEC.Props
