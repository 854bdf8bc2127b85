import Verif.Spec.Rounding
import Verif.Lemmas.DDSem
import Mathlib.Analysis.InnerProductSpace.PiL2
/-!
# Helper lemmas about lengths of vectors and stretch of operators
-/
namespace QCEC.Sem
open QCEC QCEC.DD QCEC.Spec Matrix

variable {n : Nat}

theorem nrm_eq (v : Basis n → ℂ) : nrm v = ‖(WithLp.toLp 2 v : EuclideanSpace ℂ (Basis n))‖ := by
  rw [EuclideanSpace.norm_eq, nrm]
  congr 1
  apply Finset.sum_congr rfl
  intro x _
  rw [Complex.normSq_eq_norm_sq]

theorem nrm_nonneg (v : Basis n → ℂ) : 0 ≤ nrm v := Real.sqrt_nonneg _

theorem nrm_add (v w : Basis n → ℂ) : nrm (v + w) ≤ nrm v + nrm w := by
  rw [nrm_eq, nrm_eq, nrm_eq, WithLp.toLp_add]; exact norm_add_le _ _

theorem nrm_smul (c : ℂ) (v : Basis n → ℂ) : nrm (c • v) = ‖c‖ * nrm v := by
  rw [nrm_eq, nrm_eq, WithLp.toLp_smul, norm_smul]

theorem nrm_neg (v : Basis n → ℂ) : nrm (-v) = nrm v := by
  rw [nrm_eq, nrm_eq, WithLp.toLp_neg, norm_neg]

theorem nrm_comm (v w : Basis n → ℂ) : nrm (v - w) = nrm (w - v) := by rw [← nrm_neg, neg_sub]

theorem nrm_zero : nrm (0 : Basis n → ℂ) = 0 := by rw [nrm_eq]; simp

theorem nrm_tri (u v w : Basis n → ℂ) : nrm (u - w) ≤ nrm (u - v) + nrm (v - w) := by
  have := nrm_add (u - v) (v - w)
  rwa [sub_add_sub_cancel] at this

theorem nrm_le_of_close (u v : Basis n → ℂ) : nrm u ≤ nrm (u - v) + nrm v := by
  have := nrm_add (u - v) v
  rwa [sub_add_cancel] at this

theorem nrm_sq (v : Basis n → ℂ) : nrm v ^ 2 = (Spec.inner v v).re := by
  rw [nrm, Real.sq_sqrt (Finset.sum_nonneg fun _ _ => Complex.normSq_nonneg _)]
  unfold Spec.inner
  rw [Complex.re_sum]
  apply Finset.sum_congr rfl
  intro x _
  simp [Complex.normSq_apply, Complex.mul_re]

theorem nrm_unitary (F : Mat n) (h : F * Fᴴ = 1) (v : Basis n → ℂ) : nrm (F.mulVec v) = nrm v := by
  have : nrm (F.mulVec v) ^ 2 = nrm v ^ 2 := by rw [nrm_sq, nrm_sq, inner_unitary F h]
  exact (pow_left_inj₀ (nrm_nonneg _) (nrm_nonneg _) (by norm_num)).mp this

theorem nrm_normalised {v : Basis n → ℂ} (h : Normalised v) : nrm v = 1 := by
  have : nrm v ^ 2 = 1 ^ 2 := by rw [nrm_sq, h]; simp
  exact (pow_left_inj₀ (nrm_nonneg _) (by norm_num) (by norm_num)).mp this

theorem inner_bound (v w : Basis n → ℂ) : ‖Spec.inner v w‖ ≤ nrm v * nrm w := by
  have := norm_inner_le_norm (𝕜 := ℂ) (WithLp.toLp 2 v : EuclideanSpace ℂ (Basis n)) (WithLp.toLp 2 w)
  rw [← nrm_eq, ← nrm_eq] at this
  refine le_trans (le_of_eq ?_) this
  congr 1
  rw [EuclideanSpace.inner_eq_star_dotProduct]
  simp [Spec.inner, dotProduct, mul_comm]

theorem inner_sub_left (u v w : Basis n → ℂ) : Spec.inner (u - v) w = Spec.inner u w - Spec.inner v w := by
  simp [Spec.inner, sub_mul, Finset.sum_sub_distrib]

theorem inner_sub_right (u v w : Basis n → ℂ) : Spec.inner u (v - w) = Spec.inner u v - Spec.inner u w := by
  simp [Spec.inner, mul_sub, Finset.sum_sub_distrib]

/-! ## Stretch -/

theorem _root_.QCEC.Spec.Stretch.mono {c c' : ℝ} {A : Mat n} (h : Stretch c A) (hc : c ≤ c') : Stretch c' A := fun v =>
  le_trans (h v) (mul_le_mul_of_nonneg_right hc (nrm_nonneg v))

theorem _root_.QCEC.Spec.Stretch.add {c c' : ℝ} {A B : Mat n} (h : Stretch c A) (h' : Stretch c' B) : Stretch (c + c') (A + B) := fun v => by
  rw [Matrix.add_mulVec, add_mul]
  exact le_trans (nrm_add _ _) (add_le_add (h v) (h' v))

theorem _root_.QCEC.Spec.Stretch.mul {c c' : ℝ} {A B : Mat n} (hc : 0 ≤ c) (h : Stretch c A) (h' : Stretch c' B) : Stretch (c * c') (A * B) := fun v => by
  rw [← Matrix.mulVec_mulVec, mul_assoc]
  exact le_trans (h _) (mul_le_mul_of_nonneg_left (h' v) hc)

theorem stretch_unitary (F : Mat n) (h : F * Fᴴ = 1) : Stretch 1 F := fun v => by rw [nrm_unitary F h, one_mul]

theorem stretch_one : Stretch 1 (1 : Mat n) := stretch_unitary 1 (by simp)

theorem _root_.QCEC.Spec.Stretch.neg {c : ℝ} {A : Mat n} (h : Stretch c A) : Stretch c (-A) := fun v => by
  rw [Matrix.neg_mulVec, nrm_neg]; exact h v

theorem _root_.QCEC.Spec.Stretch.comm {c : ℝ} {A B : Mat n} (h : Stretch c (A - B)) : Stretch c (B - A) := by
  have := h.neg; rwa [neg_sub] at this

theorem _root_.QCEC.Spec.Stretch.tri {c c' : ℝ} {A B C : Mat n} (h : Stretch c (A - B)) (h' : Stretch c' (B - C)) : Stretch (c + c') (A - C) := by
  have := h.add h'; rwa [sub_add_sub_cancel] at this

theorem _root_.QCEC.Spec.Stretch.close {c c' : ℝ} {A B : Mat n} (h : Stretch c (A - B)) (h' : Stretch c' B) : Stretch (c + c') A := by
  have := h.add h'; rwa [sub_add_cancel] at this

theorem _root_.QCEC.Spec.Stretch.unitaryL {c : ℝ} {A : Mat n} (h : Stretch c A) (F : Mat n) (hF : F * Fᴴ = 1) : Stretch c (F * A) := by
  have := (stretch_unitary F hF).mul (by norm_num) h; rwa [one_mul] at this

theorem _root_.QCEC.Spec.Stretch.unitaryR {c : ℝ} {A : Mat n} (h : Stretch c A) (F : Mat n) (hF : F * Fᴴ = 1) : Stretch c (A * F) := fun v => by
  rw [← Matrix.mulVec_mulVec, ← nrm_unitary F hF v]; exact h _

theorem view_split (σ τ : Equiv.Perm (Fin n)) (A : Mat n) : view σ τ A = view σ 1 1 * A * view 1 τ 1 := by
  have h1 : A = view 1 1 A := rfl
  conv_rhs => rw [h1, view_mul, view_mul]
  rw [Matrix.one_mul, Matrix.mul_one]

theorem view_unitary (σ τ : Equiv.Perm (Fin n)) : view σ τ (1 : Mat n) * (view σ τ 1)ᴴ = 1 := by
  rw [view_ct, view_mul, Matrix.conjTranspose_one, Matrix.mul_one, view_one]

theorem _root_.QCEC.Spec.Stretch.view {c : ℝ} {A : Mat n} (h : Stretch c A) (σ τ : Equiv.Perm (Fin n)) : Stretch c (QCEC.Sem.view σ τ A) := by
  rw [view_split]
  exact (h.unitaryL _ (view_unitary _ _)).unitaryR _ (view_unitary _ _)

theorem view_view (σ τ : Equiv.Perm (Fin n)) (A : Mat n) : QCEC.Sem.view σ.symm τ.symm (QCEC.Sem.view σ τ A) = A := by
  funext x y
  simp only [QCEC.Sem.view]
  congr 1 <;> (funext q; simp)

theorem _root_.QCEC.Spec.Stretch.of_view {c : ℝ} {A : Mat n} (σ τ : Equiv.Perm (Fin n)) (h : Stretch c (QCEC.Sem.view σ τ A)) : Stretch c A := by
  have := h.view σ.symm τ.symm
  rwa [view_view] at this

theorem stretch_nonneg {c : ℝ} {A : Mat n} (h : Stretch c A) : 0 ≤ c := by
  let v : Basis n → ℂ := Pi.single (fun _ => false) 1
  have hv : nrm v = 1 := by
    unfold nrm
    rw [Finset.sum_eq_single (fun _ => false)]
    · simp [v]
    · intro y _ hy; simp [v, hy]
    · simp
  have := h v
  rw [hv, mul_one] at this
  exact le_trans (nrm_nonneg _) this

theorem nrm_ancProj (anc : List Bool) (v : Basis n → ℂ) : nrm ((ancProj anc).mulVec v) ≤ nrm v := by
  unfold nrm
  apply Real.sqrt_le_sqrt
  apply Finset.sum_le_sum
  intro x _
  unfold ancProj
  rw [Matrix.mulVec_diagonal]
  split
  · simp
  · simp [Complex.normSq_nonneg]

theorem stretch_ancProj (anc : List Bool) : Stretch 1 (ancProj anc : Mat n) := fun v => by rw [one_mul]; exact nrm_ancProj anc v

theorem ct_unitary {F : Mat n} (h : F * Fᴴ = 1) : Fᴴ * Fᴴᴴ = 1 := by
  rw [Matrix.conjTranspose_conjTranspose]; exact unitary_comm F h

/-! ## Accumulation -/

theorem accumulated_zero (ε δ : ℝ) : accumulated ε δ 0 = δ := by simp [accumulated]

theorem accumulated_nonneg {ε δ : ℝ} (hε : 0 ≤ ε) (hδ : 0 ≤ δ) (k : Nat) : 0 ≤ accumulated ε δ k := by
  unfold accumulated
  have : 1 ≤ (1 + ε) ^ k := one_le_pow₀ (by linarith)
  nlinarith

/-- One more group of `k` multiplications. -/
theorem accumulated_add (ε δ : ℝ) (k j : Nat) :
    accumulated ε δ k + ((1 + ε) ^ j - 1) * (accumulated ε δ k + 1) = accumulated ε δ (k + j) := by
  unfold accumulated; rw [pow_add]; ring

theorem accumulated_mono {ε δ : ℝ} (hε : 0 ≤ ε) (hδ : 0 ≤ δ) {k j : Nat} (h : k ≤ j) : accumulated ε δ k ≤ accumulated ε δ j := by
  unfold accumulated
  have : (1 + ε) ^ k ≤ (1 + ε) ^ j := pow_le_pow_right₀ (by linarith) h
  nlinarith

theorem pow_sub_nonneg {ε : ℝ} (hε : 0 ≤ ε) (k : Nat) : 0 ≤ (1 + ε) ^ k - 1 := by
  have : 1 ≤ (1 + ε) ^ k := one_le_pow₀ (by linarith)
  linarith

/-- Accumulated errors stay linear while they are small. -/
theorem accumulated_linear {ε δ : ℝ} (hε : 0 ≤ ε) (hδ : 0 ≤ δ) (k : Nat) (h : k * ε + δ ≤ 1 / 2) :
    accumulated ε δ k ≤ 2 * (k * ε + δ) := by
  have h1 : (1 + ε) ^ k * (1 + δ) ≤ Real.exp (k * ε + δ) := by
    have a : 1 + ε ≤ Real.exp ε := by have := Real.add_one_le_exp ε; linarith
    have b : 1 + δ ≤ Real.exp δ := by have := Real.add_one_le_exp δ; linarith
    rw [Real.exp_add, Real.exp_nat_mul]
    exact mul_le_mul (pow_le_pow_left₀ (by linarith) a k) b (by linarith) (by positivity)
  have h2 : Real.exp (k * ε + δ) ≤ 1 / (1 - (k * ε + δ)) := by
    have h3 := Real.add_one_le_exp (-(k * ε + δ))
    rw [Real.exp_neg] at h3
    have hp := Real.exp_pos (k * ε + δ)
    rw [le_div_iff₀ (by linarith)]
    have := mul_le_mul_of_nonneg_left h3 hp.le
    rw [mul_inv_cancel₀ hp.ne'] at this
    linarith
  have h3 : 1 / (1 - (k * ε + δ)) ≤ 1 + 2 * (k * ε + δ) := by
    have hs : 0 ≤ k * ε + δ := by positivity
    rw [div_le_iff₀ (by linarith)]
    nlinarith
  unfold accumulated
  linarith

theorem exp_small {s : ℝ} (hs : 0 ≤ s) (h : s ≤ 1 / 2) : Real.exp s ≤ 1 + 2 * s := by
  have h2 : Real.exp s ≤ 1 / (1 - s) := by
    have h3 := Real.add_one_le_exp (-s)
    rw [Real.exp_neg] at h3
    have hp := Real.exp_pos s
    rw [le_div_iff₀ (by linarith)]
    have := mul_le_mul_of_nonneg_left h3 hp.le
    rw [mul_inv_cancel₀ hp.ne'] at this
    linarith
  have h3 : 1 / (1 - s) ≤ 1 + 2 * s := by
    rw [div_le_iff₀ (by linarith)]
    nlinarith
  linarith

theorem overlapError_linear {ε δ η : ℝ} (hε : 0 ≤ ε) (hδ : 0 ≤ δ) (hη : 0 ≤ η) (qc1 qc2 : QC n)
    (h : (cost qc1 + cost qc2) * ε + 2 * δ + η ≤ 1 / 2) :
    overlapError ε δ η qc1 qc2 ≤ 2 * ((cost qc1 + cost qc2) * ε + 2 * δ + η) := by
  have a : 1 + ε ≤ Real.exp ε := by have := Real.add_one_le_exp ε; linarith
  have b : 1 + δ ≤ Real.exp δ := by have := Real.add_one_le_exp δ; linarith
  have c : 1 + η ≤ Real.exp η := by have := Real.add_one_le_exp η; linarith
  have acc : ∀ k : Nat, 1 + accumulated ε δ k ≤ Real.exp (k * ε) * Real.exp δ := by
    intro k
    unfold accumulated
    rw [Real.exp_nat_mul]
    have := mul_le_mul (pow_le_pow_left₀ (by linarith) a k) b (by linarith) (by positivity)
    linarith
  have acc0 : ∀ k : Nat, 0 ≤ 1 + accumulated ε δ k := fun k => by have := accumulated_nonneg hε hδ k; linarith
  have key : (1 + η) * ((1 + accumulated ε δ (cost qc1)) * (1 + accumulated ε δ (cost qc2))) ≤
      Real.exp ((cost qc1 + cost qc2) * ε + 2 * δ + η) := by
    have e : Real.exp ((cost qc1 + cost qc2) * ε + 2 * δ + η) =
        Real.exp η * ((Real.exp (cost qc1 * ε) * Real.exp δ) * (Real.exp (cost qc2 * ε) * Real.exp δ)) := by
      simp only [← Real.exp_add]; congr 1; ring
    rw [e]
    refine mul_le_mul c (mul_le_mul (acc _) (acc _) (acc0 _) (by positivity)) (mul_nonneg (acc0 _) (acc0 _)) (by positivity)
  have := exp_small (s := (cost qc1 + cost qc2) * ε + 2 * δ + η) (by positivity) h
  unfold overlapError
  linarith

theorem overlapError_nonneg {ε δ η : ℝ} (hε : 0 ≤ ε) (hδ : 0 ≤ δ) (hη : 0 ≤ η) (qc1 qc2 : QC n) : 0 ≤ overlapError ε δ η qc1 qc2 := by
  have a := accumulated_nonneg hε hδ (cost qc1)
  have b := accumulated_nonneg hε hδ (cost qc2)
  unfold overlapError
  have : 1 ≤ (1 + accumulated ε δ (cost qc1)) * (1 + accumulated ε δ (cost qc2)) := by nlinarith
  nlinarith

/-- Error of a computed overlap of two approximate states. -/
theorem overlap_close (e f u v : Basis n → ℂ) (z : ℂ) (η a c : ℝ) (hη : 0 ≤ η) (hu : nrm u = 1) (hv : nrm v = 1)
    (he : nrm (e - u) ≤ a) (hf : nrm (f - v) ≤ c) (hz : ‖z - Spec.inner e f‖ ≤ η * (nrm e * nrm f)) :
    ‖z - Spec.inner u v‖ ≤ (1 + η) * ((1 + a) * (1 + c)) - 1 := by
  have ne : nrm e ≤ 1 + a := by have := nrm_le_of_close e u; linarith
  have nf : nrm f ≤ 1 + c := by have := nrm_le_of_close f v; linarith
  have a0 : 0 ≤ a := le_trans (nrm_nonneg _) he
  have c0 : 0 ≤ c := le_trans (nrm_nonneg _) hf
  have h1 : η * (nrm e * nrm f) ≤ η * ((1 + a) * (1 + c)) :=
    mul_le_mul_of_nonneg_left (mul_le_mul ne nf (nrm_nonneg _) (by linarith)) hη
  have h2 : ‖Spec.inner e f - Spec.inner u v‖ ≤ a * (1 + c) + 1 * c := by
    have : Spec.inner e f - Spec.inner u v = Spec.inner (e - u) f + Spec.inner u (f - v) := by
      rw [inner_sub_left, inner_sub_right]; ring
    rw [this]
    refine le_trans (norm_add_le _ _) (add_le_add ?_ ?_)
    · exact le_trans (inner_bound _ _) (mul_le_mul he nf (nrm_nonneg _) a0)
    · refine le_trans (inner_bound _ _) ?_
      rw [hu]
      exact mul_le_mul_of_nonneg_left hf (by norm_num)
  have h3 : ‖z - Spec.inner u v‖ ≤ ‖z - Spec.inner e f‖ + ‖Spec.inner e f - Spec.inner u v‖ := by
    have := norm_add_le (z - Spec.inner e f) (Spec.inner e f - Spec.inner u v)
    rwa [sub_add_sub_cancel] at this
  have h4 : (1 + η) * ((1 + a) * (1 + c)) - 1 = η * ((1 + a) * (1 + c)) + (a * (1 + c) + 1 * c) := by ring
  linarith

/-- Fidelities of close overlaps are close. -/
theorem fidelity_close (z w : ℂ) (κ : ℝ) (h : ‖z - w‖ ≤ κ) (hw : ‖w‖ ≤ 1) :
    |Complex.normSq z - Complex.normSq w| ≤ 2 * κ + κ ^ 2 := by
  rw [Complex.normSq_eq_norm_sq, Complex.normSq_eq_norm_sq]
  have k0 : 0 ≤ κ := le_trans (norm_nonneg _) h
  have h1 : |‖z‖ - ‖w‖| ≤ κ := le_trans (abs_norm_sub_norm_le z w) h
  have h2 := abs_le.mp h1
  have hz0 := norm_nonneg z
  have hw0 := norm_nonneg w
  rw [abs_le]
  constructor <;> nlinarith

theorem inner_smul_right' (c : ℂ) (u v : Basis n → ℂ) : Spec.inner u (c • v) = c * Spec.inner u v := by
  unfold Spec.inner
  rw [Finset.mul_sum]
  apply Finset.sum_congr rfl
  intro y _
  simp only [Pi.smul_apply, smul_eq_mul]
  ring

theorem inner_conj (u v : Basis n → ℂ) : Spec.inner v u = star (Spec.inner u v) := by
  unfold Spec.inner
  rw [star_sum]
  apply Finset.sum_congr rfl
  intro y _
  rw [star_mul', star_star, mul_comm]

/-- The distance to the multiples of `v` bounds the fidelity from below. -/
theorem fidelity_dist (u v : Basis n → ℂ) (c : ℂ) (hu : Normalised u) (hv : Normalised v) :
    1 - Complex.normSq (Spec.inner u v) ≤ nrm (u - c • v) ^ 2 := by
  rw [nrm_sq, inner_sub_left, inner_sub_right, inner_sub_right, inner_smul_right', inner_smul_right', inner_smul_left, inner_smul_left,
    hu, hv, inner_conj u v]
  generalize Spec.inner u v = z
  have h : (1 - c * z - (star c * star z - c * (star c * 1))).re = 1 - 2 * (c * z).re + Complex.normSq c := by
    simp only [Complex.sub_re, Complex.one_re, Complex.mul_re, Complex.star_def, Complex.conj_re, Complex.conj_im, Complex.normSq_apply,
      Complex.mul_im, Complex.one_im]
    ring
  rw [h]
  have h2 : (c * z).re ≤ ‖c‖ * ‖z‖ := by rw [← norm_mul]; exact Complex.re_le_norm _
  rw [Complex.normSq_eq_norm_sq, Complex.normSq_eq_norm_sq]
  nlinarith [sq_nonneg (‖c‖ - ‖z‖)]

theorem fidelity_of_multiple (u v f : Basis n → ℂ) (c : ℂ) (a k : ℝ) (hu : Normalised u) (hv : Normalised v)
    (h1 : nrm (c • f - u) ≤ a) (h2 : nrm (f - v) ≤ k) (hk : k < 1) :
    1 - Complex.normSq (Spec.inner u v) ≤ ((a + k) / (1 - k)) ^ 2 := by
  have nu := nrm_normalised hu
  have nv := nrm_normalised hv
  have hc : ‖c‖ * (1 - k) ≤ 1 + a := by
    have h3 : nrm v ≤ k + nrm f := by
      have := nrm_le_of_close v f; rw [nrm_comm] at this; linarith
    have h4 : nrm (c • f) ≤ a + 1 := by have := nrm_le_of_close (c • f) u; linarith
    rw [nrm_smul] at h4
    have := mul_le_mul_of_nonneg_left (show 1 - k ≤ nrm f by linarith) (norm_nonneg c)
    linarith
  have hk0 : 0 ≤ k := le_trans (nrm_nonneg _) h2
  have ha0 : 0 ≤ a := le_trans (nrm_nonneg _) h1
  have hc' : ‖c‖ ≤ (1 + a) / (1 - k) := by rw [le_div_iff₀ (by linarith)]; exact hc
  have hd : nrm (u - c • v) ≤ (a + k) / (1 - k) := by
    have h3 := nrm_tri u (c • f) (c • v)
    rw [nrm_comm u (c • f), ← smul_sub, nrm_smul] at h3
    have h4 : ‖c‖ * nrm (f - v) ≤ (1 + a) / (1 - k) * k := mul_le_mul hc' h2 (nrm_nonneg _) (by apply div_nonneg <;> linarith)
    have h5 : a + (1 + a) / (1 - k) * k = (a + k) / (1 - k) := by
      have : (1 : ℝ) - k ≠ 0 := by linarith
      field_simp
      ring
    linarith
  exact le_trans (fidelity_dist u v c hu hv) (pow_le_pow_left₀ (nrm_nonneg _) hd 2)

/-! ## State vectors -/

theorem getDD_unitary (o : Op n) (σ : Equiv.Perm (Fin n)) (h : o.Valid) : (o.getDD σ).1 * ((o.getDD σ).1)ᴴ = 1 := by
  rw [o.getDD_view, view_ct, view_mul, o.phys_unitary h, view_one]

/-- One call with relative error `r` on an object within `e` of an exact vector of length one. -/
theorem vec_step (F : Mat n) (hF : F * Fᴴ = 1) (u v w : Basis n → ℂ) (e r : ℝ) (hr : 0 ≤ r) (hv : nrm v = 1)
    (h : nrm (u - v) ≤ e) (hw : nrm (w - F.mulVec u) ≤ r * nrm u) : nrm (w - F.mulVec v) ≤ e + r * (e + 1) ∧ nrm (F.mulVec v) = 1 := by
  refine ⟨?_, by rw [nrm_unitary F hF, hv]⟩
  have h1 := nrm_tri w (F.mulVec u) (F.mulVec v)
  have h2 : nrm (F.mulVec u - F.mulVec v) = nrm (u - v) := by rw [← Matrix.mulVec_sub, nrm_unitary F hF]
  have h3 : nrm u ≤ e + 1 := by have := nrm_le_of_close u v; rw [hv] at this; linarith
  have h4 := mul_le_mul_of_nonneg_left h3 hr
  linarith

variable {M D : Type} {b : Backend (Op n) (Equiv.Perm (Fin n)) (List (Fin n × Fin n)) M D}

theorem vec_applyAll {val : D → Basis n → ℂ} {ε δ : ℝ} (hb : RoundedVector b val ε) (garb) (l : List (Op n))
    (hl : ∀ o ∈ l, o.Valid) (σ : Equiv.Perm (Fin n)) (d : D) (v : Basis n → ℂ) (k : Nat) (hv : nrm v = 1)
    (h : nrm (val d - v) ≤ accumulated ε δ k) :
    (applyAll b .left l σ d).1 = (applyAll (exactVector n garb) .left l σ v).1 ∧
    nrm (val (applyAll b .left l σ d).2 - (applyAll (exactVector n garb) .left l σ v).2) ≤ accumulated ε δ (k + (l.map Op.cost).sum) ∧
    nrm (applyAll (exactVector n garb) .left l σ v).2 = 1 := by
  induction l generalizing σ d v k with
  | nil => exact ⟨rfl, by simpa [applyAll] using h, hv⟩
  | cons o r ih =>
    simp only [applyAll]
    have ho := hl o List.mem_cons_self
    have e1 : (b.applyOp .left o σ d).1 = ((exactVector n garb).applyOp .left o σ v).1 := by
      simp only [Backend.applyOp, exactVector]; rw [hb.tracked, getDD_moved]
    have st := vec_step (o.getDD σ).1 (getDD_unitary o σ ho) (val d) v (val (b.mulL (b.getDD o σ).1 d)) _ _
      (pow_sub_nonneg hb.nonneg o.cost) hv h (hb.apply o σ d ho)
    rw [accumulated_add] at st
    have := ih (fun o' h' => hl o' (List.mem_cons_of_mem _ h')) (b.applyOp .left o σ d).1 (b.applyOp .left o σ d).2
      ((exactVector n garb).applyOp .left o σ v).2 (k + o.cost) st.2 st.1
    rw [e1] at this ⊢
    simp only [List.map_cons, List.sum_cons]
    rw [← Nat.add_assoc]
    exact this

theorem vec_finalObject {val : D → Basis n → ℂ} {ε δ : ℝ} (hb : RoundedVector b val ε) {qc : QC n} {ω : Equiv.Perm (Fin n)}
    (hq : WellFormed qc ω) (d : D) (x : Basis n → ℂ) (hx : Normalised x) (h : nrm (val d - x) ≤ δ) :
    nrm (val (finalObject b false qc d) - output qc ω x) ≤ accumulated ε δ (cost qc) := by
  rw [← simulation_object (fun _ _ d => d) hq x]
  obtain ⟨e1, e2, e3⟩ := vec_applyAll (δ := δ) hb (fun _ _ d => d) qc.ops hq.ops qc.initialLayout d x 0 (nrm_normalised hx)
    (by rw [accumulated_zero]; exact h)
  unfold finalObject
  simp only [Bool.false_eq_true, if_false]
  rw [hb.ancillae, e1]
  generalize (applyAll b .left qc.ops qc.initialLayout d).2 = u at *
  generalize applyAll (exactVector n fun _ _ d => d) .left qc.ops qc.initialLayout x = r at *
  have hr := hb.relabel true u r.1 qc.outputPermutation
  have hex : ∀ v, ((exactVector n fun _ _ d => d).reduceAncillae qc.ancillary true
      ((exactVector n fun _ _ d => d).changePerm true v r.1 qc.outputPermutation).1) =
      (changePerm (fun a b d => (swapMat a b).mulVec d) v r.1 qc.outputPermutation).1 := fun _ => rfl
  rw [hex]
  rw [changePerm_vec] at hr ⊢
  have st := vec_step _ (view_unitary (permAfter r.1 qc.outputPermutation) r.1) (val u) r.2 _ _ _
    (pow_sub_nonneg hb.nonneg qc.outputPermutation.length) e3 e2 hr
  rw [accumulated_add, Nat.zero_add] at st
  exact st.1

/-! ## Matrices -/

/-- One call with relative error `r` on an object `U` within `e` of an exact one that stretches at most by one. -/
theorem mat_step (U V W A : Mat n) (f : Mat n → Mat n) (hf : ∀ X Y, f X - f Y = f (X - Y)) (hfs : ∀ c X, Stretch c X → Stretch c (f X))
    (e r : ℝ) (hV : Stretch 1 V) (h : Stretch e (U - V)) (hw : Stretch (r * (e + 1)) (W - f U)) (hA : f V = A) :
    Stretch (e + r * (e + 1)) (W - A) ∧ Stretch 1 A := by
  subst hA
  refine ⟨?_, hfs _ _ hV⟩
  have h2 := hfs _ _ h
  rw [← hf] at h2
  have := hw.tri h2
  rwa [add_comm] at this

/-- The rounded object of an alternating check, seen on physical qubits and completed by the remaining operations of both circuits, is
within the error accumulated so far of the fixed operator `T`. -/
def AltRounded (val : D → Mat n) (ε δ : ℝ) (K : Nat) (T : Mat n)
    (P : List (Op n) → Equiv.Perm (Fin n) → List (Op n) → Equiv.Perm (Fin n) → Prop)
    (r1 : List (Op n)) (σ1 : Equiv.Perm (Fin n)) (r2 : List (Op n)) (σ2 : Equiv.Perm (Fin n)) (d : D) : Prop :=
  (∃ W k, val d = view σ1 σ2 W ∧ k + (r1.map Op.cost).sum + (r2.map Op.cost).sum ≤ K ∧
    Stretch (accumulated ε δ k) (physOps r1 * W * (physOps r2)ᴴ - T)) ∧ P r1 σ1 r2 σ2

theorem unview (σ τ : Equiv.Perm (Fin n)) (A : Mat n) : A = view σ τ (view σ.symm τ.symm A) := by
  funext x y
  simp only [view]
  congr 1 <;> (funext q; simp)

theorem view_sub (σ τ : Equiv.Perm (Fin n)) (A B : Mat n) : view σ τ (A - B) = view σ τ A - view σ τ B := rfl

theorem stretch_uncomplete {c : ℝ} {X F G : Mat n} (hF : F * Fᴴ = 1) (hG : G * Gᴴ = 1) (h : Stretch c (F * X * Gᴴ)) : Stretch c X := by
  have h1 := (h.unitaryL Fᴴ (ct_unitary hF)).unitaryR G hG
  have : Fᴴ * (F * X * Gᴴ) * G = X := by
    rw [Matrix.mul_assoc F, ← Matrix.mul_assoc Fᴴ, unitary_comm F hF, Matrix.one_mul, Matrix.mul_assoc, unitary_comm G hG, Matrix.mul_one]
  rwa [this] at h1

theorem altRounded_inv {val : D → Mat n} {ε δ : ℝ} (hδ : 0 ≤ δ) (hb : RoundedMatrix b val ε) (K : Nat) (T : Mat n) (hT : Stretch 1 T) (P)
    (isId : D → Bool) (opEq : Op n → Op n → Bool)
    (hv : ∀ r1 σ1 r2 σ2, P r1 σ1 r2 σ2 → (∀ o ∈ r1, o.Valid) ∧ (∀ o ∈ r2, o.Valid))
    (hL : ∀ o r1 σ1 r2 σ2, P (o :: r1) σ1 r2 σ2 → P r1 (o.getDD σ1).2 r2 σ2)
    (hR : ∀ o r1 σ1 r2 σ2, P r1 σ1 (o :: r2) σ2 → P r1 σ1 r2 (o.getDD σ2).2)
    (hskip : ∀ a b r1 σ1 r2 σ2, opEq a b = true → a.isSwap = false → b.isSwap = false → P (a :: r1) σ1 (b :: r2) σ2 →
      (∃ (W : Mat n) (c : ℂ), view σ1 σ2 W = c • (1 : Mat n) ∧
        Stretch (accumulated ε δ K) (physOps (a :: r1) * W * (physOps (b :: r2))ᴴ - T)) → a.Valid ∧ view σ1 σ1 a.phys = view σ2 σ2 b.phys ∧ P r1 σ1 r2 σ2)
    (hid : ∀ d, isId d = true → ∃ c : ℂ, val d = c • (1 : Mat n)) :
    AltInv b isId opEq (AltRounded val ε δ K T P) where
  left := by
    rintro o r1 σ1 r2 σ2 d ⟨⟨W, k, hW, hk, hs⟩, hP⟩
    obtain ⟨hv1, hv2⟩ := hv _ _ _ _ hP
    have u1 := physOps_unitary r1 fun o' h' => hv1 o' (List.mem_cons_of_mem _ h')
    have u1' := physOps_unitary (o :: r1) hv1
    have u2 := physOps_unitary r2 hv2
    have eσ : (b.applyOp .left o σ1 d).1 = (o.getDD σ1).2 := by simp only [Backend.applyOp]; rw [hb.tracked, getDD_moved]
    have ed : (b.applyOp .left o σ1 d).2 = b.mulL (b.getDD o σ1).1 d := rfl
    rw [eσ, ed]
    have hsW : Stretch (accumulated ε δ k + 1) (val d) := by
      rw [hW]
      exact (stretch_uncomplete u1' u2 (hs.close hT)).view _ _
    have hn := hb.applyL o σ1 d _ (hv1 o List.mem_cons_self) hsW
    refine ⟨⟨view (o.getDD σ1).2.symm σ2.symm (val (b.mulL (b.getDD o σ1).1 d)), k + o.cost, unview _ _ _, ?_, ?_⟩, hL _ _ _ _ _ hP⟩
    · simp only [List.map_cons, List.sum_cons] at hk; omega
    · generalize val (b.mulL (b.getDD o σ1).1 d) = X at *
      have e2 : (o.getDD σ1).1 * val d = view (o.getDD σ1).2 σ2 (o.phys * W) := by rw [o.getDD_view, hW, view_mul]
      rw [e2, unview (o.getDD σ1).2 σ2 X, ← view_sub] at hn
      have hn' := ((hn.of_view).unitaryL _ u1).unitaryR _ (ct_unitary u2)
      rw [Matrix.mul_sub, Matrix.sub_mul] at hn'
      have e3 : physOps r1 * (o.phys * W) * (physOps r2)ᴴ = physOps (o :: r1) * W * (physOps r2)ᴴ := by
        rw [physOps]; simp only [Matrix.mul_assoc]
      rw [e3] at hn'
      have := hn'.tri hs
      rw [add_comm, accumulated_add] at this
      exact this
  right := by
    rintro o r1 σ1 r2 σ2 d ⟨⟨W, k, hW, hk, hs⟩, hP⟩
    obtain ⟨hv1, hv2⟩ := hv _ _ _ _ hP
    have u1 := physOps_unitary r1 hv1
    have u2 := physOps_unitary r2 fun o' h' => hv2 o' (List.mem_cons_of_mem _ h')
    have u2' := physOps_unitary (o :: r2) hv2
    have eσ : (b.applyOp .right o σ2 d).1 = (o.getDD σ2).2 := by simp only [Backend.applyOp]; rw [hb.trackedInv, getDD_moved]
    have ed : (b.applyOp .right o σ2 d).2 = b.mulR d (b.getInv o σ2).1 := rfl
    rw [eσ, ed]
    have hsW : Stretch (accumulated ε δ k + 1) (val d) := by
      rw [hW]
      exact (stretch_uncomplete u1 u2' (hs.close hT)).view _ _
    have hn := hb.applyR o σ2 d _ (hv2 o List.mem_cons_self) hsW
    refine ⟨⟨view σ1.symm (o.getDD σ2).2.symm (val (b.mulR d (b.getInv o σ2).1)), k + o.cost, unview _ _ _, ?_, ?_⟩, hR _ _ _ _ _ hP⟩
    · simp only [List.map_cons, List.sum_cons] at hk; omega
    · generalize val (b.mulR d (b.getInv o σ2).1) = X at *
      have e2 : val d * (o.getInv σ2).1 = view σ1 (o.getDD σ2).2 (W * o.physᴴ) := by
        rw [(o.getInv_eq σ2).1, o.getDD_view, view_ct, hW, view_mul]
      rw [e2, unview σ1 (o.getDD σ2).2 X, ← view_sub] at hn
      have hn' := ((hn.of_view).unitaryL _ u1).unitaryR _ (ct_unitary u2)
      rw [Matrix.mul_sub, Matrix.sub_mul] at hn'
      have e3 : physOps r1 * (W * o.physᴴ) * (physOps r2)ᴴ = physOps r1 * W * (physOps (o :: r2))ᴴ := by
        rw [physOps, Matrix.conjTranspose_mul]; simp only [Matrix.mul_assoc]
      rw [e3] at hn'
      have := hn'.tri hs
      rw [add_comm, accumulated_add] at this
      exact this
  skip := by
    rintro a b' r1 σ1 r2 σ2 d hd he sa sb ⟨⟨W, k, hW, hk, hs⟩, hP⟩
    rw [hb.isSwap] at sa sb
    obtain ⟨c, hc⟩ := hid _ hd
    obtain ⟨hva, hl, hP'⟩ := hskip _ _ _ _ _ _ he sa sb hP
      ⟨W, c, by rw [← hW]; exact hc, hs.mono (accumulated_mono hb.nonneg hδ (by omega))⟩
    refine ⟨⟨W, k, hW, ?_, ?_⟩, hP'⟩
    · simp only [List.map_cons, List.sum_cons] at hk; omega
    · have hk := skip_ok (by rw [← hW]; exact hc) hva hl
      have : physOps (a :: r1) * W * (physOps (b' :: r2))ᴴ = physOps r1 * W * (physOps r2)ᴴ := by
        rw [physOps, physOps, Matrix.conjTranspose_mul]
        calc _ = physOps r1 * (a.phys * W * b'.physᴴ) * (physOps r2)ᴴ := by simp only [Matrix.mul_assoc]
          _ = _ := by rw [hk]
      rwa [this] at hs

/-- What `NearSafe` says about the operator the check starts with. -/
def NearSafeFrom (e : ℝ) (init : Mat n) (opEq : Op n → Op n → Bool) (qc1 qc2 : QC n) : Prop :=
  ∀ p1 a r1 p2 b r2, qc1.ops = p1 ++ a :: r1 → qc2.ops = p2 ++ b :: r2 →
    (∃ c : ℂ, Stretch e (funcOf { qc1 with ops := p1 } (p1.foldl Moved qc1.initialLayout) * init *
      (funcOf { qc2 with ops := p2 } (p2.foldl Moved qc2.initialLayout))ᴴ - c • (1 : Mat n))) → opEq a b = true → a.isSwap = false → b.isSwap = false →
    Moved (p1.foldl Moved qc1.initialLayout) a = p1.foldl Moved qc1.initialLayout ∧
    Moved (p2.foldl Moved qc2.initialLayout) b = p2.foldl Moved qc2.initialLayout ∧
    logicalOp (p1.foldl Moved qc1.initialLayout) a = logicalOp (p2.foldl Moved qc2.initialLayout) b

theorem _root_.QCEC.Spec.CancelSafe.nearFrom {opEq : Op n → Op n → Bool} {qc1 qc2 : QC n} (h : CancelSafe opEq qc1 qc2) (e : ℝ) (init : Mat n) :
    NearSafeFrom e init opEq qc1 qc2 := fun p1 a r1 p2 b r2 e1 e2 _ => h p1 a r1 p2 b r2 e1 e2

theorem NearSafeFrom.mono {e e' : ℝ} {init : Mat n} {opEq : Op n → Op n → Bool} {qc1 qc2 : QC n} (h : NearSafeFrom e' init opEq qc1 qc2) (he : e ≤ e') :
    NearSafeFrom e init opEq qc1 qc2 := fun p1 a r1 p2 b r2 e1 e2 ⟨c, hc⟩ => h p1 a r1 p2 b r2 e1 e2 ⟨c, hc.mono he⟩

theorem _root_.QCEC.Spec.NearSafe.from {e : ℝ} {opEq : Op n → Op n → Bool} {qc1 qc2 : QC n} (h : NearSafe e opEq qc1 qc2) (hv1 : ∀ o ∈ qc1.ops, o.Valid)
    (hv2 : ∀ o ∈ qc2.ops, o.Valid) : NearSafeFrom e (ancProj (altAncillary n qc1.ancillary qc2.ancillary)) opEq qc1 qc2 := by
  rintro p1 a r1 p2 b r2 e1 e2 ⟨c, hc⟩
  have hfl := altAncillary_flag (n := n) qc1.ancillary qc2.ancillary
  have hag : NearlyAgreeUpTo e qc1 qc2 p1 p2 ∧ (e < 1 / 2 → NoSharedAncilla qc1 qc2) := by
    unfold NearlyAgreeUpTo OutputsWithinOn
    change (∃ c : ℂ, ∀ x, AncillasZero (altAncillary n qc1.ancillary qc2.ancillary) x → _) ∧ _
    generalize altAncillary n qc1.ancillary qc2.ancillary = anc at *
    have u1 := funcOf_unitary { qc1 with ops := p1 } (p1.foldl Moved qc1.initialLayout) fun o ho => hv1 o (by rw [e1]; exact List.mem_append_left _ ho)
    have u2 := funcOf_unitary { qc2 with ops := p2 } (p2.foldl Moved qc2.initialLayout) fun o ho => hv2 o (by rw [e2]; exact List.mem_append_left _ ho)
    simp only [output_eq]
    generalize funcOf { qc1 with ops := p1 } (p1.foldl Moved qc1.initialLayout) = F1 at *
    generalize funcOf { qc2 with ops := p2 } (p2.foldl Moved qc2.initialLayout) = F2 at *
    have key : ∀ x, nrm (F1.mulVec ((ancProj anc).mulVec x) - c • F2.mulVec x) ≤ e * nrm x := by
      intro x
      have := hc (F2.mulVec x)
      rwa [nrm_unitary _ u2, Matrix.sub_mulVec, Matrix.mulVec_mulVec x, Matrix.mul_assoc, unitary_comm _ u2, Matrix.mul_one,
        Matrix.smul_mulVec, Matrix.one_mulVec, ← Matrix.mulVec_mulVec] at this
    refine ⟨⟨c, fun x hx => ?_⟩, fun he q hq => ?_⟩
    · have := key x
      rwa [ancProj_apply _ x hx] at this
    · have hq' : anc.getD q.val false = true := by rw [hfl, hq.1, hq.2]; rfl
      have ns : ∀ x : Basis n, nrm (Pi.single x 1 : Basis n → ℂ) = 1 := by
        intro x
        unfold nrm
        rw [Finset.sum_eq_single x]
        · simp
        · intro y _ hy; simp [hy]
        · simp
      have k0 := key (Pi.single (fun _ => false) 1)
      have k1 := key (Pi.single (fun _ => true) 1)
      have z0 : (ancProj anc).mulVec (Pi.single (fun _ => false) 1 : Basis n → ℂ) = Pi.single (fun _ => false) 1 := by
        refine ancProj_apply _ _ fun y hy q _ => ?_
        by_contra hne
        apply hy
        rw [Pi.single_apply, if_neg]
        rintro rfl
        exact hne rfl
      have z1 : (ancProj anc).mulVec (Pi.single (fun _ => true) 1 : Basis n → ℂ) = 0 := by
        funext y
        unfold ancProj
        rw [Matrix.mulVec_diagonal, Pi.single_apply]
        by_cases hy : y = fun _ => true
        · rw [if_neg (fun hx => absurd (hx q hq') (by simp [hy])), zero_mul]; rfl
        · rw [if_neg hy, mul_zero]; rfl
      rw [z0, ns, mul_one] at k0
      rw [z1, ns, mul_one, Matrix.mulVec_zero, zero_sub, nrm_neg, nrm_smul, nrm_unitary _ u2, ns, mul_one] at k1
      have t := nrm_le_of_close (F1.mulVec (Pi.single (fun _ => false) 1)) (c • F2.mulVec (Pi.single (fun _ => false) 1))
      rw [nrm_unitary _ u1, ns, nrm_smul, nrm_unitary _ u2, ns, mul_one] at t
      linarith
  exact h hag.2 p1 a r1 p2 b r2 e1 e2 hag.1

theorem AltPos.skip_near {qc1 qc2 : QC n} {a b : Op n} {r1 σ1 r2 σ2} (h : AltPos qc1 qc2 (a :: r1) σ1 (b :: r2) σ2)
    (hv1 : ∀ o ∈ qc1.ops, o.Valid) (hv2 : ∀ o ∈ qc2.ops, o.Valid) {e : ℝ} {init : Mat n} {opEq : Op n → Op n → Bool} (hc : NearSafeFrom e init opEq qc1 qc2)
    (he : opEq a b = true) (sa : a.isSwap = false) (sb : b.isSwap = false)
    (hW : ∃ (W : Mat n) (c : ℂ), view σ1 σ2 W = c • (1 : Mat n) ∧ Stretch e (physOps (a :: r1) * W * (physOps (b :: r2))ᴴ -
      physOps qc1.ops * view qc1.initialLayout.symm qc2.initialLayout.symm init * (physOps qc2.ops)ᴴ)) :
    a.Valid ∧ view σ1 σ1 a.phys = view σ2 σ2 b.phys ∧ AltPos qc1 qc2 r1 σ1 r2 σ2 := by
  obtain ⟨⟨p1, e1, rfl⟩, p2, e2, rfl⟩ := h
  obtain ⟨W, c, hW1, hW2⟩ := hW
  have hW0 : init = view qc1.initialLayout qc2.initialLayout (view qc1.initialLayout.symm qc2.initialLayout.symm init) := unview _ _ _
  have u1 := physOps_unitary (a :: r1) fun o ho => hv1 o (by rw [e1]; exact List.mem_append_right _ ho)
  have u2 := physOps_unitary (b :: r2) fun o ho => hv2 o (by rw [e2]; exact List.mem_append_right _ ho)
  have hW3 : Stretch e (W - physOps p1 * view qc1.initialLayout.symm qc2.initialLayout.symm init * (physOps p2)ᴴ) := by
    refine stretch_uncomplete u1 u2 ?_
    rw [Matrix.mul_sub, Matrix.sub_mul]
    rw [e1, e2, physOps_append, physOps_append, Matrix.conjTranspose_mul] at hW2
    simpa only [Matrix.mul_assoc] using hW2
  obtain ⟨c1, c2, c3⟩ := hc _ _ _ _ _ _ e1 e2 ⟨c, by
    have := (hW3.comm).view (p1.foldl Moved qc1.initialLayout) (p2.foldl Moved qc2.initialLayout)
    rw [view_sub, hW1] at this
    unfold funcOf
    conv => arg 2; arg 1; rw [hW0]
    rw [view_ct, view_mul, view_mul]
    exact this⟩ he sa sb
  refine ⟨hv1 a (by simp [e1]), c3, ⟨p1 ++ [a], by simp [e1], ?_⟩, p2 ++ [b], by simp [e2], ?_⟩
  · rw [List.foldl_append]; exact c1.symm
  · rw [List.foldl_append]; exact c2.symm

/-- Lookahead never compares operations. -/
theorem near_comparison {ρ' M D : Type} (b : Backend (Op n) (Equiv.Perm (Fin n)) ρ' M D) (isId : D → Bool) (opEq : Op n → Op n → Bool)
    (sch : AltScheme (Op n) (Equiv.Perm (Fin n)) D) (verdict : D → Criterion) (stop : Nat → Bool) (prev : Criterion) (qc1 qc2 : QC n)
    (q1 q2 : Circuit (Op n) (Equiv.Perm (Fin n)) ρ') (init : D) (fuel : Nat) (e : ℝ) (A : Mat n) (hc : sch.Cancels → NearSafeFrom e A opEq qc1 qc2) :
    ∃ opEq', NearSafeFrom e A opEq' qc1 qc2 ∧
      runAlt b isId opEq sch verdict stop prev q1 q2 init fuel = runAlt b isId opEq' sch verdict stop prev q1 q2 init fuel := by
  cases sch with
  | counts f => exact ⟨opEq, hc trivial, rfl⟩
  | lookahead size =>
    refine ⟨fun _ _ => false, ?_, ?_⟩
    · intro p1 a r1 p2 b r2 _ _ _ he; cases he
    · unfold runAlt
      rw [altLoop_lookahead_opEq b isId opEq (fun _ _ => false)]

/-- Common part of the theorems about the alternating check with a rounding package. -/
theorem alternating_rounded_outcome {val : D → Mat n} {ε δ : ℝ} (hδ : 0 ≤ δ) (hb : RoundedMatrix b val ε) (qc1 qc2 : QC n)
    (ω1 ω2 : Equiv.Perm (Fin n)) (h1 : WellFormed qc1 ω1) (h2 : WellFormed qc2 ω2) (isId : D → Bool)
    (hid : ∀ d, isId d = true → ∃ c : ℂ, val d = c • (1 : Mat n))
    (opEq : Op n → Op n → Bool) (sch : AltScheme (Op n) (Equiv.Perm (Fin n)) D)
    (hs : AltConfigured qc1 qc2 sch) (verdict : D → Criterion) (stop : Nat → Bool) (hm : Mono stop) (prev : Criterion)
    (d0 : D) (I0 : Mat n) (hc : sch.Cancels → NearSafeFrom (accumulated ε δ (cost qc1 + cost qc2)) I0 opEq qc1 qc2) (hI : Stretch 1 I0) (hd0 : Stretch δ (val d0 - I0)) (fuel : Nat) (hf : qc1.ops.length + qc2.ops.length + 2 ≤ fuel) :
    ∃ v s, runAlt b isId opEq sch verdict stop prev qc1 qc2 d0 fuel = .ok (v, s) ∧
      (stop s.polls = true ∧ v = prev ∨
       stop s.polls = false ∧ v = verdict s.d ∧
        Stretch (accumulated ε δ (cost qc1 + cost qc2)) (val s.d - funcOf qc1 ω1 * I0 * (funcOf qc2 ω2)ᴴ)) := by
  obtain ⟨opEq, hc, he⟩ := near_comparison b isId opEq sch verdict stop prev qc1 qc2 qc1 qc2 d0 fuel _ I0 hc
  rw [he]
  let P := AltPos qc1 qc2
  let W0 := view qc1.initialLayout.symm qc2.initialLayout.symm I0
  have hW0 : I0 = view qc1.initialLayout qc2.initialLayout W0 := unview _ _ _
  have u1 := physOps_unitary qc1.ops h1.ops
  have u2 := physOps_unitary qc2.ops h2.ops
  let TT := physOps qc1.ops * W0 * (physOps qc2.ops)ᴴ
  have hT : Stretch 1 TT := ((hI.view _ _).unitaryL _ u1).unitaryR _ (ct_unitary u2)
  let K := (qc1.ops.map Op.cost).sum + (qc2.ops.map Op.cost).sum
  have hinv : AltInv b isId opEq (AltRounded val ε δ K TT P) := by
    apply altRounded_inv hδ hb K TT hT P isId opEq
    · intro r1 σ1 r2 σ2 h
      exact ⟨fun o ho => h1.ops o (h.mem1 o ho), fun o ho => h2.ops o (h.mem2 o ho)⟩
    · intro o r1 σ1 r2 σ2 h; exact h.left
    · intro o r1 σ1 r2 σ2 h; exact h.right
    · intro a b r1 σ1 r2 σ2 he sa sb h hW
      exact h.skip_near h1.ops h2.ops (hc.mono (accumulated_mono hb.nonneg hδ (by simp only [K, cost]; omega))) he sa sb hW
    · exact hid
  have hok : sch.Ok b (AltRounded val ε δ K TT P) qc1.ops.length qc2.ops.length := by
    cases hs with
    | counts sch h => obtain ⟨h⟩ := h; exact h.good
    | lookahead size l1 l2 =>
      refine ⟨?_, ?_⟩
      · rintro o r1 σ1 r2 σ2 d ⟨_, hP⟩ hsw
        rw [hb.isSwap] at hsw
        rw [hb.tracked, ← getDD_moved]
        exact (l1 o (hP.mem1 o List.mem_cons_self) hsw).stable σ1
      · rintro o r1 σ1 r2 σ2 d ⟨_, hP⟩ hsw
        rw [hb.isSwap] at hsw
        rw [hb.trackedInv, ← getDD_moved]
        exact (l2 o (hP.mem2 o List.mem_cons_self) hsw).stable σ2
  have hstart : AltRounded val ε δ K TT P qc1.ops qc1.initialLayout qc2.ops qc2.initialLayout d0 := by
    refine ⟨⟨view qc1.initialLayout.symm qc2.initialLayout.symm (val d0), 0, unview _ _ _, by simp [K], ?_⟩,
      AltPos.start qc1 qc2⟩
    · rw [accumulated_zero]
      have := ((hd0.view qc1.initialLayout.symm qc2.initialLayout.symm).unitaryL _ u1).unitaryR _ (ct_unitary u2)
      rwa [view_sub, Matrix.mul_sub, Matrix.sub_mul] at this
  obtain ⟨s, h | h⟩ := runAlt_spec hinv sch verdict stop hm prev qc1 qc2 hok d0 fuel hf hstart
  · exact ⟨prev, s, h.2, Or.inl ⟨h.1, rfl⟩⟩
  · obtain ⟨h0, hr, p1, p2, d, ⟨⟨W, k, hW, hk, hst⟩, hP⟩, hd⟩ := h
    obtain ⟨ht1, ht2⟩ := hP.track
    simp only [trackAll] at ht1 ht2
    refine ⟨verdict s.d, s, hr, Or.inr ⟨h0, rfl, ?_⟩⟩
    simp only [physOps, Matrix.one_mul, Matrix.conjTranspose_one, Matrix.mul_one, List.map_nil, List.sum_nil, Nat.add_zero] at hst hk
    have hst0 : Stretch (accumulated ε δ K) (W - TT) := hst.mono (accumulated_mono hb.nonneg hδ hk)
    have hst1 := hst0.view p1 p2
    rw [view_sub, ← hW] at hst1
    -- first relabelling
    have hsd : Stretch (accumulated ε δ K + 1) (val d) := hst1.close (hT.view _ _)
    have hn1 := hb.relabelL d p1 qc1.outputPermutation _ hsd
    rw [changePerm_left, ht1, perm_final h1, ← ht1] at hn1
    have s1 := mat_step (val d) (view p1 p2 TT) _ _ (fun X => view ω1 p1 1 * X) (fun X Y => (Matrix.mul_sub _ X Y).symm)
      (fun c X hX => hX.unitaryL _ (view_unitary _ _)) _ _ (hT.view _ _) hst1 hn1 rfl
    rw [accumulated_add, view_mul, Matrix.one_mul] at s1
    generalize (b.changePerm true d p1 qc1.outputPermutation).1 = d' at *
    -- second relabelling
    have hsd' := s1.1.close s1.2
    have hn2 := hb.relabelR d' p2 qc2.outputPermutation _ hsd'
    rw [changePerm_right, ht2, perm_final h2, ← ht2] at hn2
    have s2 := mat_step (val d') (view ω1 p2 TT) _ _ (fun X => X * view p2 ω2 1) (fun X Y => (Matrix.sub_mul X Y _).symm)
      (fun c X hX => hX.unitaryR _ (view_unitary _ _)) _ _ s1.2 s1.1 hn2 rfl
    rw [accumulated_add, view_mul, Matrix.mul_one] at s2
    rw [hd]
    have e : funcOf qc1 ω1 * I0 * (funcOf qc2 ω2)ᴴ = view ω1 ω2 TT := by
      unfold funcOf
      rw [hW0, view_ct, view_mul, view_mul]
    rw [e]
    have ec : K + qc1.outputPermutation.length + qc2.outputPermutation.length = cost qc1 + cost qc2 := by
      simp only [K, cost]; omega
    rw [← ec]
    exact s2.1

theorem alternating_rounded {val : D → Mat n} {ε δ θ θ₀ : ℝ} (hδ : 0 ≤ δ) (hb : RoundedMatrix b val ε) (qc1 qc2 : QC n)
    (ω1 ω2 : Equiv.Perm (Fin n)) (h1 : WellFormed qc1 ω1) (h2 : WellFormed qc2 ω2) (R : RoundedMatrixTests val θ θ₀)
    (opEq : Op n → Op n → Bool) (sch : AltScheme (Op n) (Equiv.Perm (Fin n)) D)
    (hs : AltConfigured qc1 qc2 sch) (verdict : D → Criterion) (prev : Criterion) (d0 : D) (I0 : Mat n)
    (hc : sch.Cancels → NearSafeFrom (accumulated ε δ (cost qc1 + cost qc2)) I0 opEq qc1 qc2) (hI : Stretch 1 I0)
    (hd0 : Stretch δ (val d0 - I0)) :
    ∃ s, runAlt b R.isId opEq sch verdict (fun _ => false) prev qc1 qc2 d0 (qc1.ops.length + qc2.ops.length + 2)
        = .ok (verdict s.d, s) ∧
      Stretch (accumulated ε δ (cost qc1 + cost qc2)) (val s.d - funcOf qc1 ω1 * I0 * (funcOf qc2 ω2)ᴴ) := by
  obtain ⟨v, s, hr, ⟨h0, _⟩ | ⟨_, hv, hst⟩⟩ := alternating_rounded_outcome hδ hb qc1 qc2 ω1 ω2 h1 h2 R.isId R.isId_sound opEq sch hs verdict
    (fun _ => false) (fun _ _ _ h => h) prev d0 I0 hc hI hd0 _ (Nat.le_refl _)
  · exact absurd h0 (by simp)
  · exact ⟨s, by rw [hr, hv], hst⟩

theorem mat_applyAll {val : D → Mat n} {ε δ : ℝ} (hb : RoundedMatrix b val ε) (l : List (Op n)) (hl : ∀ o ∈ l, o.Valid)
    (σ : Equiv.Perm (Fin n)) (d : D) (V : Mat n) (k : Nat) (hV : Stretch 1 V) (h : Stretch (accumulated ε δ k) (val d - V)) :
    (applyAll b .left l σ d).1 = trackAll l σ ∧
    Stretch (accumulated ε δ (k + (l.map Op.cost).sum)) (val (applyAll b .left l σ d).2 - view (trackAll l σ) σ (physOps l) * V) ∧
    Stretch 1 (view (trackAll l σ) σ (physOps l) * V) := by
  induction l generalizing σ d V k with
  | nil => simpa [applyAll, trackAll, physOps, view_one] using ⟨h, hV⟩
  | cons o r ih =>
    simp only [applyAll]
    have ho := hl o List.mem_cons_self
    have hn := hb.applyL o σ d _ ho (h.close hV)
    have st := mat_step (val d) V _ _ (fun X => (o.getDD σ).1 * X) (fun X Y => (Matrix.mul_sub _ X Y).symm)
      (fun c X hX => hX.unitaryL _ (getDD_unitary o σ ho)) _ _ hV h hn rfl
    rw [accumulated_add] at st
    have e1 : (b.applyOp .left o σ d).1 = (o.getDD σ).2 := by
      simp only [Backend.applyOp]; rw [hb.tracked, getDD_moved]
    have := ih (fun o' h' => hl o' (List.mem_cons_of_mem _ h')) (o.getDD σ).2 (b.applyOp .left o σ d).2 _ (k + o.cost) st.2 st.1
    rw [e1]
    simp only [List.map_cons, List.sum_cons, trackAll]
    have e2 : view (trackAll r (o.getDD σ).2) σ (physOps (o :: r)) * V =
        view (trackAll r (o.getDD σ).2) (o.getDD σ).2 (physOps r) * ((o.getDD σ).1 * V) := by
      rw [o.getDD_view, ← Matrix.mul_assoc, view_mul, physOps]
    rw [e2, ← Nat.add_assoc]
    exact this

theorem construction_rounded {val : D → Mat n} {ε : ℝ} (hb : RoundedMatrix b val ε) {qc : QC n} {ω : Equiv.Perm (Fin n)}
    (hq : WellFormed qc ω) (ident : D) (hi : val ident = 1) :
    Stretch (accumulated ε 0 (cost qc + 2)) (val (finalObject b false qc (constructionInit b ident qc)) - funcOf qc ω * ancProj qc.ancillary) ∧
    Stretch 1 (funcOf qc ω * ancProj qc.ancillary) := by
  have hpow : ∀ k, accumulated ε 0 k + ε * (accumulated ε 0 k + 1) = accumulated ε 0 (k + 1) := fun k => by
    rw [← accumulated_add]; ring
  have h0 : Stretch (accumulated ε 0 1) (val (constructionInit b ident qc) - ancProj qc.ancillary) := by
    have := hb.ancillae qc.ancillary true ident 1 (by rw [hi]; exact stretch_one)
    have e : reduceAncillae qc.ancillary true (val ident) = ancProj qc.ancillary := by rw [hi]; simp [reduceAncillae]
    rw [e] at this
    have e2 : accumulated ε 0 1 = ε * 1 := by simp [accumulated]
    rw [e2]
    exact this
  obtain ⟨e1, e2, e3⟩ := mat_applyAll hb qc.ops hq.ops qc.initialLayout (constructionInit b ident qc) _ 1 (stretch_ancProj _) h0
  unfold finalObject
  simp only [Bool.false_eq_true, if_false]
  rw [e1]
  generalize (applyAll b .left qc.ops qc.initialLayout (constructionInit b ident qc)).2 = u at *
  have hn := hb.relabelL u (trackAll qc.ops qc.initialLayout) qc.outputPermutation _ (e2.close e3)
  rw [changePerm_left, perm_final hq] at hn
  have st := mat_step (val u) _ _ _ (fun X => view ω (trackAll qc.ops qc.initialLayout) 1 * X) (fun X Y => (Matrix.mul_sub _ X Y).symm)
    (fun c X hX => hX.unitaryL _ (view_unitary _ _)) _ _ e3 e2 hn rfl
  rw [accumulated_add, ← Matrix.mul_assoc, view_mul, Matrix.one_mul] at st
  generalize (b.changePerm true u (trackAll qc.ops qc.initialLayout) qc.outputPermutation).1 = u' at *
  have hn2 := hb.ancillae qc.ancillary true u' _ (st.1.close st.2)
  have st2 := mat_step (val u') _ _ _ (fun X => X * ancProj qc.ancillary) (fun X Y => (Matrix.sub_mul X Y _).symm)
    (fun c X hX => fun v => by
      rw [← Matrix.mulVec_mulVec]
      refine le_trans (hX _) ?_
      by_cases hc : 0 ≤ c
      · exact mul_le_mul_of_nonneg_left (nrm_ancProj _ _) hc
      · -- a negative bound forces the vector to be zero
        have h1 := nrm_nonneg (X.mulVec v)
        have h2 := hX v
        have h3 := nrm_nonneg v
        have h4 : nrm v = 0 := by nlinarith
        have h5 := nrm_ancProj qc.ancillary v
        rw [h4] at h5
        rw [le_antisymm h5 (nrm_nonneg _), h4]) _ _ st.2 st.1 hn2 rfl
  rw [hpow, Matrix.mul_assoc, ancProj_sq] at st2
  have ec : 1 + (qc.ops.map Op.cost).sum + qc.outputPermutation.length + 1 = cost qc + 2 := by unfold cost; omega
  rw [ec] at st2
  exact st2

theorem alternating_rounded' {val : D → Mat n} {ε θ θ₀ : ℝ} (hb : RoundedMatrix b val ε) (qc1 qc2 : QC n)
    (ω1 ω2 : Equiv.Perm (Fin n)) (h1 : WellFormed qc1 ω1) (h2 : WellFormed qc2 ω2) (R : RoundedMatrixTests val θ θ₀)
    (opEq : Op n → Op n → Bool) (sch : AltScheme (Op n) (Equiv.Perm (Fin n)) D)
    (hc : sch.Cancels → NearSafe (accumulated ε 0 (cost qc1 + cost qc2 + 1)) opEq qc1 qc2)
    (hs : AltConfigured qc1 qc2 sch) (verdict : D → Criterion) (prev : Criterion) (ident : D) (hi : val ident = 1) :
    ∃ s, runAlt b R.isId opEq sch verdict (fun _ => false) prev qc1 qc2 (altInit b ident n qc1 qc2)
        (qc1.ops.length + qc2.ops.length + 2) = .ok (verdict s.d, s) ∧
      Stretch (accumulated ε 0 (cost qc1 + cost qc2 + 1))
        (val s.d - funcOf qc1 ω1 * ancProj (altAncillary n qc1.ancillary qc2.ancillary) * (funcOf qc2 ω2)ᴴ) := by
  have h0 : Stretch ε (val (altInit b ident n qc1 qc2) - ancProj (altAncillary n qc1.ancillary qc2.ancillary)) := by
    have := hb.ancillae (altAncillary n qc1.ancillary qc2.ancillary) true ident 1 (by rw [hi]; exact stretch_one)
    have e : reduceAncillae (altAncillary n qc1.ancillary qc2.ancillary) true (val ident) =
      ancProj (altAncillary n qc1.ancillary qc2.ancillary) := by rw [hi]; simp [reduceAncillae]
    rwa [e, mul_one] at this
  have : accumulated ε 0 (cost qc1 + cost qc2 + 1) = accumulated ε ε (cost qc1 + cost qc2) := by
    unfold accumulated; rw [pow_succ]; ring
  rw [this] at hc ⊢
  exact alternating_rounded hb.nonneg hb qc1 qc2 ω1 ω2 h1 h2 R opEq sch hs verdict prev _ _ (fun hk => (hc hk).from h1.ops h2.ops) (stretch_ancProj _) h0

theorem ancProj_none (anc : List Bool) (h : ∀ q : Fin n, ¬ anc.getD q.val false = true) : (ancProj anc : Mat n) = 1 := by
  unfold ancProj
  rw [← Matrix.diagonal_one]
  congr 1
  funext x
  rw [if_pos fun q hq => absurd hq (h q)]

theorem outputs_of_product {qc1 qc2 : QC n} {ω1 ω2 : Equiv.Perm (Fin n)} (_h1 : WellFormed qc1 ω1) (h2 : WellFormed qc2 ω2) (c : ℂ) {e : ℝ}
    (h : Stretch e (funcOf qc1 ω1 * (funcOf qc2 ω2)ᴴ - c • (1 : Mat n))) : OutputsWithin e c qc1 ω1 qc2 ω2 := fun x => by
  have u2 := funcOf_unitary qc2 ω2 h2.ops
  have := h ((funcOf qc2 ω2).mulVec x)
  rwa [nrm_unitary _ u2, Matrix.sub_mulVec, Matrix.mulVec_mulVec x, Matrix.mul_assoc, unitary_comm _ u2, Matrix.mul_one,
    Matrix.smul_mulVec, Matrix.one_mulVec, ← output_eq, ← output_eq] at this

theorem near_phase {qc1 qc2 : QC n} {ω1 ω2 : Equiv.Perm (Fin n)} (h1 : WellFormed qc1 ω1) (h2 : WellFormed qc2 ω2) {c : ℂ} {e : ℝ}
    (h : Stretch e (funcOf qc1 ω1 * (funcOf qc2 ω2)ᴴ - c • (1 : Mat n))) : |‖c‖ - 1| ≤ e := by
  let v : Basis n → ℂ := Pi.single (fun _ => false) 1
  have hv : nrm v = 1 := by
    unfold nrm
    rw [Finset.sum_eq_single (fun _ => false)]
    · simp [v]
    · intro y _ hy; simp [v, hy]
    · simp
  have uF : funcOf qc1 ω1 * (funcOf qc2 ω2)ᴴ * (funcOf qc1 ω1 * (funcOf qc2 ω2)ᴴ)ᴴ = 1 :=
    mul_unitary _ _ (funcOf_unitary qc1 ω1 h1.ops) (ct_unitary (funcOf_unitary qc2 ω2 h2.ops))
  have hh := h v
  rw [hv, mul_one, Matrix.sub_mulVec, Matrix.smul_mulVec, Matrix.one_mulVec] at hh
  generalize funcOf qc1 ω1 * (funcOf qc2 ω2)ᴴ = F at *
  have n1 := nrm_unitary F uF v
  have n2 := nrm_smul c v
  rw [hv] at n1 n2
  have t1 := nrm_le_of_close (F.mulVec v) (c • v)
  have t2 := nrm_le_of_close (c • v) (F.mulVec v)
  rw [nrm_comm] at t2
  rw [abs_le]
  constructor <;> linarith

theorem product_of_same {qc1 qc2 : QC n} {ω1 ω2 : Equiv.Perm (Fin n)} (_h1 : WellFormed qc1 ω1) (h2 : WellFormed qc2 ω2) (c : ℂ)
    (h : SameUpTo c [] qc1 ω1 qc2 ω2) : funcOf qc1 ω1 * (funcOf qc2 ω2)ᴴ = c • (1 : Mat n) := by
  have hF : funcOf qc1 ω1 = c • funcOf qc2 ω2 := by
    apply Matrix.ext_of_mulVec_single
    intro y
    have := h (Pi.single y 1) (fun x _ q hq => by simp at hq)
    rw [output_eq, output_eq] at this
    rw [this, Matrix.smul_mulVec]
  rw [hF, Matrix.smul_mul, funcOf_unitary qc2 ω2 h2.ops]

theorem outputs_multiple {qc1 qc2 : QC n} {ω1 ω2 : Equiv.Perm (Fin n)} (h1 : WellFormed qc1 ω1) (h2 : WellFormed qc2 ω2) {f : Mat n} (c : ℂ)
    (a k e : ℝ) (hk : k < 1) (hc : Stretch a (c • f - funcOf qc1 ω1)) (hf : Stretch k (f - funcOf qc2 ω2)) (he : (a + k) / (1 - k) ≤ e) :
    OutputsWithin e c qc1 ω1 qc2 ω2 := fun x => by
  have u1 := nrm_unitary _ (funcOf_unitary qc1 ω1 h1.ops) x
  have u2 := nrm_unitary _ (funcOf_unitary qc2 ω2 h2.ops) x
  have c1 := hc x
  have c2 := hf x
  rw [Matrix.sub_mulVec, Matrix.smul_mulVec, ← output_eq] at c1
  rw [Matrix.sub_mulVec, ← output_eq] at c2
  rw [← output_eq] at u1 u2
  have hx := nrm_nonneg x
  have h3 : nrm (output qc2 ω2 x) ≤ k * nrm x + nrm (f.mulVec x) := by
    have := nrm_le_of_close (output qc2 ω2 x) (f.mulVec x); rw [nrm_comm] at this; linarith
  have h4 : nrm (c • f.mulVec x) ≤ a * nrm x + nrm x := by
    have := nrm_le_of_close (c • f.mulVec x) (output qc1 ω1 x); linarith
  rw [nrm_smul] at h4
  have h5 : nrm (output qc1 ω1 x - c • output qc2 ω2 x) ≤ a * nrm x + ‖c‖ * (k * nrm x) := by
    have := nrm_tri (output qc1 ω1 x) (c • f.mulVec x) (c • output qc2 ω2 x)
    rw [nrm_comm (output qc1 ω1 x) (c • f.mulVec x), ← smul_sub, nrm_smul] at this
    have := mul_le_mul_of_nonneg_left c2 (norm_nonneg c)
    linarith
  have h6 := mul_le_mul_of_nonneg_left h3 (norm_nonneg c)
  have h7 : ‖c‖ * (nrm x * (1 - k)) ≤ (1 + a) * nrm x := by rw [u2] at h6; nlinarith
  have h8 : (a * nrm x + ‖c‖ * (k * nrm x)) * (1 - k) ≤ (a + k) * nrm x := by
    have hk0 : 0 ≤ k * nrm x := le_trans (nrm_nonneg _) c2
    by_cases hz : nrm x = 0
    · rw [hz]; simp
    · have hpos : 0 < nrm x := lt_of_le_of_ne hx (Ne.symm hz)
      have hk1 : 0 ≤ k := by by_contra hneg; push Not at hneg; nlinarith
      nlinarith [mul_le_mul_of_nonneg_left h7 hk1]
  have h9 : a * nrm x + ‖c‖ * (k * nrm x) ≤ (a + k) / (1 - k) * nrm x := by
    rw [div_mul_eq_mul_div, le_div_iff₀ (by linarith)]; exact h8
  exact le_trans h5 (le_trans h9 (mul_le_mul_of_nonneg_right he hx))

theorem outputs_both_close {qc1 qc2 : QC n} {ω1 ω2 : Equiv.Perm (Fin n)} (h1 : WellFormed qc1 ω1) (h2 : WellFormed qc2 ω2) (c c' : ℂ)
    (a k e : ℝ) (hk : k < 1) (hc : Stretch a (funcOf qc1 ω1 - c • (1 : Mat n))) (hf : Stretch k (funcOf qc2 ω2 - c' • (1 : Mat n)))
    (he : (a + k) / (1 - k) ≤ e) : ∃ c, OutputsWithin e c qc1 ω1 qc2 ω2 := by
  have hc0 : c' ≠ 0 := by
    rintro rfl
    let v : Basis n → ℂ := Pi.single (fun _ => false) 1
    have hv : nrm v = 1 := by
      unfold nrm
      rw [Finset.sum_eq_single (fun _ => false)]
      · simp [v]
      · intro y _ hy; simp [v, hy]
      · simp
    have := hf v
    rw [zero_smul, sub_zero, nrm_unitary _ (funcOf_unitary qc2 ω2 h2.ops), hv] at this
    linarith
  refine ⟨c * c'⁻¹, outputs_multiple h1 h2 (f := c' • (1 : Mat n)) _ a k e hk ?_ hf.comm he⟩
  rw [smul_smul, mul_assoc, inv_mul_cancel₀ hc0, mul_one]
  exact hc.comm

theorem stretch_ct {c : ℝ} {A : Mat n} (h : Stretch c A) : Stretch c Aᴴ := fun v => by
  have hadj : Spec.inner (Aᴴ.mulVec v) (Aᴴ.mulVec v) = Spec.inner v (A.mulVec (Aᴴ.mulVec v)) := by
    rw [inner_eq, inner_eq, Matrix.star_mulVec, Matrix.conjTranspose_conjTranspose, ← Matrix.dotProduct_mulVec]
  have h1 : nrm (Aᴴ.mulVec v) ^ 2 ≤ nrm v * (c * nrm (Aᴴ.mulVec v)) := by
    rw [nrm_sq, hadj]
    refine le_trans (Complex.re_le_norm _) (le_trans (inner_bound _ _) ?_)
    exact mul_le_mul_of_nonneg_left (h _) (nrm_nonneg _)
  by_cases hz : nrm (Aᴴ.mulVec v) = 0
  · rw [hz]
    by_cases hv : nrm v = 0
    · rw [hv, mul_zero]
    · have := h v
      exact le_trans (nrm_nonneg _) this
  · have hpos : 0 < nrm (Aᴴ.mulVec v) := lt_of_le_of_ne (nrm_nonneg _) (Ne.symm hz)
    nlinarith

theorem dagger_close {val : D → Mat n} {η α β : ℝ} {qc1 qc2 : QC n} {ω1 ω2 : Equiv.Perm (Fin n)} (h1 : WellFormed qc1 ω1)
    (h2 : WellFormed qc2 ω2) (Q : RoundedPair val η) (hη : 0 ≤ η) {e f : D} (o1 : Stretch α (val e - funcOf qc1 ω1))
    (o2 : Stretch β (val f - funcOf qc2 ω2)) :
    Stretch ((1 + η) * ((1 + α) * (1 + β)) - 1) (val (Q.mulDagger e f) - funcOf qc1 ω1 * (funcOf qc2 ω2)ᴴ) := by
  have u1 := funcOf_unitary qc1 ω1 h1.ops
  have u2 := funcOf_unitary qc2 ω2 h2.ops
  have s1 := o1.close (stretch_unitary _ u1)
  have s2 := o2.close (stretch_unitary _ u2)
  have hα : 0 ≤ α := stretch_nonneg o1
  have t1 := Q.mulDagger_error e f _ _ s1 s2
  have t2 : Stretch (α * (β + 1)) ((val e - funcOf qc1 ω1) * (val f)ᴴ) := o1.mul hα (stretch_ct s2)
  have t3 : Stretch β (funcOf qc1 ω1 * (val f - funcOf qc2 ω2)ᴴ) := (stretch_ct o2).unitaryL _ u1
  have t4 := t1.add (t2.add t3)
  have e1 : val (Q.mulDagger e f) - val e * (val f)ᴴ + ((val e - funcOf qc1 ω1) * (val f)ᴴ + funcOf qc1 ω1 * (val f - funcOf qc2 ω2)ᴴ) =
      val (Q.mulDagger e f) - funcOf qc1 ω1 * (funcOf qc2 ω2)ᴴ := by
    rw [Matrix.conjTranspose_sub, Matrix.sub_mul, Matrix.mul_sub]; abel
  rw [e1] at t4
  exact t4.mono (le_of_eq (by ring))

end QCEC.Sem
