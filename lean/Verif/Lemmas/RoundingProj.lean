import Verif.Lemmas.Rounding
import Verif.Lemmas.Verdict
import Verif.Lemmas.DDSem
/-!
# Helper lemmas: operators close to a multiple of a diagonal 0/1 matrix
-/
namespace QCEC.Sem
open QCEC QCEC.DD QCEC.Spec Matrix

variable {n : Nat}

theorem nrm_indic (S : Finset (Basis n)) (v : Basis n → ℂ) : nrm ((indic S).mulVec v) ≤ nrm v := by
  unfold nrm
  apply Real.sqrt_le_sqrt
  apply Finset.sum_le_sum
  intro x _
  unfold indic
  rw [Matrix.mulVec_diagonal]
  split
  · rw [one_mul]
  · rw [zero_mul, Complex.normSq_zero]; exact Complex.normSq_nonneg _

theorem indic_compl (S : Finset (Basis n)) : (1 : Mat n) - indic S = indic Sᶜ := by
  unfold indic
  rw [← Matrix.diagonal_one, Matrix.diagonal_sub]
  congr 1
  funext x
  by_cases h : x ∈ S <;> simp [h]

theorem nrm_single (x : Basis n) : nrm (Pi.single x 1 : Basis n → ℂ) = 1 := by
  unfold nrm
  rw [Finset.sum_eq_single x]
  · simp
  · intro y _ hy; simp [hy]
  · simp

/-- A contraction close to a multiple of a diagonal 0/1 matrix acts like a factor wherever it keeps the length. -/
theorem near_indicator {W : Mat n} {c : ℂ} {S : Finset (Basis n)} {e : ℝ} (hS : S.Nonempty) (hW : Stretch 1 W)
    (h : Stretch e (W - c • indic S)) {y : Basis n → ℂ} (hy : (Wᴴ * W).mulVec y = y) :
    ‖c‖ ≤ 1 + e ∧ nrm (W.mulVec y - c • y) ≤ ((1 + e) ^ 3 - 1) * nrm y ∧ (1 - e) * nrm y ≤ ‖c‖ * nrm y := by
  have he := stretch_nonneg h
  have hc : ‖c‖ ≤ 1 + e := by
    obtain ⟨x, hx⟩ := hS
    have h1 := h (Pi.single x 1)
    have h2 := hW (Pi.single x 1)
    have e1 : (indic S).mulVec (Pi.single x 1) = (Pi.single x 1 : Basis n → ℂ) := by
      funext z
      unfold indic
      rw [Matrix.mulVec_diagonal]
      by_cases hz : z = x
      · subst hz; simp [hx]
      · simp [hz]
    rw [Matrix.sub_mulVec, Matrix.smul_mulVec, e1] at h1
    have h3 := nrm_le_of_close (c • Pi.single x 1) (W.mulVec (Pi.single x 1))
    rw [nrm_comm, nrm_smul, nrm_single] at h3
    rw [nrm_single] at h1 h2
    linarith
  have hyn := nrm_nonneg y
  have hWy := hW y
  rw [one_mul] at hWy
  have hu := h y
  rw [Matrix.sub_mulVec, Matrix.smul_mulVec] at hu
  -- the part of `y` outside `S` is small
  have hout : nrm ((indic Sᶜ).mulVec y) ≤ e * (2 + e) * nrm y := by
    have e1 : (indic Sᶜ).mulVec y = (indic Sᶜ).mulVec ((W - c • indic S)ᴴ.mulVec (W.mulVec y) +
        (c • indic S)ᴴ.mulVec ((W - c • indic S).mulVec y)) := by
      rw [Matrix.mulVec_mulVec, Matrix.mulVec_mulVec, ← Matrix.add_mulVec]
      have e2 : (W - c • indic S)ᴴ * W + (c • indic S)ᴴ * (W - c • indic S) = Wᴴ * W - (star c * c) • indic S := by
        rw [Matrix.conjTranspose_sub, Matrix.sub_mul, Matrix.mul_sub, Matrix.conjTranspose_smul, indic_ct, Matrix.smul_mul,
          Matrix.smul_mul, Matrix.mul_smul, indic_sq, smul_smul]
        abel
      rw [e2, Matrix.sub_mulVec, hy, Matrix.mulVec_sub, Matrix.smul_mulVec, Matrix.mulVec_smul, Matrix.mulVec_mulVec, ← indic_compl,
        Matrix.sub_mul, Matrix.one_mul, indic_sq, sub_self, Matrix.zero_mulVec, smul_zero, sub_zero]
    rw [e1]
    refine le_trans (nrm_indic _ _) (le_trans (nrm_add _ _) ?_)
    have b1 := stretch_ct h (W.mulVec y)
    have b2 : nrm ((c • indic S)ᴴ.mulVec ((W - c • indic S).mulVec y)) ≤ (1 + e) * (e * nrm y) := by
      rw [Matrix.conjTranspose_smul, indic_ct, Matrix.smul_mulVec, nrm_smul, norm_star]
      refine mul_le_mul hc (le_trans (nrm_indic _ _) (h y)) (nrm_nonneg _) (by linarith)
    have b3 := mul_le_mul_of_nonneg_left hWy he
    nlinarith
  refine ⟨hc, ?_, ?_⟩
  · have e1 : W.mulVec y - c • y = (W.mulVec y - c • (indic S).mulVec y) + -(c • (indic Sᶜ).mulVec y) := by
      rw [← indic_compl, Matrix.sub_mulVec, Matrix.one_mulVec, smul_sub]; abel
    rw [e1]
    refine le_trans (nrm_add _ _) ?_
    rw [nrm_neg, nrm_smul]
    have := mul_le_mul hc hout (nrm_nonneg _) (by linarith)
    nlinarith
  · have h1 : nrm (W.mulVec y) = nrm y := by
      have : nrm (W.mulVec y) ^ 2 = nrm y ^ 2 := by
        rw [nrm_sq, nrm_sq, inner_eq, inner_eq, Matrix.star_mulVec, ← Matrix.dotProduct_mulVec, Matrix.mulVec_mulVec, hy]
      exact (sq_eq_sq₀ (nrm_nonneg _) (nrm_nonneg _)).1 this
    have h2 := nrm_le_of_close (W.mulVec y) (c • (indic S).mulVec y)
    rw [nrm_smul, h1] at h2
    have h3 := mul_le_mul_of_nonneg_left (nrm_indic S y) (norm_nonneg c)
    linarith

/-- The same for the product of two circuits with some inputs projected away in between. -/
theorem near_product {F1 F2 P : Mat n} (u1 : F1 * F1ᴴ = 1) (u2 : F2 * F2ᴴ = 1) (hP : Stretch 1 P) {c : ℂ} {S : Finset (Basis n)} {e : ℝ}
    (hS : S.Nonempty) (h : Stretch e (F1 * P * F2ᴴ - c • indic S)) {x : Basis n → ℂ} (hx : P.mulVec x = x) (hx' : Pᴴ.mulVec x = x) :
    nrm (F1.mulVec x - c • F2.mulVec x) ≤ ((1 + e) ^ 3 - 1) * nrm x ∧ ‖c‖ ≤ 1 + e ∧ (1 - e) * nrm x ≤ ‖c‖ * nrm x := by
  have hW : Stretch 1 (F1 * P * F2ᴴ) := (hP.unitaryL _ u1).unitaryR _ (ct_unitary u2)
  have e1 : (F1 * P * F2ᴴ).mulVec (F2.mulVec x) = F1.mulVec x := by
    rw [Matrix.mulVec_mulVec, Matrix.mul_assoc, unitary_comm _ u2, Matrix.mul_one, ← Matrix.mulVec_mulVec, hx]
  have hy : ((F1 * P * F2ᴴ)ᴴ * (F1 * P * F2ᴴ)).mulVec (F2.mulVec x) = F2.mulVec x := by
    rw [← Matrix.mulVec_mulVec, e1, Matrix.conjTranspose_mul, Matrix.conjTranspose_conjTranspose, Matrix.conjTranspose_mul,
      Matrix.mulVec_mulVec, Matrix.mul_assoc, Matrix.mul_assoc, unitary_comm _ u1, Matrix.mul_one, ← Matrix.mulVec_mulVec, hx']
  obtain ⟨a, b, d⟩ := near_indicator hS hW h hy
  rw [e1, nrm_unitary _ u2] at b
  rw [nrm_unitary _ u2] at d
  exact ⟨b, a, d⟩

/-- Product with an adjoint, all three computed with errors. -/
theorem product_close {E F X A B : Mat n} {η α β : ℝ} (hη : 0 ≤ η) (hA : Stretch 1 A) (hB : Stretch 1 B) (o1 : Stretch α (E - A))
    (o2 : Stretch β (F - B)) (hX : ∀ c c', Stretch c E → Stretch c' F → Stretch (η * (c * c')) (X - E * Fᴴ)) :
    Stretch ((1 + η) * ((1 + α) * (1 + β)) - 1) (X - A * Bᴴ) := by
  have s1 := o1.close hA
  have s2 := o2.close hB
  have hα : 0 ≤ α := stretch_nonneg o1
  have t1 := hX _ _ s1 s2
  have t2 : Stretch (α * (β + 1)) ((E - A) * Fᴴ) := o1.mul hα (stretch_ct s2)
  have t3 : Stretch (1 * β) (A * (F - B)ᴴ) := hA.mul zero_le_one (stretch_ct o2)
  have t4 := t1.add (t2.add t3)
  have e1 : X - E * Fᴴ + ((E - A) * Fᴴ + A * (F - B)ᴴ) = X - A * Bᴴ := by
    rw [Matrix.conjTranspose_sub, Matrix.sub_mul, Matrix.mul_sub]; abel
  rw [e1] at t4
  exact t4.mono (le_of_eq (by ring))

end QCEC.Sem
