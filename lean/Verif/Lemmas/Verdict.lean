import Verif.Spec.Functionality
import Mathlib.LinearAlgebra.Matrix.DotProduct
import Mathlib.LinearAlgebra.Matrix.Trace
import Mathlib.LinearAlgebra.Matrix.PosDef
/-!
# Linear algebra behind the verdict theorems
-/
namespace QCEC.Sem
open QCEC QCEC.DD QCEC.Spec Matrix

variable {n : Nat}

/-- The operator of a circuit on logical qubits. -/
noncomputable def funcOf (qc : QC n) (ω : Equiv.Perm (Fin n)) : Mat n := view ω qc.initialLayout (physOps qc.ops)

theorem execute_eq (l : List (Op n)) (w : Basis n → ℂ) : execute l w = (physOps l).mulVec w := by
  induction l generalizing w with
  | nil => simp [execute, physOps]
  | cons o r ih => rw [execute, ih, physOps, Matrix.mulVec_mulVec]

theorem view_mulVec (σ τ : Equiv.Perm (Fin n)) (A : Mat n) (v : Basis n → ℂ) :
    (view σ τ A).mulVec v = readOut σ (A.mulVec (load τ v)) := by
  funext x
  simp only [readOut, Matrix.mulVec, dotProduct]
  rw [← Equiv.sum_comp (pre τ) (fun z => A (fun q => x (σ q)) z * load τ v z)]
  apply Finset.sum_congr rfl
  intro y _
  have : load τ v (pre τ y) = v y := by
    unfold load pre
    congr 1
    funext q
    simp
  rw [this]
  rfl

theorem output_eq (qc : QC n) (ω : Equiv.Perm (Fin n)) (v : Basis n → ℂ) : output qc ω v = (funcOf qc ω).mulVec v := by
  unfold output funcOf
  rw [execute_eq, view_mulVec]

theorem funcOf_unitary (qc : QC n) (ω : Equiv.Perm (Fin n)) (h : ∀ o ∈ qc.ops, o.Valid) :
    funcOf qc ω * (funcOf qc ω)ᴴ = 1 := by
  unfold funcOf
  rw [view_ct, view_mul, physOps_unitary _ h, view_one]

theorem unitary_comm (A : Mat n) (h : A * Aᴴ = 1) : Aᴴ * A = 1 := mul_eq_one_comm.mp h

theorem ancProj_apply (anc : List Bool) (v : Basis n → ℂ) (h : AncillasZero anc v) : (ancProj anc).mulVec v = v := by
  funext x
  unfold ancProj
  rw [Matrix.mulVec_diagonal]
  by_cases hx : v x = 0
  · rw [hx, mul_zero]
  · rw [if_pos (h x hx), one_mul]

theorem ancProj_zero (anc : List Bool) (v : Basis n → ℂ) : AncillasZero anc ((ancProj anc).mulVec v) := by
  intro x hx
  unfold ancProj at hx
  rw [Matrix.mulVec_diagonal] at hx
  by_contra hc
  rw [if_neg hc, zero_mul] at hx
  exact hx rfl

theorem mulVec_ext (A B : Mat n) (h : ∀ v, A.mulVec v = B.mulVec v) : A = B := by
  apply Matrix.ext_of_mulVec_single
  intro i
  exact h _

theorem sameUpTo_iff (c : ℂ) (anc : List Bool) (qc1 qc2 : QC n) (ω1 ω2 : Equiv.Perm (Fin n)) :
    SameUpTo c anc qc1 ω1 qc2 ω2 ↔ funcOf qc1 ω1 * ancProj anc = c • (funcOf qc2 ω2 * ancProj anc) := by
  constructor
  · intro h
    apply mulVec_ext
    intro v
    have := h _ (ancProj_zero anc v)
    rw [output_eq, output_eq] at this
    rw [← Matrix.mulVec_mulVec, this, Matrix.smul_mulVec, ← Matrix.mulVec_mulVec]
  · intro h v hv
    rw [output_eq, output_eq]
    have := congrArg (fun A => A.mulVec v) h
    simp only [Matrix.smul_mulVec, ← Matrix.mulVec_mulVec, ancProj_apply anc v hv] at this
    exact this

theorem ancProj_ne_zero (anc : List Bool) : (ancProj anc : Mat n) ≠ 0 := by
  intro h
  have := congrFun (congrFun h (fun _ => false)) (fun _ => false)
  unfold ancProj at this
  simp at this

theorem func_ancProj_ne_zero (F : Mat n) (hF : F * Fᴴ = 1) (anc : List Bool) : F * ancProj anc ≠ 0 := by
  intro h
  have : Fᴴ * (F * ancProj anc) = 0 := by rw [h, Matrix.mul_zero]
  rw [← Matrix.mul_assoc, unitary_comm F hF, Matrix.one_mul] at this
  exact ancProj_ne_zero anc this

/-- A diagonal 0/1 matrix. -/
noncomputable def indic (S : Finset (Basis n)) : Mat n := Matrix.diagonal fun x => if x ∈ S then 1 else 0

theorem indic_sq (S : Finset (Basis n)) : indic S * indic S = indic S := by
  unfold indic
  rw [Matrix.diagonal_mul_diagonal]
  congr 1; funext x; split <;> simp

theorem indic_ct (S : Finset (Basis n)) : (indic S)ᴴ = indic S := by
  unfold indic
  rw [Matrix.diagonal_conjTranspose]
  congr 1; funext x; simp only [Pi.star_apply]; split <;> simp

theorem indic_ne_zero (S : Finset (Basis n)) (h : S.Nonempty) : indic S ≠ 0 := by
  intro h0
  obtain ⟨x, hx⟩ := h
  have := congrFun (congrFun h0 x) x
  unfold indic at this
  simp [hx] at this

theorem norm_one_of (c : ℂ) (h : c * star c = 1) : ‖c‖ = 1 := by
  have h2 : Complex.normSq c = 1 := by
    have := Complex.mul_conj c
    rw [show (starRingEnd ℂ) c = star c from rfl, h] at this
    exact_mod_cast this.symm
  rw [Complex.normSq_eq_norm_sq] at h2
  have h3 : (0:ℝ) ≤ ‖c‖ := norm_nonneg c
  nlinarith [sq_nonneg (‖c‖ - 1)]

/-- If `U1 P U2†` is a multiple of a diagonal 0/1 matrix, then `U1` and `U2` agree up to a phase on the range of `P`. -/
theorem alternating_core (F1 F2 P : Mat n) (h1 : F1 * F1ᴴ = 1) (h2 : F2 * F2ᴴ = 1) (hP : P * P = P) (hPc : Pᴴ = P)
    (c : ℂ) (S : Finset (Basis n)) (hc : c ≠ 0) (hS : S.Nonempty) (h : F1 * P * F2ᴴ = c • indic S) :
    ‖c‖ = 1 ∧ F1 * P = c • (F2 * P) ∧ F2 * P * F2ᴴ = indic S := by
  have g1 := unitary_comm F1 h1
  have g2 := unitary_comm F2 h2
  have hct : F2 * P * F1ᴴ = star c • indic S := by
    have := congrArg Matrix.conjTranspose h
    rw [Matrix.conjTranspose_smul, indic_ct, Matrix.conjTranspose_mul, Matrix.conjTranspose_mul, hPc,
      Matrix.conjTranspose_conjTranspose, ← Matrix.mul_assoc] at this
    exact this
  have hX : F2 * P * F2ᴴ = (c * star c) • indic S := by
    have : (F2 * P * F1ᴴ) * (F1 * P * F2ᴴ) = F2 * P * F2ᴴ := by
      calc (F2 * P * F1ᴴ) * (F1 * P * F2ᴴ) = F2 * P * ((F1ᴴ * F1) * (P * F2ᴴ)) := by simp only [Matrix.mul_assoc]
        _ = F2 * (P * P) * F2ᴴ := by rw [g1, Matrix.one_mul]; simp only [Matrix.mul_assoc]
        _ = F2 * P * F2ᴴ := by rw [hP]
    rw [← this, h, hct, Matrix.smul_mul, Matrix.mul_smul, indic_sq, smul_smul, mul_comm]
  have hsq : (c * star c) • indic S = ((c * star c) * (c * star c)) • indic S := by
    have e : (F2 * P * F2ᴴ) * (F2 * P * F2ᴴ) = F2 * P * F2ᴴ := by
      calc (F2 * P * F2ᴴ) * (F2 * P * F2ᴴ) = F2 * P * ((F2ᴴ * F2) * (P * F2ᴴ)) := by simp only [Matrix.mul_assoc]
        _ = F2 * (P * P) * F2ᴴ := by rw [g2, Matrix.one_mul]; simp only [Matrix.mul_assoc]
        _ = F2 * P * F2ᴴ := by rw [hP]
    rw [hX, Matrix.smul_mul, Matrix.mul_smul, indic_sq, smul_smul] at e
    exact e.symm
  have hcc : c * star c ≠ 0 := mul_ne_zero hc (star_ne_zero.mpr hc)
  have hone : c * star c = 1 := by
    have h0 : ((c * star c) - (c * star c) * (c * star c)) • indic S = 0 := by
      rw [sub_smul, ← hsq, sub_self]
    rcases smul_eq_zero.mp h0 with h | h
    · have : (c * star c) * (1 - c * star c) = 0 := by rw [mul_sub, mul_one]; exact h
      rcases mul_eq_zero.mp this with h | h
      · exact absurd h hcc
      · exact (sub_eq_zero.mp h).symm
    · exact absurd h (indic_ne_zero S hS)
  rw [hone, one_smul] at hX
  refine ⟨norm_one_of c hone, ?_, hX⟩
  have : F1 * P * F2ᴴ * F2 = c • (F2 * P * F2ᴴ) * F2 := by rw [h, hX]
  rw [Matrix.mul_assoc, g2, Matrix.mul_one, Matrix.smul_mul, Matrix.mul_assoc _ _ F2, g2, Matrix.mul_one] at this
  exact this

/-- A projection with the same trace below another one equals it. -/
theorem proj_eq (P Y : Mat n) (hP : P * P = P) (hPc : Pᴴ = P) (hY : Y * Y = Y) (hYc : Yᴴ = Y) (h : P * Y = Y)
    (ht : P.trace = Y.trace) : Y = P := by
  have hYP : Y * P = Y := by
    have := congrArg Matrix.conjTranspose h
    rwa [Matrix.conjTranspose_mul, hPc, hYc] at this
  have hd : (P - Y)ᴴ * (P - Y) = P - Y := by
    rw [Matrix.conjTranspose_sub, hPc, hYc, Matrix.sub_mul, Matrix.mul_sub, Matrix.mul_sub, hP, h, hYP, hY, sub_self, sub_zero]
  have : ((P - Y)ᴴ * (P - Y)).trace = 0 := by rw [hd, Matrix.trace_sub, ht, sub_self]
  open scoped ComplexOrder in
  have h0 := Matrix.trace_conjTranspose_mul_self_eq_zero_iff.mp this
  exact (sub_eq_zero.mp h0).symm

/-- Completeness of the alternating comparison with ancillas: every reduced ancilla is left alone by one of the circuits. -/
theorem alternating_complete (F1 F2 P Q R : Mat n) (h1 : F1 * F1ᴴ = 1) (h2 : F2 * F2ᴴ = 1) (hP : P * P = P) (hPc : Pᴴ = P)
    (hPne : P ≠ 0) (hQR : P = Q * R) (hRQ : Q * R = R * Q) (hQ : Q * Q = Q) (hR : R * R = R) (hF2 : F2 * Q = Q * F2)
    (hF1 : F1 * R = R * F1) (c : ℂ) (h : F1 * P = c • (F2 * P)) :
    F1 * P * F2ᴴ = c • P := by
  have g1 := unitary_comm F1 h1
  have g2 := unitary_comm F2 h2
  have hcc : c * star c = 1 := by
    have e1 : (F1 * P)ᴴ * (F1 * P) = P := by
      rw [Matrix.conjTranspose_mul, hPc, Matrix.mul_assoc, ← Matrix.mul_assoc F1ᴴ, g1, Matrix.one_mul, hP]
    have e2 : (F2 * P)ᴴ * (F2 * P) = P := by
      rw [Matrix.conjTranspose_mul, hPc, Matrix.mul_assoc, ← Matrix.mul_assoc F2ᴴ, g2, Matrix.one_mul, hP]
    rw [h, Matrix.conjTranspose_smul, Matrix.smul_mul, Matrix.mul_smul, e2, smul_smul] at e1
    have : (star c * c - 1) • P = 0 := by rw [sub_smul, e1, one_smul, sub_self]
    rcases smul_eq_zero.mp this with h | h
    · rw [mul_comm]; exact sub_eq_zero.mp h
    · exact absurd h hPne
  let Y := F2 * P * F2ᴴ
  have hYdef : Y = F2 * P * F2ᴴ := rfl
  have hYsq : Y * Y = Y := by
    calc (F2 * P * F2ᴴ) * (F2 * P * F2ᴴ) = F2 * P * ((F2ᴴ * F2) * (P * F2ᴴ)) := by simp only [Matrix.mul_assoc]
      _ = F2 * (P * P) * F2ᴴ := by rw [g2, Matrix.one_mul]; simp only [Matrix.mul_assoc]
      _ = F2 * P * F2ᴴ := by rw [hP]
  have hYc : Yᴴ = Y := by
    rw [hYdef, Matrix.conjTranspose_mul, Matrix.conjTranspose_mul, hPc, Matrix.conjTranspose_conjTranspose, Matrix.mul_assoc]
  have hY1 : Y = F1 * P * F1ᴴ := by
    have hP2 : F1 * P * F1ᴴ = (F1 * P) * (F1 * P)ᴴ := by
      rw [Matrix.conjTranspose_mul, hPc, ← Matrix.mul_assoc, Matrix.mul_assoc F1 P P, hP]
    have hP3 : F2 * P * F2ᴴ = (F2 * P) * (F2 * P)ᴴ := by
      rw [Matrix.conjTranspose_mul, hPc, ← Matrix.mul_assoc, Matrix.mul_assoc F2 P P, hP]
    rw [hYdef, hP3, hP2, h, Matrix.conjTranspose_smul, Matrix.smul_mul, Matrix.mul_smul, smul_smul, hcc, one_smul]
  have hQY : Q * Y = Y := by
    rw [hYdef, hQR]
    calc Q * (F2 * (Q * R) * F2ᴴ) = (Q * F2) * (Q * R) * F2ᴴ := by simp only [Matrix.mul_assoc]
      _ = F2 * ((Q * Q) * R) * F2ᴴ := by rw [← hF2]; simp only [Matrix.mul_assoc]
      _ = F2 * (Q * R) * F2ᴴ := by rw [hQ]
  have hRY : R * Y = Y := by
    rw [hY1, hQR, hRQ]
    calc R * (F1 * (R * Q) * F1ᴴ) = (R * F1) * (R * Q) * F1ᴴ := by simp only [Matrix.mul_assoc]
      _ = F1 * ((R * R) * Q) * F1ᴴ := by rw [← hF1]; simp only [Matrix.mul_assoc]
      _ = F1 * (R * Q) * F1ᴴ := by rw [hR]
  have hPY : P * Y = Y := by rw [hQR, Matrix.mul_assoc, hRY, hQY]
  have htr : P.trace = Y.trace := by
    rw [hYdef, Matrix.mul_assoc, Matrix.trace_mul_comm, Matrix.mul_assoc, g2, Matrix.mul_one]
  have hYP := proj_eq P Y hP hPc hYsq hYc hPY htr
  rw [h, Matrix.smul_mul, ← hYdef, hYP]

end QCEC.Sem
