import Verif.Props.Rounding
import Verif.Props.DDWitness
/-!
# C73: packages with rounding errors exist, the bound is attained, and its hypotheses are needed

`scaledVector`, `scaledMatrix`: every multiplication comes out too large by the factor `1 + ε`.
-/
namespace QCEC.Props
open QCEC QCEC.DD QCEC.Sem QCEC.Spec Matrix

variable {n : Nat}

/-- A factor that goes with the true outputs within `e` has a modulus within `e` of one. -/
theorem rounding_factor (qc1 qc2 : QC n) (ω1 ω2 : Equiv.Perm (Fin n)) (h1 : WellFormed qc1 ω1) (h2 : WellFormed qc2 ω2) (e : ℝ) (c : ℂ)
    (h : OutputsWithin e c qc1 ω1 qc2 ω2) : |‖c‖ - 1| ≤ e := by
  apply near_phase h1 h2 (e := e) (c := c)
  intro v
  have u2 := funcOf_unitary qc2 ω2 h2.ops
  have := h ((funcOf qc2 ω2)ᴴ.mulVec v)
  rw [nrm_unitary _ (ct_unitary u2), output_eq, output_eq, Matrix.mulVec_mulVec, Matrix.mulVec_mulVec, u2, Matrix.one_mulVec] at this
  rwa [Matrix.sub_mulVec, Matrix.smul_mulVec, Matrix.one_mulVec]

/-- Every multiplication of a vector is too large by the factor `1 + ε`. -/
noncomputable def scaledVector (n : Nat) (ε : ℝ) :
    Backend (Op n) (Equiv.Perm (Fin n)) (List (Fin n × Fin n)) (Mat n) (Basis n → ℂ) :=
  { exactVector n (fun _ _ d => d) with
    mulL := fun m d => ((1 + ε : ℝ) : ℂ) • m.mulVec d }

/-- The same for matrices. -/
noncomputable def scaledMatrix (n : Nat) (ε : ℝ) :
    Backend (Op n) (Equiv.Perm (Fin n)) (List (Fin n × Fin n)) (Mat n) (Mat n) :=
  { exactMatrix n (fun _ _ d => d) with
    mulL := fun m d => ((1 + ε : ℝ) : ℂ) • (m * d)
    mulR := fun d m => ((1 + ε : ℝ) : ℂ) • (d * m) }

theorem cost_pow {ε : ℝ} (hε : 0 ≤ ε) (o : Op n) : ε ≤ (1 + ε) ^ o.cost - 1 := by
  have h : 1 ≤ o.cost := by cases o <;> simp [Op.cost]
  have := pow_le_pow_right₀ (show (1 : ℝ) ≤ 1 + ε by linarith) h
  rw [pow_one] at this
  linarith

theorem scaledVector_rounded (n : Nat) {ε : ℝ} (hε : 0 ≤ ε) : RoundedVector (scaledVector n ε) (fun d => d) ε where
  nonneg := hε
  tracked o σ := getDD_moved o σ
  apply o σ d ho := by
    have e : (scaledVector n ε).mulL ((scaledVector n ε).getDD o σ).1 d - (o.getDD σ).1.mulVec d = (ε : ℂ) • (o.getDD σ).1.mulVec d := by
      show ((1 + ε : ℝ) : ℂ) • (o.getDD σ).1.mulVec d - _ = _
      rw [Complex.ofReal_add, add_smul, Complex.ofReal_one, one_smul, add_sub_cancel_left]
    rw [e, nrm_smul, nrm_unitary _ (getDD_unitary o σ ho), Complex.norm_real, Real.norm_of_nonneg hε]
    exact mul_le_mul_of_nonneg_right (cost_pow hε o) (nrm_nonneg d)
  relabel r d σ tgt := by
    have e : ((scaledVector n ε).changePerm r d σ tgt).1 = (changePerm (fun a b v => (swapMat a b).mulVec v) d σ tgt).1 := rfl
    rw [e, sub_self, nrm_zero]
    exact mul_nonneg (pow_sub_nonneg hε _) (nrm_nonneg d)
  ancillae _ _ _ := rfl

theorem stretch_smul {c : ℝ} {A : Mat n} (h : Stretch c A) (z : ℂ) : Stretch (‖z‖ * c) (z • A) := fun v => by
  rw [Matrix.smul_mulVec, nrm_smul, mul_assoc]
  exact mul_le_mul_of_nonneg_left (h v) (norm_nonneg z)

theorem stretch_zero {c : ℝ} (h : 0 ≤ c) : Stretch c (0 : Mat n) := fun v => by
  rw [Matrix.zero_mulVec, nrm_zero]
  exact mul_nonneg h (nrm_nonneg v)

theorem scaledMatrix_rounded (n : Nat) {ε : ℝ} (hε : 0 ≤ ε) : RoundedMatrix (scaledMatrix n ε) (fun d => d) ε where
  nonneg := hε
  isSwap := rfl
  tracked o σ := getDD_moved o σ
  trackedInv o σ := by
    show (o.getInv σ).2 = _
    rw [(o.getInv_eq σ).2, getDD_moved]
  applyL o σ d c ho hc := by
    have e : (scaledMatrix n ε).mulL ((scaledMatrix n ε).getDD o σ).1 d - (o.getDD σ).1 * d = (ε : ℂ) • ((o.getDD σ).1 * d) := by
      show ((1 + ε : ℝ) : ℂ) • ((o.getDD σ).1 * d) - _ = _
      rw [Complex.ofReal_add, add_smul, Complex.ofReal_one, one_smul, add_sub_cancel_left]
    rw [e]
    have := stretch_smul (hc.unitaryL _ (getDD_unitary o σ ho)) (ε : ℂ)
    rw [Complex.norm_real, Real.norm_of_nonneg hε] at this
    exact this.mono (mul_le_mul_of_nonneg_right (cost_pow hε o) (stretch_nonneg hc))
  applyR o σ d c ho hc := by
    have e : (scaledMatrix n ε).mulR d ((scaledMatrix n ε).getInv o σ).1 - d * (o.getInv σ).1 = (ε : ℂ) • (d * (o.getInv σ).1) := by
      show ((1 + ε : ℝ) : ℂ) • (d * (o.getInv σ).1) - _ = _
      rw [Complex.ofReal_add, add_smul, Complex.ofReal_one, one_smul, add_sub_cancel_left]
    rw [e, (o.getInv_eq σ).1]
    have := stretch_smul (hc.unitaryR _ (ct_unitary (getDD_unitary o σ ho))) (ε : ℂ)
    rw [Complex.norm_real, Real.norm_of_nonneg hε] at this
    exact this.mono (mul_le_mul_of_nonneg_right (cost_pow hε o) (stretch_nonneg hc))
  relabelL d σ tgt c hc := by
    have e : ((scaledMatrix n ε).changePerm true d σ tgt).1 = (changePerm (fun a b m => swapMat a b * m) d σ tgt).1 := rfl
    rw [e, sub_self]
    exact stretch_zero (mul_nonneg (pow_sub_nonneg hε _) (stretch_nonneg hc))
  relabelR d σ tgt c hc := by
    have e : ((scaledMatrix n ε).changePerm false d σ tgt).1 = (changePerm (fun a b m => m * swapMat a b) d σ tgt).1 := rfl
    rw [e, sub_self]
    exact stretch_zero (mul_nonneg (pow_sub_nonneg hε _) (stretch_nonneg hc))
  ancillae f r d c hc := by
    have e : (scaledMatrix n ε).reduceAncillae f r d = reduceAncillae f r d := rfl
    rw [e, sub_self]
    exact stretch_zero (mul_nonneg hε (stretch_nonneg hc))

theorem scaledVector_applyAll (ε : ℝ) (l : List (Op n)) (σ : Equiv.Perm (Fin n)) (z : ℂ) (d : Basis n → ℂ) :
    applyAll (scaledVector n ε) .left l σ (z • d) =
      ((applyAll (exactVector n fun _ _ d => d) .left l σ d).1,
        (((1 + ε : ℝ) : ℂ) ^ l.length * z) • (applyAll (exactVector n fun _ _ d => d) .left l σ d).2) := by
  induction l generalizing σ z d with
  | nil => simp [applyAll]
  | cons o r ih =>
    simp only [applyAll]
    have e : (scaledVector n ε).applyOp .left o σ (z • d) =
        (((exactVector n fun _ _ d => d).applyOp .left o σ d).1,
          (((1 + ε : ℝ) : ℂ) * z) • ((exactVector n fun _ _ d => d).applyOp .left o σ d).2) := by
      simp only [Backend.applyOp, scaledVector, exactVector]
      rw [Matrix.mulVec_smul, smul_smul]
    rw [e]
    simp only
    rw [ih]
    congr 2
    rw [List.length_cons, pow_succ]; ring

/-- The final object of the scaling package. -/
theorem scaledVector_final (ε : ℝ) {qc : QC n} {ω : Equiv.Perm (Fin n)} (hq : WellFormed qc ω) (hout : qc.outputPermutation = [])
    (x : Basis n → ℂ) :
    finalObject (scaledVector n ε) false qc x = (((1 + ε : ℝ) : ℂ) ^ qc.ops.length) • output qc ω x := by
  rw [← simulation_object (fun _ _ d => d) hq x]
  unfold finalObject
  have := scaledVector_applyAll ε qc.ops qc.initialLayout 1 x
  rw [one_smul, mul_one] at this
  simp only [this, hout, Bool.false_eq_true, if_false]
  rfl

theorem cost_simple (qc : QC n) (hout : qc.outputPermutation = []) (hsimple : ∀ o ∈ qc.ops, ∃ s, o = .simple s) :
    cost qc = qc.ops.length := by
  unfold cost
  rw [hout, List.length_nil, Nat.add_zero]
  generalize qc.ops = l at hsimple
  induction l with
  | nil => rfl
  | cons o r ih =>
    obtain ⟨s, rfl⟩ := hsimple o List.mem_cons_self
    simp only [List.map_cons, List.sum_cons, List.length_cons, Op.cost]
    rw [ih fun o' h' => hsimple o' (List.mem_cons_of_mem _ h')]
    omega

/-- **C73** (the bound is attained): for every circuit of elementary operations there is a package with relative error `ε` for which the
error of the simulated state is exactly `(1 + ε)^k - 1`. -/
theorem rounding_bound_attained {ε : ℝ} (hε : 0 ≤ ε) (qc : QC n) (ω : Equiv.Perm (Fin n)) (hq : WellFormed qc ω)
    (hout : qc.outputPermutation = []) (hsimple : ∀ o ∈ qc.ops, ∃ s, o = .simple s) (x : Basis n → ℂ) (hx : Normalised x) :
    RoundedVector (scaledVector n ε) (fun d => d) ε ∧
    nrm (finalObject (scaledVector n ε) false qc x - output qc ω x) = accumulated ε 0 (cost qc) := by
  refine ⟨scaledVector_rounded n hε, ?_⟩
  rw [scaledVector_final ε hq hout, cost_simple qc hout hsimple]
  have e : (((1 + ε : ℝ) : ℂ) ^ qc.ops.length) • output qc ω x - output qc ω x =
      (((1 + ε) ^ qc.ops.length - 1 : ℝ) : ℂ) • output qc ω x := by
    rw [Complex.ofReal_sub, sub_smul, Complex.ofReal_pow, Complex.ofReal_one, one_smul]
  rw [e, nrm_smul, nrm_normalised (output_normalised qc ω hq.ops x hx), Complex.norm_real, Real.norm_of_nonneg (pow_sub_nonneg hε _),
    accumulated]
  ring

open Classical in
/-- Tests with an exact inner product in which no two diagrams share a node. -/
noncomputable def exactOverlap (n : Nat) (thr : ℝ) : RoundedVectorTests (fun d : Basis n → ℂ => d) 0 0 where
  threshold := thr
  ptrEq _ _ := false
  wEq _ _ := false
  realClose e f := decide (|(Spec.inner e f).re - 1| < thr)
  fidClose e f := decide (|(Spec.inner e f).re * (Spec.inner e f).re + (Spec.inner e f).im * (Spec.inner e f).im - 1| < thr)
  overlap e f := Spec.inner e f
  overlap_error e f := by simp
  ptrEq_sound _ _ h := absurd h (by simp)
  wEq_sound _ _ h := absurd h (by simp)
  realClose_iff e f := by simp
  fidClose_iff e f := by simp

/-- **C73** (the condition on the error is needed): with the scaling package, *any* circuit is refuted against itself as soon as
`(1 + ε)^(2 k) - 1` reaches the threshold. -/
theorem rounding_false_alarm {ε thr : ℝ} (hε : 0 ≤ ε) (qc : QC n) (ω : Equiv.Perm (Fin n)) (hq : WellFormed qc ω)
    (hout : qc.outputPermutation = []) (x : Basis n → ℂ) (hx : Normalised x)
    (hbig : thr ≤ (1 + ε) ^ (2 * qc.ops.length) - 1) (prev : Criterion) :
    Same [] qc ω qc ω ∧
    ∃ s, runTwo (scaledVector n ε) oneToOneScheme false (equalsVector (exactOverlap n thr).ptrEq (exactOverlap n thr).wEq
      (exactOverlap n thr).realClose (exactOverlap n thr).fidClose) (fun _ => false) prev qc qc x x (qc.ops.length + qc.ops.length + 2)
        = .ok (.notEquivalent, s) := by
  refine ⟨fun v _ => by simp, ?_⟩
  obtain ⟨s, h | h⟩ := runTwo_spec (scaledVector n ε) oneToOneScheme false (equalsVector (exactOverlap n thr).ptrEq (exactOverlap n thr).wEq
      (exactOverlap n thr).realClose (exactOverlap n thr).fidClose) (fun _ => false) (fun _ _ _ h => h) prev qc qc
      (oneToOneConfigured qc qc).good x x _ (Nat.le_refl _)
  · exact absurd h.1 (by simp)
  · refine ⟨s, ?_⟩
    rw [h.2.1, scaledVector_final ε hq hout]
    have hov : Spec.inner ((((1 + ε : ℝ) : ℂ) ^ qc.ops.length) • output qc ω x) ((((1 + ε : ℝ) : ℂ) ^ qc.ops.length) • output qc ω x) =
        (((1 + ε) ^ (2 * qc.ops.length) : ℝ) : ℂ) := by
      rw [inner_smul_left, inner_smul_right', output_normalised qc ω hq.ops x hx, mul_one, ← Complex.ofReal_pow, Complex.star_def,
        Complex.conj_ofReal, ← Complex.ofReal_mul]
      congr 1
      rw [← pow_add]; congr 1; omega
    have hone : 1 ≤ (1 + ε) ^ (2 * qc.ops.length) := one_le_pow₀ (by linarith)
    have hv : equalsVector (exactOverlap n thr).ptrEq (exactOverlap n thr).wEq (exactOverlap n thr).realClose (exactOverlap n thr).fidClose
        ((((1 + ε : ℝ) : ℂ) ^ qc.ops.length) • output qc ω x) ((((1 + ε : ℝ) : ℂ) ^ qc.ops.length) • output qc ω x) = .notEquivalent := by
      unfold equalsVector
      rw [if_neg (by simp [exactOverlap]), if_neg, if_neg]
      · rw [(exactOverlap n thr).fidClose_iff]
        show ¬ |(Spec.inner _ _).re * (Spec.inner _ _).re + (Spec.inner _ _).im * (Spec.inner _ _).im - 1| < thr
        rw [hov, Complex.ofReal_re, Complex.ofReal_im, abs_of_nonneg (by nlinarith), not_lt]
        nlinarith
      · rw [(exactOverlap n thr).realClose_iff]
        show ¬ |(Spec.inner _ _).re - 1| < thr
        rw [hov, Complex.ofReal_re, abs_of_nonneg (by linarith), not_lt]
        exact hbig
    rw [hv]

theorem scaledMatrix_applyAll (ε : ℝ) (l : List (Op n)) (σ : Equiv.Perm (Fin n)) (z : ℂ) (d : Mat n) :
    applyAll (scaledMatrix n ε) .left l σ (z • d) =
      ((applyAll (exactMatrix n fun _ _ d => d) .left l σ d).1,
        (((1 + ε : ℝ) : ℂ) ^ l.length * z) • (applyAll (exactMatrix n fun _ _ d => d) .left l σ d).2) := by
  induction l generalizing σ z d with
  | nil => simp [applyAll]
  | cons o r ih =>
    simp only [applyAll]
    have e : (scaledMatrix n ε).applyOp .left o σ (z • d) =
        (((exactMatrix n fun _ _ d => d).applyOp .left o σ d).1,
          (((1 + ε : ℝ) : ℂ) * z) • ((exactMatrix n fun _ _ d => d).applyOp .left o σ d).2) := by
      simp only [Backend.applyOp, scaledMatrix, exactMatrix]
      rw [Matrix.mul_smul, smul_smul]
    rw [e]
    simp only
    rw [ih]
    congr 2
    rw [List.length_cons, pow_succ]; ring

theorem scaledMatrix_final (ε : ℝ) {qc : QC n} {ω : Equiv.Perm (Fin n)} (hq : WellFormed qc ω) (hout : qc.outputPermutation = [])
    (hanc : qc.ancillary = []) :
    finalObject (scaledMatrix n ε) false qc (constructionInit (scaledMatrix n ε) 1 qc) =
      (((1 + ε : ℝ) : ℂ) ^ qc.ops.length) • funcOf qc ω := by
  have hp : (ancProj [] : Mat n) = 1 := ancProj_none [] fun q => by simp
  have e : constructionInit (scaledMatrix n ε) 1 qc = 1 := by
    show reduceAncillae qc.ancillary true 1 = 1
    rw [hanc]; simp [reduceAncillae, hp]
  have ex := construction_object (fun _ _ d => d) hq
  rw [hanc, hp, Matrix.mul_one] at ex
  rw [← ex]
  have e' : constructionInit (exactMatrix n fun _ _ d => d) 1 qc = 1 := e
  rw [e, e']
  unfold finalObject
  have := scaledMatrix_applyAll ε qc.ops qc.initialLayout 1 1
  rw [one_smul, mul_one] at this
  simp only [this, hout, hanc, Bool.false_eq_true, if_false]
  show reduceAncillae [] true _ = _ • reduceAncillae [] true _
  simp only [reduceAncillae, if_true, hp, Matrix.mul_one]
  rfl

/-! ## A borderline case of `equals` -/

/-- The phase gate with factor `z`. -/
noncomputable def phaseGate (z : ℂ) : Gate 1 := gate1 (fun a b => if a = b then (if a then z else 1) else 0) 0

theorem phaseGate_valid {z : ℂ} (hz : ‖z‖ = 1) : (phaseGate z).Valid :=
  gate1_valid _ 0 (by
    have hzz : z * star z = 1 := by
      rw [Complex.star_def, Complex.mul_conj, Complex.normSq_eq_norm_sq, hz]; norm_num
    intro a b
    cases a <;> cases b <;> simp_all)

theorem outValid_nil : OutValid ([] : List (Fin 1 × Fin 1)) := ⟨by simp, by simp⟩

/-- One phase gate. -/
noncomputable def onePhase (z : ℂ) : QC 1 := { ops := [.simple (.gate (phaseGate z))], initialLayout := 1, outputPermutation := [] }

/-- The same with a barrier behind it. -/
noncomputable def phaseBarrier (z : ℂ) : QC 1 :=
  { ops := [.simple (.gate (phaseGate z)), .simple .barrier], initialLayout := 1, outputPermutation := [] }

theorem onePhase_ok {z : ℂ} (hz : ‖z‖ = 1) : WellFormed (onePhase z) 1 where
  ops o ho := by
    simp only [onePhase, List.mem_singleton] at ho
    subst ho
    exact phaseGate_valid hz
  out := outValid_nil
  labels := rfl

theorem phaseBarrier_ok {z : ℂ} (hz : ‖z‖ = 1) : WellFormed (phaseBarrier z) 1 where
  ops o ho := by
    simp only [phaseBarrier, List.mem_cons, List.not_mem_nil, or_false] at ho
    rcases ho with rfl | rfl
    · exact phaseGate_valid hz
    · trivial
  out := outValid_nil
  labels := rfl

theorem phase_same (z : ℂ) : Same [] (onePhase z) 1 (phaseBarrier z) 1 := fun v _ => by
  simp [output, onePhase, phaseBarrier, execute, Op.phys, SOp.phys]

theorem onePhase_func (z : ℂ) : funcOf (onePhase z) 1 = Matrix.diagonal fun x : Basis 1 => if x 0 then z else 1 := by
  have : funcOf (onePhase z) 1 = (phaseGate z).mat := by
    show view 1 1 (1 * (phaseGate z).mat) = _
    rw [Matrix.one_mul]; rfl
  rw [this]
  funext x y
  unfold phaseGate
  rw [gate1_mat, if_pos (fun q hq => absurd (Subsingleton.elim q 0) hq), Matrix.diagonal_apply]
  have hxy : x 0 = y 0 ↔ x = y := ⟨fun h => by funext q; rw [Subsingleton.elim q 0, h], fun h => by rw [h]⟩
  by_cases h : x = y
  · rw [if_pos h, if_pos (hxy.mpr h)]
  · rw [if_neg h, if_neg (fun h' => h (hxy.mp h'))]

theorem phaseBarrier_func (z : ℂ) : funcOf (phaseBarrier z) 1 = funcOf (onePhase z) 1 := by
  show view 1 1 (1 * (1 : Mat 1) * (phaseGate z).mat) = view 1 1 (1 * (phaseGate z).mat)
  simp

theorem stretch_entry {c : ℝ} {A : Mat n} (h : Stretch c A) (x : Basis n) : ‖A x x‖ ≤ c := by
  have h1 := h (Pi.single x 1)
  have h2 : nrm (Pi.single x (1 : ℂ)) = 1 := by
    unfold nrm
    rw [Finset.sum_eq_single x]
    · simp
    · intro y _ hy; simp [hy]
    · simp
  rw [h2, mul_one] at h1
  refine le_trans ?_ h1
  unfold nrm
  apply Real.le_sqrt_of_sq_le
  rw [← Complex.normSq_eq_norm_sq]
  have h3 : A x x = (A.mulVec (Pi.single x 1)) x := by simp
  rw [h3]
  exact Finset.single_le_sum (f := fun y => Complex.normSq ((A.mulVec (Pi.single x 1)) y)) (fun _ _ => Complex.normSq_nonneg _)
    (Finset.mem_univ x)

open Classical in
/-- Tests that accept exactly what lies within `θ₀` of a phase times the identity, and in addition one matrix `e` within `θ`. -/
noncomputable def oddTests (θ θ₀ : ℝ) (hθ : θ₀ ≤ θ) (e : Mat 1) (he : Stretch θ (e - 1)) :
    RoundedMatrixTests (fun d : Mat 1 => d) θ θ₀ where
  close d := decide (d = e ∨ ∃ c : ℂ, ‖c‖ = 1 ∧ Stretch θ₀ (d - c • (1 : Mat 1)))
  wOne d := decide (Stretch θ₀ (d - 1))
  isId d := decide (∃ c : ℂ, d = c • (1 : Mat 1))
  isId_sound d h := by simpa using h
  close_sound d h := by
    rw [decide_eq_true_iff] at h
    rcases h with rfl | ⟨c, _, hc⟩
    · exact ⟨1, by rwa [one_smul]⟩
    · exact ⟨c, hc.mono hθ⟩
  wOne_sound d _ h := by
    rw [decide_eq_true_iff] at h
    exact h.mono hθ
  close_complete d c hc h := by
    rw [decide_eq_true_iff]
    exact Or.inr ⟨c, hc, h⟩
  wOne_complete d h := by rw [decide_eq_true_iff]; exact h

theorem oddTests_close {θ θ₀ : ℝ} (hθ : θ₀ ≤ θ) (e : Mat 1) (he : Stretch θ (e - 1)) (d : Mat 1) :
    (oddTests θ θ₀ hθ e he).close d = true ↔ (d = e ∨ ∃ c : ℂ, ‖c‖ = 1 ∧ Stretch θ₀ (d - c • (1 : Mat 1))) := by
  unfold oddTests
  simp only [decide_eq_true_iff]

/-- No two diagrams share a node; the product with the adjoint is exact. -/
def exactPair : RoundedPair (fun d : Mat 1 => d) 0 where
  ptrEq _ _ := false
  wEq _ _ := false
  mulDagger e f := e * fᴴ
  ptrEq_sound _ _ h := absurd h (by simp)
  mulDagger_error e f c c' h h' := by
    rw [sub_self]
    exact stretch_zero (by simp)

/-- **C73** (a borderline case, finding 33): two circuits with the same functionality `diag(1, z)`, `z` close to one, a package with
relative error `ε` and tests that accept within `θ` and everything within `θ₀`.  The accumulated error of the product of one matrix with
the adjoint of the other is below `θ₀`, so that the product would be found close to the identity – but `equals` does not look at it, because
the package finds the first matrix close to the identity and the second, slightly different one not: `NotEquivalent`. -/
theorem rounding_borderline {z : ℂ} (hz : ‖z‖ = 1) (hz1 : z ≠ 1) {ε : ℝ} (hε : 0 < ε) (hsmall : (1 + ε) ^ 7 - 1 ≤ ‖z - 1‖ / 8)
    (prev : Criterion) :
    Same [] (onePhase z) 1 (phaseBarrier z) 1 ∧ RoundedMatrix (scaledMatrix 1 ε) (fun d => d) ε ∧
    ∃ (R : RoundedMatrixTests (fun d : Mat 1 => d) (2 * ‖z - 1‖) (‖z - 1‖ / 8)) (s : _),
      (1 + 0) * ((1 + accumulated ε 0 (cost (onePhase z) + 2)) * (1 + accumulated ε 0 (cost (phaseBarrier z) + 2))) - 1 ≤ ‖z - 1‖ / 8 ∧
      R.close (exactPair.mulDagger s.d1 s.d2) = true ∧ R.close s.d1 = true ∧ R.close s.d2 = false ∧
      runTwo (scaledMatrix 1 ε) oneToOneScheme false (equalsMatrix exactPair.ptrEq exactPair.wEq R.close exactPair.mulDagger)
        (fun _ => false) prev (onePhase z) (phaseBarrier z) (constructionInit (scaledMatrix 1 ε) 1 (onePhase z))
        (constructionInit (scaledMatrix 1 ε) 1 (phaseBarrier z)) ((onePhase z).ops.length + (phaseBarrier z).ops.length + 2)
          = .ok (.notEquivalent, s) := by
  have hb := scaledMatrix_rounded 1 hε.le
  have ht : 0 < ‖z - 1‖ := norm_pos_iff.mpr (sub_ne_zero.mpr hz1)
  have f1 := scaledMatrix_final ε (onePhase_ok hz) rfl rfl
  have f2 := scaledMatrix_final ε (phaseBarrier_ok hz) rfl rfl
  rw [phaseBarrier_func] at f2
  have l1 : (onePhase z).ops.length = 1 := rfl
  have l2 : (phaseBarrier z).ops.length = 2 := rfl
  have p1 : 1 ≤ (1 + ε) ^ 6 := one_le_pow₀ (by linarith)
  have hε8 : ε ≤ ‖z - 1‖ / 8 := by
    have : (1 + ε) ^ 7 = (1 + ε) ^ 6 * (1 + ε) := by ring
    nlinarith
  rw [l1, pow_one] at f1
  rw [l2] at f2
  let E : Mat 1 := ((1 + ε : ℝ) : ℂ) • funcOf (onePhase z) 1
  have hE1 : Stretch (2 * ‖z - 1‖) (E - 1) := by
    have a : Stretch ε (E - funcOf (onePhase z) 1) := by
      have e : E - funcOf (onePhase z) 1 = (ε : ℂ) • funcOf (onePhase z) 1 := by
        show ((1 + ε : ℝ) : ℂ) • _ - _ = _
        rw [Complex.ofReal_add, add_smul, Complex.ofReal_one, one_smul, add_sub_cancel_left]
      rw [e]
      have := stretch_smul (stretch_unitary _ (funcOf_unitary (onePhase z) 1 (onePhase_ok hz).ops)) (ε : ℂ)
      rwa [Complex.norm_real, Real.norm_of_nonneg hε.le, mul_one] at this
    have c : Stretch ‖z - 1‖ (funcOf (onePhase z) 1 - 1) := by
      rw [onePhase_func, ← Matrix.diagonal_one, Matrix.diagonal_sub]
      intro v
      unfold nrm
      rw [← Real.sqrt_sq ht.le, ← Real.sqrt_mul (sq_nonneg _)]
      apply Real.sqrt_le_sqrt
      rw [Finset.mul_sum]
      apply Finset.sum_le_sum
      intro x _
      rw [Matrix.mulVec_diagonal, Complex.normSq_mul]
      apply mul_le_mul_of_nonneg_right _ (Complex.normSq_nonneg _)
      split
      · rw [Complex.normSq_eq_norm_sq]
      · simp only [sub_self, map_zero]; positivity
    exact (a.tri c).mono (by linarith)
  let R := oddTests (2 * ‖z - 1‖) (‖z - 1‖ / 8) (by linarith) E hE1
  obtain ⟨s, h | h⟩ := runTwo_spec (scaledMatrix 1 ε) oneToOneScheme false (equalsMatrix exactPair.ptrEq exactPair.wEq R.close exactPair.mulDagger)
    (fun _ => false) (fun _ _ _ h => h) prev (onePhase z) (phaseBarrier z) (oneToOneConfigured _ _).good
    (constructionInit (scaledMatrix 1 ε) 1 (onePhase z)) (constructionInit (scaledMatrix 1 ε) 1 (phaseBarrier z)) _ (Nat.le_refl _)
  · exact absurd h.1 (by simp)
  obtain ⟨_, hr, _, _, hd1, hd2⟩ := h
  rw [f1] at hd1 hr
  rw [f2] at hd2 hr
  have c1 : cost (onePhase z) = 1 := rfl
  have c2 : cost (phaseBarrier z) = 2 := rfl
  have k1 : R.close s.d1 = true := by
    rw [oddTests_close, hd1]
    exact Or.inl rfl
  have k2 : R.close s.d2 = false := by
    rw [Bool.eq_false_iff, Ne, oddTests_close, hd2]
    rintro (heq | ⟨c, _, hc⟩)
    · have := congrFun (congrFun heq (fun _ => false)) (fun _ => false)
      rw [show E = ((1 + ε : ℝ) : ℂ) • funcOf (onePhase z) 1 from rfl, onePhase_func] at this
      simp only [Matrix.smul_apply, Matrix.diagonal_apply_eq, Bool.false_eq_true, if_false, smul_eq_mul, mul_one, ← Complex.ofReal_pow,
        Complex.ofReal_inj] at this
      nlinarith
    · have e0 := stretch_entry hc (fun _ => false)
      have e1 := stretch_entry hc (fun _ => true)
      rw [onePhase_func] at e0 e1
      simp only [Matrix.sub_apply, Matrix.smul_apply, Matrix.diagonal_apply_eq, Bool.false_eq_true, if_false, if_true, smul_eq_mul, mul_one,
        Matrix.one_apply_eq] at e0 e1
      have e2 : ((1 + ε : ℝ) : ℂ) ^ 2 * (z - 1) = (((1 + ε : ℝ) : ℂ) ^ 2 * z - c) - (((1 + ε : ℝ) : ℂ) ^ 2 - c) := by ring
      have e3 : ‖((1 + ε : ℝ) : ℂ) ^ 2 * (z - 1)‖ ≤ ‖z - 1‖ / 8 + ‖z - 1‖ / 8 := by
        rw [e2]
        exact le_trans (norm_sub_le _ _) (add_le_add e1 e0)
      rw [norm_mul, norm_pow, Complex.norm_real, Real.norm_of_nonneg (by linarith)] at e3
      have e4 : 1 ≤ (1 + ε) ^ 2 := one_le_pow₀ (by linarith)
      nlinarith
  refine ⟨phase_same z, hb, R, s, ?_, ?_, k1, k2, ?_⟩
  · rw [c1, c2]
    unfold accumulated
    have : (1 + 0) * ((1 + ((1 + ε) ^ (1 + 2) * (1 + 0) - 1)) * (1 + ((1 + ε) ^ (2 + 2) * (1 + 0) - 1))) - 1 = (1 + ε) ^ 7 - 1 := by ring
    rw [this]
    exact hsmall
  · apply R.close_complete _ 1 (by simp)
    rw [hd1, hd2]
    show Stretch _ ((((1 + ε : ℝ) : ℂ) • funcOf (onePhase z) 1) * ((((1 + ε : ℝ) : ℂ) ^ 2) • funcOf (onePhase z) 1)ᴴ - _)
    rw [Matrix.conjTranspose_smul, Matrix.smul_mul, Matrix.mul_smul, funcOf_unitary (onePhase z) 1 (onePhase_ok hz).ops, smul_smul, ← sub_smul]
    have e : ((1 + ε : ℝ) : ℂ) * star (((1 + ε : ℝ) : ℂ) ^ 2) - 1 = (((1 + ε) ^ 3 - 1 : ℝ) : ℂ) := by
      rw [← Complex.ofReal_pow, Complex.star_def, Complex.conj_ofReal]
      push_cast
      ring
    rw [e]
    have := stretch_smul (stretch_one (n := 1)) (((1 + ε) ^ 3 - 1 : ℝ) : ℂ)
    rw [Complex.norm_real, Real.norm_of_nonneg (pow_sub_nonneg hε.le _), mul_one] at this
    refine this.mono ?_
    have : (1 + ε) ^ 3 ≤ (1 + ε) ^ 7 := pow_le_pow_right₀ (by linarith) (by norm_num)
    linarith
  · rw [hr, ← hd1, ← hd2]
    unfold equalsMatrix
    rw [if_neg (by simp [exactPair])]
    simp [k1, k2]

/-! ## Concrete cases -/

/-- The default fidelity threshold `1e-8` leaves room for errors of `1e-15` per multiplication in the two circuits
`SWAP; X; SWAP` and `X` (hypotheses of `rounding_budget` are met by a package that really rounds). -/
theorem rounding_budget_case : ∃ v s, runTwo (scaledVector 2 (1 / 10 ^ 15)) oneToOneScheme false
    (equalsVector (exactOverlap 2 (1 / 10 ^ 8)).ptrEq (exactOverlap 2 (1 / 10 ^ 8)).wEq (exactOverlap 2 (1 / 10 ^ 8)).realClose
      (exactOverlap 2 (1 / 10 ^ 8)).fidClose) (fun _ => false) .noInformation swapXswap justX1 ket00 ket00 6 = .ok (v, s) ∧
    v ≠ .notEquivalent := by
  have c1 : cost swapXswap = 5 := rfl
  have c2 : cost justX1 = 3 := rfl
  refine rounding_budget (δ := 0) le_rfl (scaledVector_rounded 2 (by norm_num)) (exactOverlap 2 (1 / 10 ^ 8)) swapXswap justX1 1 1
    swapXswap_wf justX1_wf oneToOneScheme (oneToOneConfigured _ _) .noInformation ket00 (by simp [Normalised, Spec.inner, ket00]) ket00
    (by rw [sub_self, nrm_zero]) ?_ ?_ [] (fun y _ q hq => by simp at hq) (same_imp_phase swapXswap_same_justX1)
  · rw [c1, c2]; norm_num
  · rw [c1, c2]; show _ < (1 / 10 ^ 8 : ℝ); norm_num

/-- The borderline case with the gate `S = diag(1, i)` (hypotheses of `rounding_borderline` are met). -/
theorem rounding_borderline_case : ∃ (R : RoundedMatrixTests (fun d : Mat 1 => d) (2 * ‖Complex.I - 1‖) (‖Complex.I - 1‖ / 8)) (s : _),
    runTwo (scaledMatrix 1 (1 / 1000)) oneToOneScheme false (equalsMatrix exactPair.ptrEq exactPair.wEq R.close exactPair.mulDagger)
      (fun _ => false) .noInformation (onePhase Complex.I) (phaseBarrier Complex.I)
      (constructionInit (scaledMatrix 1 (1 / 1000)) 1 (onePhase Complex.I))
      (constructionInit (scaledMatrix 1 (1 / 1000)) 1 (phaseBarrier Complex.I)) 5 = .ok (.notEquivalent, s) := by
  have hge : 1 ≤ ‖Complex.I - 1‖ := by
    have := Complex.abs_im_le_norm (Complex.I - 1)
    simpa using this
  obtain ⟨_, _, R, s, _, _, _, _, h⟩ := rounding_borderline (z := Complex.I) (by simp)
    (by intro h; have := congrArg Complex.re h; simp at this) (ε := 1 / 1000) (by norm_num)
    (le_trans (by norm_num) (div_le_div_of_nonneg_right hge (by norm_num))) .noInformation
  exact ⟨R, s, h⟩

open Classical in
/-- Tests that accept exactly what lies within `θ` of what they look for. -/
noncomputable def sharpTests (n : Nat) (θ : ℝ) : RoundedMatrixTests (fun d : Mat n => d) θ θ where
  close d := decide (∃ c : ℂ, Stretch θ (d - c • (1 : Mat n)))
  wOne d := decide (Stretch θ (d - 1))
  isId d := decide (∃ c : ℂ, d = c • (1 : Mat n))
  isId_sound d h := by simpa using h
  close_sound d h := by simpa using h
  wOne_sound d _ h := by simpa using h
  close_complete d c _ h := by rw [decide_eq_true_iff]; exact ⟨c, h⟩
  wOne_complete d h := by rw [decide_eq_true_iff]; exact h

/-- The alternating check with a package that rounds (hypotheses of `rounding_alternating_verdict` are met): `Equivalent`. -/
theorem rounding_alternating_case : ∃ s, runAlt (scaledMatrix 2 (1 / 1000)) (sharpTests 2 (1 / 10)).isId (fun _ _ => false)
    (.counts oneToOneScheme) (altVerdict (sharpTests 2 (1 / 10)).close (sharpTests 2 (1 / 10)).wOne) (fun _ => false) .noInformation
    swapXswap justX1 (altInit (scaledMatrix 2 (1 / 1000)) 1 2 swapXswap justX1) 6 = .ok (.equivalent, s) := by
  obtain ⟨v, s, hr, _, _, h, _⟩ := rounding_alternating_verdict (scaledMatrix_rounded 2 (ε := 1 / 1000) (by norm_num)) swapXswap justX1 1 1
    swapXswap_wf justX1_wf (sharpTests 2 (1 / 10)) (fun _ _ => false) (.counts oneToOneScheme)
    (fun _ => (CancelSafe.disjoint fun _ _ _ _ => rfl).nearSafe _) (.counts _ ⟨oneToOneConfigured _ _⟩) .noInformation 1 rfl (by intro q h; simp [swapXswap] at h)
  have c1 : cost swapXswap = 5 := rfl
  have c2 : cost justX1 = 3 := rfl
  have : v = .equivalent := h (by rw [c1, c2]; unfold accumulated; norm_num) swapXswap_same_justX1
  subst this
  exact ⟨s, hr⟩

/-- A thousand X gates against themselves with an error of one per mille each: refuted (hypotheses of `rounding_false_alarm` are met). -/
theorem rounding_false_alarm_case : ∃ (qc : QC 1) (x : Basis 1 → ℂ) (s : _), Same [] qc 1 qc 1 ∧ qc.ops.length = 1000 ∧
    runTwo (scaledVector 1 (1 / 1000)) oneToOneScheme false (equalsVector (exactOverlap 1 (1 / 10 ^ 8)).ptrEq (exactOverlap 1 (1 / 10 ^ 8)).wEq
      (exactOverlap 1 (1 / 10 ^ 8)).realClose (exactOverlap 1 (1 / 10 ^ 8)).fidClose) (fun _ => false) .noInformation qc qc x x
        (qc.ops.length + qc.ops.length + 2) = .ok (.notEquivalent, s) := by
  let qc : QC 1 := { ops := List.replicate 1000 (.simple (.gate (gX 0))), initialLayout := 1, outputPermutation := [] }
  have hl : qc.ops.length = 1000 := List.length_replicate
  have hm : ∀ (k : Nat), (List.replicate k (Op.simple (SOp.gate (gX 0))) : List (Op 1)).foldl Moved 1 = 1 := by
    intro k
    induction k with
    | zero => rfl
    | succ k ih => rw [List.replicate_succ, List.foldl_cons]; exact ih
  have hq : WellFormed qc 1 := by
    refine ⟨fun o ho => ?_, outValid_nil, ?_⟩
    · rw [List.eq_of_mem_replicate ho]; exact gX_valid 0
    · show 1 = permAfter (List.foldl Moved 1 (List.replicate 1000 (Op.simple (SOp.gate (gX 0))))) []
      rw [hm]
      rfl
  let x : Basis 1 → ℂ := Pi.single (fun _ => false) 1
  have hx : Normalised x := by
    unfold Normalised Spec.inner
    rw [Finset.sum_eq_single (fun _ => false)]
    · simp [x]
    · intro y _ hy; simp [x, hy]
    · simp
  obtain ⟨h1, s, h2⟩ := rounding_false_alarm (ε := 1 / 1000) (thr := 1 / 10 ^ 8) (by norm_num) qc 1 hq rfl x hx (by
    rw [hl]
    have := one_add_mul_le_pow (show (-2 : ℝ) ≤ 1 / 1000 by norm_num) (2 * 1000)
    refine le_trans ?_ (sub_le_sub_right this 1)
    norm_num) .noInformation
  exact ⟨qc, x, s, h1, hl, h2⟩

end QCEC.Props
