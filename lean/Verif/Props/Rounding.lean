import Verif.Lemmas.Rounding
import Verif.Props.DDSem
/-!
# C73: the decision-diagram checkers with rounding errors

`Verif.Spec.Rounding` says what a package with relative error `ε` per multiplication is.  The theorems hold for every such package: any
representation of vectors and matrices, any rounding, any merging of close numbers within the error.
-/
namespace QCEC.Props
open QCEC QCEC.DD QCEC.Sem QCEC.Spec Matrix

variable {n : Nat} {M D : Type} {b : Backend (Op n) (Equiv.Perm (Fin n)) (List (Fin n × Fin n)) M D}

/-- **C73** (simulation, accumulated error): whatever scheme is used, the two states that an uninterrupted simulation check compares are
within `(1 + ε)^k (1 + δ) - 1` of the true outputs, where `k` counts the multiplications of the circuit and `δ` is the error of the
stimulus. -/
theorem rounding_outputs {val : D → Basis n → ℂ} {ε δ : ℝ} (hb : RoundedVector b val ε) (qc1 qc2 : QC n)
    (ω1 ω2 : Equiv.Perm (Fin n)) (h1 : WellFormed qc1 ω1) (h2 : WellFormed qc2 ω2) (sch) (hs : Configured qc1 qc2 sch)
    (verdict : D → D → Criterion) (prev : Criterion) (x : Basis n → ℂ) (hx : Normalised x) (d : D) (hd : nrm (val d - x) ≤ δ) :
    ∃ s, runTwo b sch false verdict (fun _ => false) prev qc1 qc2 d d (qc1.ops.length + qc2.ops.length + 2)
        = .ok (verdict s.d1 s.d2, s) ∧
      nrm (val s.d1 - output qc1 ω1 x) ≤ accumulated ε δ (cost qc1) ∧
      nrm (val s.d2 - output qc2 ω2 x) ≤ accumulated ε δ (cost qc2) := by
  obtain ⟨s, h | h⟩ := runTwo_spec b sch false verdict (fun _ => false) (fun _ _ _ h => h) prev qc1 qc2 hs.good d d _ (Nat.le_refl _)
  · exact absurd h.1 (by simp)
  · obtain ⟨_, hr, _, _, hd1, hd2⟩ := h
    refine ⟨s, by rw [hr, hd1, hd2], ?_, ?_⟩
    · rw [hd1]; exact vec_finalObject hb h1 d x hx hd
    · rw [hd2]; exact vec_finalObject hb h2 d x hx hd

/-- What the run knows about the true outputs when it returns. -/
theorem rounding_overlap {val : D → Basis n → ℂ} {ε δ η w : ℝ} (hη : 0 ≤ η) (hb : RoundedVector b val ε)
    (V : RoundedVectorTests val η w) (qc1 qc2 : QC n) (ω1 ω2 : Equiv.Perm (Fin n)) (h1 : WellFormed qc1 ω1) (h2 : WellFormed qc2 ω2)
    (sch) (hs : Configured qc1 qc2 sch) (prev : Criterion) (x : Basis n → ℂ) (hx : Normalised x) (d : D) (hd : nrm (val d - x) ≤ δ)
    (v s) (hr : runTwo b sch false (equalsVector V.ptrEq V.wEq V.realClose V.fidClose) (fun _ => false) prev
      qc1 qc2 d d (qc1.ops.length + qc2.ops.length + 2) = .ok (v, s)) :
    v = equalsVector V.ptrEq V.wEq V.realClose V.fidClose s.d1 s.d2 ∧
    nrm (val s.d1 - output qc1 ω1 x) ≤ accumulated ε δ (cost qc1) ∧
    nrm (val s.d2 - output qc2 ω2 x) ≤ accumulated ε δ (cost qc2) ∧
    ‖V.overlap s.d1 s.d2 - Spec.inner (output qc1 ω1 x) (output qc2 ω2 x)‖ ≤ overlapError ε δ η qc1 qc2 ∧
    ‖Spec.inner (output qc1 ω1 x) (output qc2 ω2 x)‖ ≤ 1 := by
  obtain ⟨s', hr', e1, e2⟩ := rounding_outputs hb qc1 qc2 ω1 ω2 h1 h2 sch hs (equalsVector V.ptrEq V.wEq V.realClose V.fidClose) prev x hx d hd
  rw [hr] at hr'
  injection hr' with hr'
  injection hr' with hv hss
  subst hss
  have n1 := nrm_normalised (output_normalised qc1 ω1 h1.ops x hx)
  have n2 := nrm_normalised (output_normalised qc2 ω2 h2.ops x hx)
  refine ⟨hv, e1, e2, overlap_close _ _ _ _ _ η _ _ hη n1 n2 e1 e2 (V.overlap_error _ _), ?_⟩
  have := inner_bound (output qc1 ω1 x) (output qc2 ω2 x)
  rwa [n1, n2, one_mul] at this

/-- **C73** (no false alarm): as long as the accumulated error `κ` satisfies `2 κ + κ² < threshold`, a simulation never refutes circuits
that are equivalent up to a global phase. -/
theorem rounding_never_refutes {val : D → Basis n → ℂ} {ε δ η w : ℝ} (hη : 0 ≤ η) (hb : RoundedVector b val ε)
    (V : RoundedVectorTests val η w) (qc1 qc2 : QC n) (ω1 ω2 : Equiv.Perm (Fin n)) (h1 : WellFormed qc1 ω1) (h2 : WellFormed qc2 ω2)
    (sch) (hs : Configured qc1 qc2 sch) (prev : Criterion) (x : Basis n → ℂ) (hx : Normalised x) (d : D) (hd : nrm (val d - x) ≤ δ)
    (hκ : 2 * overlapError ε δ η qc1 qc2 + overlapError ε δ η qc1 qc2 ^ 2 < V.threshold)
    (anc : List Bool) (ha : AncillasZero anc x) (hsame : SameUpToPhase anc qc1 ω1 qc2 ω2) :
    ∃ v s, runTwo b sch false (equalsVector V.ptrEq V.wEq V.realClose V.fidClose) (fun _ => false) prev
        qc1 qc2 d d (qc1.ops.length + qc2.ops.length + 2) = .ok (v, s) ∧ v ≠ .notEquivalent := by
  obtain ⟨s, hr, _, _⟩ := rounding_outputs hb qc1 qc2 ω1 ω2 h1 h2 sch hs (equalsVector V.ptrEq V.wEq V.realClose V.fidClose) prev x hx d hd
  refine ⟨_, s, hr, ?_⟩
  obtain ⟨_, _, _, ho, hle⟩ := rounding_overlap hη hb V qc1 qc2 ω1 ω2 h1 h2 sch hs prev x hx d hd _ s hr
  obtain ⟨c, hc, hsm⟩ := hsame
  have hout := hsm x ha
  have hone : Complex.normSq (Spec.inner (output qc1 ω1 x) (output qc2 ω2 x)) = 1 := by
    rw [hout, inner_smul_left, output_normalised qc2 ω2 h2.ops x hx, mul_one, Complex.normSq_eq_norm_sq, norm_star, hc]; norm_num
  have hf := fidelity_close _ _ _ ho hle
  rw [hone] at hf
  unfold equalsVector
  split
  · split <;> simp
  · split
    · simp
    · split
      · simp
      · rename_i hfid
        exfalso
        apply hfid
        rw [V.fidClose_iff, ← Complex.normSq_apply]
        linarith

/-- **C73** (a counterexample is real): if the simulation refutes, the fidelity of the true outputs is at most
`1 - threshold + 2 κ + κ²`; so with `2 κ + κ² < threshold` the circuits are not equivalent, not even up to a global phase. -/
theorem rounding_counterexample {val : D → Basis n → ℂ} {ε δ η w : ℝ} (hη : 0 ≤ η) (hb : RoundedVector b val ε)
    (V : RoundedVectorTests val η w) (qc1 qc2 : QC n) (ω1 ω2 : Equiv.Perm (Fin n)) (h1 : WellFormed qc1 ω1) (h2 : WellFormed qc2 ω2)
    (sch) (hs : Configured qc1 qc2 sch) (prev : Criterion) (x : Basis n → ℂ) (hx : Normalised x) (d : D) (hd : nrm (val d - x) ≤ δ) (s)
    (hr : runTwo b sch false (equalsVector V.ptrEq V.wEq V.realClose V.fidClose) (fun _ => false) prev
      qc1 qc2 d d (qc1.ops.length + qc2.ops.length + 2) = .ok (.notEquivalent, s)) :
    1 - Complex.normSq (Spec.inner (output qc1 ω1 x) (output qc2 ω2 x)) ≥
        V.threshold - (2 * overlapError ε δ η qc1 qc2 + overlapError ε δ η qc1 qc2 ^ 2) ∧
    (2 * overlapError ε δ η qc1 qc2 + overlapError ε δ η qc1 qc2 ^ 2 < V.threshold →
      ∀ anc, AncillasZero anc x → ¬ SameUpToPhase anc qc1 ω1 qc2 ω2) := by
  obtain ⟨hv, _, _, ho, hle⟩ := rounding_overlap hη hb V qc1 qc2 ω1 ω2 h1 h2 sch hs prev x hx d hd _ s hr
  have hf := fidelity_close _ _ _ ho hle
  have hno : ¬ |(V.overlap s.d1 s.d2).re * (V.overlap s.d1 s.d2).re + (V.overlap s.d1 s.d2).im * (V.overlap s.d1 s.d2).im - 1|
      < V.threshold := by
    rw [← V.fidClose_iff]
    intro hfc
    unfold equalsVector at hv
    split at hv
    · split at hv <;> exact absurd hv (by simp)
    · split at hv
      · exact absurd hv (by simp)
      · exact absurd hv (by simp [hfc])
  refine ⟨?_, ?_⟩
  · rw [← Complex.normSq_apply] at hno
    have hone : Complex.normSq (Spec.inner (output qc1 ω1 x) (output qc2 ω2 x)) ≤ 1 := by
      rw [Complex.normSq_eq_norm_sq]
      have := norm_nonneg (Spec.inner (output qc1 ω1 x) (output qc2 ω2 x))
      nlinarith
    have h3 := abs_sub_le (Complex.normSq (V.overlap s.d1 s.d2)) (Complex.normSq (Spec.inner (output qc1 ω1 x) (output qc2 ω2 x))) 1
    have h4 : |Complex.normSq (Spec.inner (output qc1 ω1 x) (output qc2 ω2 x)) - 1| =
        1 - Complex.normSq (Spec.inner (output qc1 ω1 x) (output qc2 ω2 x)) := by
      rw [abs_sub_comm, abs_of_nonneg]; linarith
    rw [h4] at h3
    have h5 := not_lt.mp hno
    linarith
  · intro hκ anc ha hsame
    obtain ⟨v, s', hr', hne⟩ := rounding_never_refutes hη hb V qc1 qc2 ω1 ω2 h1 h2 sch hs prev x hx d hd hκ anc ha hsame
    rw [hr] at hr'
    injection hr' with hr'
    injection hr' with hv _
    exact hne hv.symm

/-- **C73** (what `Equivalent` says): the squared distance of the true outputs is at most `(a₁ + a₂ + w)²` – same diagram – or less than
`2 (threshold + κ)` – overlap test. -/
theorem rounding_equivalent {val : D → Basis n → ℂ} {ε δ η w : ℝ} (hη : 0 ≤ η) (hb : RoundedVector b val ε)
    (V : RoundedVectorTests val η w) (qc1 qc2 : QC n) (ω1 ω2 : Equiv.Perm (Fin n)) (h1 : WellFormed qc1 ω1) (h2 : WellFormed qc2 ω2)
    (sch) (hs : Configured qc1 qc2 sch) (prev : Criterion) (x : Basis n → ℂ) (hx : Normalised x) (d : D) (hd : nrm (val d - x) ≤ δ) (s)
    (hr : runTwo b sch false (equalsVector V.ptrEq V.wEq V.realClose V.fidClose) (fun _ => false) prev
      qc1 qc2 d d (qc1.ops.length + qc2.ops.length + 2) = .ok (.equivalent, s)) :
    nrm (output qc1 ω1 x - output qc2 ω2 x) ≤ accumulated ε δ (cost qc1) + accumulated ε δ (cost qc2) + w ∨
    nrm (output qc1 ω1 x - output qc2 ω2 x) ^ 2 < 2 * (V.threshold + overlapError ε δ η qc1 qc2) := by
  obtain ⟨hv, e1, e2, ho, _⟩ := rounding_overlap hη hb V qc1 qc2 ω1 ω2 h1 h2 sch hs prev x hx d hd _ s hr
  unfold equalsVector at hv
  split at hv
  · rename_i hp
    split at hv
    · rename_i hw
      left
      have h3 := V.wEq_sound _ _ hp hw
      have h4 := nrm_tri (output qc1 ω1 x) (val s.d1) (output qc2 ω2 x)
      have h5 := nrm_tri (val s.d1) (val s.d2) (output qc2 ω2 x)
      rw [nrm_comm] at e1
      linarith
    · exact absurd hv (by simp)
  · split at hv
    · rename_i hre
      right
      rw [V.realClose_iff] at hre
      have n1 := output_normalised qc1 ω1 h1.ops x hx
      have n2 := output_normalised qc2 ω2 h2.ops x hx
      have hd2 := dist_eq _ _ n1 n2
      have hn : nrm (output qc1 ω1 x - output qc2 ω2 x) ^ 2 = ∑ y, Complex.normSq (output qc1 ω1 x y - output qc2 ω2 x y) := by
        rw [nrm, Real.sq_sqrt (Finset.sum_nonneg fun _ _ => Complex.normSq_nonneg _)]; rfl
      rw [hn, hd2]
      have h3 := Complex.abs_re_le_norm (V.overlap s.d1 s.d2 - Spec.inner (output qc1 ω1 x) (output qc2 ω2 x))
      rw [Complex.sub_re] at h3
      have h4 := (abs_le.mp (le_trans h3 ho)).2
      have h5 := (abs_lt.mp hre).1
      linarith
    · split at hv <;> exact absurd hv (by simp)

/-- **C73** (what `EquivalentUpToPhase` says): the fidelity of the true outputs is more than `1 - threshold - 2 κ - κ²` – overlap test –
or at least `1 - ((a₁ + a₂) / (1 - a₂))²` – same diagram. -/
theorem rounding_phase {val : D → Basis n → ℂ} {ε δ η w : ℝ} (hη : 0 ≤ η) (hb : RoundedVector b val ε)
    (V : RoundedVectorTests val η w) (qc1 qc2 : QC n) (ω1 ω2 : Equiv.Perm (Fin n)) (h1 : WellFormed qc1 ω1) (h2 : WellFormed qc2 ω2)
    (sch) (hs : Configured qc1 qc2 sch) (prev : Criterion) (x : Basis n → ℂ) (hx : Normalised x) (d : D) (hd : nrm (val d - x) ≤ δ) (s)
    (hsmall : accumulated ε δ (cost qc2) < 1)
    (hr : runTwo b sch false (equalsVector V.ptrEq V.wEq V.realClose V.fidClose) (fun _ => false) prev
      qc1 qc2 d d (qc1.ops.length + qc2.ops.length + 2) = .ok (.equivalentUpToPhase, s)) :
    1 - Complex.normSq (Spec.inner (output qc1 ω1 x) (output qc2 ω2 x)) ≤
        ((accumulated ε δ (cost qc1) + accumulated ε δ (cost qc2)) / (1 - accumulated ε δ (cost qc2))) ^ 2 ∨
    1 - Complex.normSq (Spec.inner (output qc1 ω1 x) (output qc2 ω2 x)) <
        V.threshold + (2 * overlapError ε δ η qc1 qc2 + overlapError ε δ η qc1 qc2 ^ 2) := by
  obtain ⟨hv, e1, e2, ho, hle⟩ := rounding_overlap hη hb V qc1 qc2 ω1 ω2 h1 h2 sch hs prev x hx d hd _ s hr
  have n1 := output_normalised qc1 ω1 h1.ops x hx
  have n2 := output_normalised qc2 ω2 h2.ops x hx
  unfold equalsVector at hv
  split at hv
  · rename_i hp
    left
    obtain ⟨c, hc⟩ := V.ptrEq_sound _ _ hp
    rw [hc] at e1
    exact fidelity_of_multiple _ _ _ c _ _ n1 n2 e1 e2 hsmall
  · split at hv
    · exact absurd hv (by simp)
    · split at hv
      · rename_i hfid
        right
        rw [V.fidClose_iff, ← Complex.normSq_apply] at hfid
        have hf := (abs_le.mp (fidelity_close _ _ _ ho hle)).2
        have h5 := (abs_lt.mp hfid).1
        linarith
      · exact absurd hv (by simp)

/-- **C73** (a usable bound): if the number of multiplications times the relative error, plus the errors of the stimulus and of the
inner product, is at most a sixth of the threshold, a simulation never refutes equivalent circuits. -/
theorem rounding_budget {val : D → Basis n → ℂ} {ε δ η w : ℝ} (hη : 0 ≤ η) (hb : RoundedVector b val ε)
    (V : RoundedVectorTests val η w) (qc1 qc2 : QC n) (ω1 ω2 : Equiv.Perm (Fin n)) (h1 : WellFormed qc1 ω1) (h2 : WellFormed qc2 ω2)
    (sch) (hs : Configured qc1 qc2 sch) (prev : Criterion) (x : Basis n → ℂ) (hx : Normalised x) (d : D) (hd : nrm (val d - x) ≤ δ)
    (hsmall : (cost qc1 + cost qc2) * ε + 2 * δ + η ≤ 1 / 2)
    (hbudget : 6 * ((cost qc1 + cost qc2) * ε + 2 * δ + η) < V.threshold)
    (anc : List Bool) (ha : AncillasZero anc x) (hsame : SameUpToPhase anc qc1 ω1 qc2 ω2) :
    ∃ v s, runTwo b sch false (equalsVector V.ptrEq V.wEq V.realClose V.fidClose) (fun _ => false) prev
        qc1 qc2 d d (qc1.ops.length + qc2.ops.length + 2) = .ok (v, s) ∧ v ≠ .notEquivalent := by
  have hδ : 0 ≤ δ := le_trans (nrm_nonneg _) hd
  refine rounding_never_refutes hη hb V qc1 qc2 ω1 ω2 h1 h2 sch hs prev x hx d hd ?_ anc ha hsame
  have h3 := overlapError_linear hb.nonneg hδ hη qc1 qc2 hsmall
  have h4 := overlapError_nonneg hb.nonneg hδ hη qc1 qc2
  refine lt_of_le_of_lt ?_ hbudget
  nlinarith

/-! ## Matrices -/

/-- **C73** (alternating, accumulated error): the object that an uninterrupted alternating check ends with takes the true output of the
second circuit to the true output of the first (for inputs in which the common ancillas are `|0⟩`), up to a relative error of
`(1 + ε)^k - 1`, `k` one more than the number of multiplications of both circuits – for every scheme, lookahead included. -/
theorem rounding_alternating {val : D → Mat n} {ε θ θ₀ : ℝ} (hb : RoundedMatrix b val ε) (qc1 qc2 : QC n)
    (ω1 ω2 : Equiv.Perm (Fin n)) (h1 : WellFormed qc1 ω1) (h2 : WellFormed qc2 ω2) (R : RoundedMatrixTests val θ θ₀)
    (opEq : Op n → Op n → Bool) (sch : AltScheme (Op n) (Equiv.Perm (Fin n)) D)
    (hc : sch.Cancels → NearSafe (accumulated ε 0 (cost qc1 + cost qc2 + 1)) opEq qc1 qc2)
    (hs : AltConfigured qc1 qc2 sch) (verdict : D → Criterion) (prev : Criterion) (ident : D) (hi : val ident = 1) :
    ∃ s, runAlt b R.isId opEq sch verdict (fun _ => false) prev qc1 qc2 (altInit b ident n qc1 qc2)
        (qc1.ops.length + qc2.ops.length + 2) = .ok (verdict s.d, s) ∧
      ∀ x, nrm ((val s.d).mulVec (output qc2 ω2 x) -
          output qc1 ω1 ((ancProj (altAncillary n qc1.ancillary qc2.ancillary)).mulVec x)) ≤
        accumulated ε 0 (cost qc1 + cost qc2 + 1) * nrm x := by
  obtain ⟨s, hr, hst⟩ := alternating_rounded' hb qc1 qc2 ω1 ω2 h1 h2 R opEq sch hc hs verdict prev ident hi
  refine ⟨s, hr, fun x => ?_⟩
  have u2 := funcOf_unitary qc2 ω2 h2.ops
  have := hst ((funcOf qc2 ω2).mulVec x)
  have e : (funcOf qc1 ω1 * ancProj (altAncillary n qc1.ancillary qc2.ancillary) * (funcOf qc2 ω2)ᴴ).mulVec ((funcOf qc2 ω2).mulVec x) =
      (funcOf qc1 ω1).mulVec ((ancProj (altAncillary n qc1.ancillary qc2.ancillary)).mulVec x) := by
    rw [Matrix.mulVec_mulVec, Matrix.mul_assoc _ _ (funcOf qc2 ω2), unitary_comm _ u2, Matrix.mul_one, ← Matrix.mulVec_mulVec]
  rw [nrm_unitary _ u2, Matrix.sub_mulVec, e] at this
  rwa [output_eq, output_eq]

/-- **C73** (alternating, verdict): for circuits without common ancillas, with tests that accept only within `θ` and everything within
`θ₀`: a positive verdict bounds the difference of the true outputs on every input; and if the accumulated error is at most `θ₀`,
equivalent circuits are reported equivalent and circuits that are equivalent up to a global phase are not refuted. -/
theorem rounding_alternating_verdict {val : D → Mat n} {ε θ θ₀ : ℝ} (hb : RoundedMatrix b val ε) (qc1 qc2 : QC n)
    (ω1 ω2 : Equiv.Perm (Fin n)) (h1 : WellFormed qc1 ω1) (h2 : WellFormed qc2 ω2) (R : RoundedMatrixTests val θ θ₀)
    (opEq : Op n → Op n → Bool) (sch : AltScheme (Op n) (Equiv.Perm (Fin n)) D)
    (hc : sch.Cancels → NearSafe (accumulated ε 0 (cost qc1 + cost qc2 + 1)) opEq qc1 qc2)
    (hs : AltConfigured qc1 qc2 sch) (prev : Criterion) (ident : D) (hi : val ident = 1)
    (hanc : ∀ q : Fin n, ¬ (qc1.ancillary.getD q.val false = true ∧ qc2.ancillary.getD q.val false = true)) :
    ∃ v s, runAlt b R.isId opEq sch (altVerdict R.close R.wOne) (fun _ => false) prev qc1 qc2 (altInit b ident n qc1 qc2)
        (qc1.ops.length + qc2.ops.length + 2) = .ok (v, s) ∧
      (v = .equivalent → OutputsWithin (θ + accumulated ε 0 (cost qc1 + cost qc2 + 1)) 1 qc1 ω1 qc2 ω2) ∧
      (v = .equivalentUpToGlobalPhase → ∃ c : ℂ, |‖c‖ - 1| ≤ θ + accumulated ε 0 (cost qc1 + cost qc2 + 1) ∧
        OutputsWithin (θ + accumulated ε 0 (cost qc1 + cost qc2 + 1)) c qc1 ω1 qc2 ω2) ∧
      (accumulated ε 0 (cost qc1 + cost qc2 + 1) ≤ θ₀ → Same [] qc1 ω1 qc2 ω2 → v = .equivalent) ∧
      (accumulated ε 0 (cost qc1 + cost qc2 + 1) ≤ θ₀ → SameUpToPhase [] qc1 ω1 qc2 ω2 → v ≠ .notEquivalent) := by
  obtain ⟨s, hr, hst⟩ := alternating_rounded' hb qc1 qc2 ω1 ω2 h1 h2 R opEq sch hc hs (altVerdict R.close R.wOne) prev ident hi
  have hP : (ancProj (altAncillary n qc1.ancillary qc2.ancillary) : Mat n) = 1 := ancProj_none _ fun q => by
    rw [altAncillary_flag, Bool.and_eq_true]; exact hanc q
  rw [hP, Matrix.mul_one] at hst
  have u1 := funcOf_unitary qc1 ω1 h1.ops
  have u2 := funcOf_unitary qc2 ω2 h2.ops
  refine ⟨_, s, hr, ?_, ?_, ?_, ?_⟩
  · intro hv
    unfold altVerdict at hv
    split at hv
    · rename_i hcl
      split at hv
      · rename_i hw
        have := outputs_of_product h1 h2 1 ((hst.comm.tri (by rw [one_smul]; exact R.wOne_sound _ hcl hw)).mono (by linarith) :
          Stretch (θ + accumulated ε 0 (cost qc1 + cost qc2 + 1)) _)
        exact this
      · exact absurd hv (by simp)
    · exact absurd hv (by simp)
  · intro hv
    unfold altVerdict at hv
    split at hv
    · rename_i hcl
      obtain ⟨c, hcs⟩ := R.close_sound _ hcl
      have hm : Stretch (θ + accumulated ε 0 (cost qc1 + cost qc2 + 1)) (funcOf qc1 ω1 * (funcOf qc2 ω2)ᴴ - c • (1 : Mat n)) :=
        (hst.comm.tri hcs).mono (by linarith)
      exact ⟨c, near_phase h1 h2 hm, outputs_of_product h1 h2 c hm⟩
    · exact absurd hv (by simp)
  · intro hθ hsame
    have hF := product_of_same h1 h2 1 hsame
    rw [hF] at hst
    have hst' := hst.mono hθ
    unfold altVerdict
    rw [if_pos (R.close_complete _ 1 (by simp) hst'), if_pos (R.wOne_complete _ (by simpa using hst'))]
  · rintro hθ ⟨c, hcn, hsame⟩
    have hF := product_of_same h1 h2 c hsame
    rw [hF] at hst
    unfold altVerdict
    rw [if_pos (R.close_complete _ c hcn (hst.mono hθ))]
    split <;> simp

/-- **C73** (construction, accumulated error): the two matrices that an uninterrupted construction check compares take every input to the
true output (with the ancillas of that circuit reset to `|0⟩`), up to a relative error of `(1 + ε)^k - 1`, `k` two more than the number of
multiplications of the circuit. -/
theorem rounding_construction {val : D → Mat n} {ε : ℝ} (hb : RoundedMatrix b val ε) (qc1 qc2 : QC n)
    (ω1 ω2 : Equiv.Perm (Fin n)) (h1 : WellFormed qc1 ω1) (h2 : WellFormed qc2 ω2) (sch) (hs : Configured qc1 qc2 sch)
    (verdict : D → D → Criterion) (prev : Criterion) (ident : D) (hi : val ident = 1) :
    ∃ s, runTwo b sch false verdict (fun _ => false) prev qc1 qc2 (constructionInit b ident qc1) (constructionInit b ident qc2)
        (qc1.ops.length + qc2.ops.length + 2) = .ok (verdict s.d1 s.d2, s) ∧
      (∀ x, nrm ((val s.d1).mulVec x - output qc1 ω1 ((ancProj qc1.ancillary).mulVec x)) ≤ accumulated ε 0 (cost qc1 + 2) * nrm x) ∧
      (∀ x, nrm ((val s.d2).mulVec x - output qc2 ω2 ((ancProj qc2.ancillary).mulVec x)) ≤ accumulated ε 0 (cost qc2 + 2) * nrm x) := by
  obtain ⟨s, h | h⟩ := runTwo_spec b sch false verdict (fun _ => false) (fun _ _ _ h => h) prev qc1 qc2 hs.good
    (constructionInit b ident qc1) (constructionInit b ident qc2) _ (Nat.le_refl _)
  · exact absurd h.1 (by simp)
  · obtain ⟨_, hr, _, _, hd1, hd2⟩ := h
    refine ⟨s, by rw [hr, hd1, hd2], fun x => ?_, fun x => ?_⟩
    · rw [hd1, output_eq, Matrix.mulVec_mulVec, ← Matrix.sub_mulVec]
      exact (construction_rounded hb h1 ident hi).1 x
    · rw [hd2, output_eq, Matrix.mulVec_mulVec, ← Matrix.sub_mulVec]
      exact (construction_rounded hb h2 ident hi).1 x

/-- **C73** (construction, verdict): for circuits without ancillas: a positive verdict means that for some factor of modulus close to one
the true outputs of all inputs are close.  A circuit pair that is equivalent up to a global phase is refuted only if the package finds
exactly one of the two matrices close to the identity (`equals` then does not look at the product any more, and this happens,
`rounding_borderline`) or if the accumulated error exceeds `θ₀`. -/
theorem rounding_construction_verdict_partial {val : D → Mat n} {ε η θ θ₀ : ℝ} (hη : 0 ≤ η) (hb : RoundedMatrix b val ε) (qc1 qc2 : QC n)
    (ω1 ω2 : Equiv.Perm (Fin n)) (h1 : WellFormed qc1 ω1) (h2 : WellFormed qc2 ω2) (R : RoundedMatrixTests val θ θ₀) (Q : RoundedPair val η)
    (sch) (hs : Configured qc1 qc2 sch) (prev : Criterion) (ident : D) (hi : val ident = 1)
    (hanc : ∀ q : Fin n, qc1.ancillary.getD q.val false = false ∧ qc2.ancillary.getD q.val false = false) :
    ∃ v s, runTwo b sch false (equalsMatrix Q.ptrEq Q.wEq R.close Q.mulDagger) (fun _ => false) prev qc1 qc2
        (constructionInit b ident qc1) (constructionInit b ident qc2) (qc1.ops.length + qc2.ops.length + 2) = .ok (v, s) ∧
      (θ + accumulated ε 0 (cost qc2 + 2) < 1 → 0 ≤ θ → v ≠ .notEquivalent →
        (∃ c : ℂ, OutputsWithin ((2 * θ + accumulated ε 0 (cost qc1 + 2) + accumulated ε 0 (cost qc2 + 2)) /
            (1 - (θ + accumulated ε 0 (cost qc2 + 2)))) c qc1 ω1 qc2 ω2) ∨
        (∃ c : ℂ, OutputsWithin (θ + (1 + η) * ((1 + accumulated ε 0 (cost qc1 + 2)) * (1 + accumulated ε 0 (cost qc2 + 2))) - 1)
            c qc1 ω1 qc2 ω2)) ∧
      ((1 + η) * ((1 + accumulated ε 0 (cost qc1 + 2)) * (1 + accumulated ε 0 (cost qc2 + 2))) - 1 ≤ θ₀ →
        SameUpToPhase [] qc1 ω1 qc2 ω2 → v = .notEquivalent → R.close s.d1 ≠ R.close s.d2) := by
  obtain ⟨s, h | h⟩ := runTwo_spec b sch false (equalsMatrix Q.ptrEq Q.wEq R.close Q.mulDagger) (fun _ => false) (fun _ _ _ h => h)
    prev qc1 qc2 hs.good (constructionInit b ident qc1) (constructionInit b ident qc2) _ (Nat.le_refl _)
  · exact absurd h.1 (by simp)
  obtain ⟨_, hr, _, _, hd1, hd2⟩ := h
  have o1 := (construction_rounded hb h1 ident hi).1
  have o2 := (construction_rounded hb h2 ident hi).1
  rw [ancProj_none _ (fun q => by rw [(hanc q).1]; simp), Matrix.mul_one] at o1
  rw [ancProj_none _ (fun q => by rw [(hanc q).2]; simp), Matrix.mul_one] at o2
  refine ⟨_, s, hr, ?_, ?_⟩
  · intro hlt hθ hv
    generalize finalObject b false qc1 (constructionInit b ident qc1) = e at *
    generalize finalObject b false qc2 (constructionInit b ident qc2) = f at *
    have a1 := accumulated_nonneg hb.nonneg (le_refl 0) (cost qc1 + 2)
    have a2 := accumulated_nonneg hb.nonneg (le_refl 0) (cost qc2 + 2)
    generalize accumulated ε 0 (cost qc1 + 2) = α at *
    generalize accumulated ε 0 (cost qc2 + 2) = β at *
    unfold equalsMatrix at hv
    by_cases hp : Q.ptrEq e f = true
    · left
      obtain ⟨c, hc⟩ := Q.ptrEq_sound _ _ hp
      refine ⟨c, outputs_multiple h1 h2 c α β _ (by linarith) ?_ o2 ?_⟩
      · rw [← hc]; exact o1
      · rw [div_le_div_iff₀ (by linarith) (by linarith)]
        nlinarith [mul_nonneg a1 hθ, mul_nonneg a2 hθ, mul_nonneg a1 a2, mul_nonneg hθ hθ]
    · rw [if_neg hp] at hv
      simp only at hv
      by_cases hany : (R.close e || R.close f) = true
      · rw [if_pos hany] at hv
        by_cases hboth : (R.close e && R.close f) = true
        · left
          rw [Bool.and_eq_true] at hboth
          obtain ⟨c, hc⟩ := R.close_sound _ hboth.1
          obtain ⟨c', hc'⟩ := R.close_sound _ hboth.2
          exact outputs_both_close h1 h2 c c' (θ + α) (θ + β) _ hlt ((o1.comm.tri hc).mono (by linarith))
            ((o2.comm.tri hc').mono (by linarith)) (le_of_eq (by ring))
        · rw [if_neg hboth] at hv; exact absurd rfl hv
      · rw [if_neg hany] at hv
        by_cases hm : R.close (Q.mulDagger e f) = true
        · right
          obtain ⟨c, hc⟩ := R.close_sound _ hm
          have hd := dagger_close h1 h2 Q hη o1 o2
          exact ⟨c, outputs_of_product h1 h2 c ((hd.comm.tri hc).mono (by linarith))⟩
        · rw [if_neg hm] at hv; exact absurd rfl hv
  · rintro hθ ⟨c, hcn, hsame⟩ hv
    rw [hd1, hd2]
    generalize finalObject b false qc1 (constructionInit b ident qc1) = e at *
    generalize finalObject b false qc2 (constructionInit b ident qc2) = f at *
    intro hcc
    unfold equalsMatrix at hv
    rw [hcc] at hv
    split at hv
    · split at hv <;> exact absurd hv (by simp)
    · have hd := dagger_close h1 h2 Q hη o1 o2
      rw [product_of_same h1 h2 c hsame] at hd
      have hm := R.close_complete _ c hcn (hd.mono hθ)
      simp only [Bool.or_self, Bool.and_self, hm] at hv
      cases hf : R.close f <;> simp only [hf, if_true, Bool.false_eq_true, if_false] at hv <;>
        (split at hv <;> exact absurd hv (by simp))

end QCEC.Props
