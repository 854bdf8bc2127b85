import Verif.Lemmas.RoundingPartial
import Verif.Props.PartialEquivalence
/-!
# C93: checking partial equivalence with rounding errors

`check_partial_equivalence` with a package that rounds (`Verif/Spec/Rounding.lean`, `Verif/Spec/RoundingPartial.lean`): the alternating and the
simulation checker.
-/
namespace QCEC.Props
open QCEC QCEC.DD QCEC.Sem QCEC.Spec Matrix

variable {n : Nat} {M D : Type} {b : Backend (Op n) (Equiv.Perm (Fin n)) (List (Fin n × Fin n)) M D}

/-- **C93** (the notion): partial equivalence up to `0` is partial equivalence as documented. -/
theorem partially_within_zero (g anc : List Bool) (qc1 qc2 : QC n) (ω1 ω2 : Equiv.Perm (Fin n)) :
    PartiallyWithin 0 g anc qc1 ω1 qc2 ω2 ↔ PartiallyEquivalent g anc qc1 ω1 qc2 ω2 := by
  constructor
  · intro h v hv k
    have hobs : Observable g (Finset.univ.filter fun x : Basis n => Agree g x k) := by
      intro x y hxy
      simp only [Finset.mem_filter, Finset.mem_univ, true_and]
      exact ⟨fun hx => Agree.trans (Agree.symm hxy) hx, fun hy => Agree.trans hxy hy⟩
    have hp : ∀ u : Basis n → ℂ, prob g u k = likelihood (Finset.univ.filter fun x : Basis n => Agree g x k) u := by
      intro u
      unfold prob likelihood
      rw [Finset.sum_filter]
      rfl
    by_cases h0 : nrm v = 0
    · have hz : v = 0 := by
        have h1 : (∑ x, Complex.normSq (v x)) = 0 := by
          unfold nrm at h0
          exact (Real.sqrt_eq_zero (Finset.sum_nonneg fun x _ => Complex.normSq_nonneg _)).mp h0
        funext x
        have := (Finset.sum_eq_zero_iff_of_nonneg fun x _ => Complex.normSq_nonneg (v x)).mp h1 x (Finset.mem_univ x)
        simpa using this
      subst hz
      rw [output_eq, output_eq, Matrix.mulVec_zero, Matrix.mulVec_zero]
    · have hs := h (((nrm v)⁻¹ : ℂ) • v) ?_ ?_ _ hobs
      · rw [abs_nonpos_iff, sub_eq_zero] at hs
        rw [hp, hp]
        rw [output_eq, output_eq, Matrix.mulVec_smul, Matrix.mulVec_smul, ← output_eq, ← output_eq] at hs
        have hsm : ∀ (c : ℂ) (u : Basis n → ℂ), likelihood (Finset.univ.filter fun x : Basis n => Agree g x k) (c • u) =
            ‖c‖ ^ 2 * likelihood (Finset.univ.filter fun x : Basis n => Agree g x k) u := by
          intro c u
          unfold likelihood
          rw [Finset.mul_sum]
          refine Finset.sum_congr rfl fun x _ => ?_
          rw [Pi.smul_apply, smul_eq_mul, norm_mul, mul_pow]
        rw [hsm, hsm] at hs
        have hne : ‖((nrm v : ℂ)⁻¹)‖ ^ 2 ≠ 0 := by
          apply pow_ne_zero
          rw [norm_ne_zero_iff]
          exact inv_ne_zero (by exact_mod_cast h0)
        exact mul_left_cancel₀ hne hs
      · intro x hx q hq
        refine hv x ?_ q hq
        intro hz
        apply hx
        rw [Pi.smul_apply, hz, smul_zero]
      · rw [norm_sum_normalised]
        have hq : ∑ x, ‖v x‖ ^ 2 = nrm v ^ 2 := by
          unfold nrm
          rw [Real.sq_sqrt (Finset.sum_nonneg fun x _ => Complex.normSq_nonneg _)]
          exact Finset.sum_congr rfl fun x _ => (Complex.normSq_eq_norm_sq _).symm
        simp only [Pi.smul_apply, smul_eq_mul, norm_mul, mul_pow]
        rw [← Finset.mul_sum, hq, norm_inv, Complex.norm_real, Real.norm_eq_abs, abs_of_nonneg (nrm_nonneg v)]
        field_simp
  · intro h v hv _ A hA
    rw [likelihood_sum g A hA, likelihood_sum g A hA]
    have : ∀ k, reported g (output qc1 ω1 v) k = reported g (output qc2 ω2 v) k := by
      intro k; unfold reported; rw [h v hv k]
    simp only [this, sub_self, abs_zero, le_refl]

/-- **C93** (alternating checker): the verdict of an uninterrupted partial-equivalence check by a package that rounds.
* Not `NotEquivalent`: no event that can be seen without the common garbage qubits differs in its probability by more than four times the error
  `θ + ((1 + ε)^(cost+1) - 1)`, for every input state with the common ancillary qubits in `|0⟩`.
* `NotEquivalent`, with errors within what the test accepts, and one of the circuits not using the common ancillary qubits: the circuits are not partially
  equivalent.

The circuits must not lead the checker astray (C02). -/
theorem rounding_partial_alternating {val : D → Mat n} {ε θ θ₀ : ℝ} (hb : RoundedMatrix b val ε) (qc1 qc2 : QC n)
    (ω1 ω2 : Equiv.Perm (Fin n)) (h1 : WellFormed qc1 ω1) (h2 : WellFormed qc2 ω2) (R : RoundedMatrixTests val θ θ₀) (G : RoundedGarbageTest val θ θ₀)
    (opEq : Op n → Op n → Bool) (sch : AltScheme (Op n) (Equiv.Perm (Fin n)) D)
    (hc : sch.Cancels → NearSafe (accumulated ε 0 (cost qc1 + cost qc2 + 1)) opEq qc1 qc2) (hs : AltConfigured qc1 qc2 sch) (prev : Criterion)
    (ident : D) (hi : val ident = 1) :
    ∃ v s, runAlt b R.isId opEq sch (altCheck true G.closeG R.close R.wOne n qc1 qc2) (fun _ => false) prev qc1 qc2 (altInit b ident n qc1 qc2)
        (qc1.ops.length + qc2.ops.length + 2) = .ok (v, s) ∧
      (v ≠ .notEquivalent → PartiallyWithin (4 * (θ + accumulated ε 0 (cost qc1 + cost qc2 + 1))) (altGarbage n qc1.garbage qc2.garbage)
        (altAncillary n qc1.ancillary qc2.ancillary) qc1 ω1 qc2 ω2) ∧
      (v = .notEquivalent → accumulated ε 0 (cost qc1 + cost qc2 + 1) ≤ θ₀ →
        (∀ q : Fin n, qc1.ancillary.getD q.val false = true → qc2.ancillary.getD q.val false = true → Idle qc1 ω1 q) ∨
        (∀ q : Fin n, qc1.ancillary.getD q.val false = true → qc2.ancillary.getD q.val false = true → Idle qc2 ω2 q) →
        ¬ PartiallyEquivalent (altGarbage n qc1.garbage qc2.garbage) (altAncillary n qc1.ancillary qc2.ancillary) qc1 ω1 qc2 ω2) ∧
      (v = .equivalent ∨ v = .equivalentUpToGlobalPhase ∨ v = .notEquivalent) := by
  obtain ⟨s, hr, hst⟩ := alternating_rounded' hb qc1 qc2 ω1 ω2 h1 h2 R opEq sch hc hs (altCheck true G.closeG R.close R.wOne n qc1 qc2) prev ident hi
  refine ⟨_, s, hr, ?_, ?_, ?_⟩
  · intro hne
    have hcl : G.closeG (altGarbage n qc1.garbage qc2.garbage) s.d = true := by
      by_contra hn
      apply hne
      unfold altCheck altVerdict
      simp only [if_true]
      rw [if_neg hn]
    obtain ⟨B, hB, hB'⟩ := G.closeG_sound _ _ hcl
    refine near_block_sound h1.ops h2.ops hB ?_
    have := hst.comm.tri hB'
    rwa [add_comm] at this
  · intro hv hle hidle hp
    have hblk : Blocks (altGarbage n qc1.garbage qc2.garbage)
        (funcOf qc1 ω1 * ancProj (altAncillary n qc1.ancillary qc2.ancillary) * (funcOf qc2 ω2)ᴴ) := by
      refine (block_iff _ _).mpr (block_complete _ _ qc1 qc2 ω1 ω2 h1.ops h2.ops ?_ hp)
      rcases hidle with h | h
      · refine Or.inl fun q hq => ?_
        rw [altAncillary_flag, Bool.and_eq_true] at hq
        exact h q hq.1 hq.2
      · refine Or.inr fun q hq => ?_
        rw [altAncillary_flag, Bool.and_eq_true] at hq
        exact h q hq.1 hq.2
    have hcl := G.closeG_complete _ _ _ hblk (hst.mono hle)
    unfold altCheck altVerdict at hv
    simp only [if_true] at hv
    rw [if_pos hcl] at hv
    split at hv <;> cases hv
  · unfold altCheck altVerdict
    simp only [if_true]
    split
    · split <;> simp
    · simp

theorem nrm_sq_sum (v : Basis n → ℂ) : nrm v ^ 2 = ∑ x, ‖v x‖ ^ 2 := by
  unfold nrm
  rw [Real.sq_sqrt (Finset.sum_nonneg fun x _ => Complex.normSq_nonneg _)]
  exact Finset.sum_congr rfl fun x _ => Complex.normSq_eq_norm_sq _

theorem reduced_normalised (g : List Bool) (r : Bool) {v : Basis n → ℂ} (hv : Normalised v) : Normalised (reduceGarbageVec g r v) := by
  rw [norm_sum_normalised] at hv ⊢
  rw [← nrm_sq_sum, nrm_reduced, nrm_sq_sum, hv]

/-- **C93** (simulation checker): the verdict of an uninterrupted simulation with garbage reduced, for every normalised stimulus, with overall error `κ`.
* `NotEquivalent`, with `2κ + κ² < threshold`: some outcome has different probabilities in the two circuits.
* Otherwise, with `κ ≤ 1/2`: no outcome probability differs by more than `2·√(2·(threshold + 2κ + κ²))`. -/
theorem rounding_partial_simulation {val : D → Basis n → ℂ} {ε δ η w : ℝ} (hη : 0 ≤ η) (hb : RoundedVector b val ε) (hg : RoundedGarbage b val ε)
    (V : RoundedVectorTests val η w) (qc1 qc2 : QC n) (ω1 ω2 : Equiv.Perm (Fin n)) (h1 : WellFormed qc1 ω1) (h2 : WellFormed qc2 ω2)
    (sch) (hs : Configured qc1 qc2 sch) (prev : Criterion) (x : Basis n → ℂ) (hx : Normalised x) (d : D) (hd : nrm (val d - x) ≤ δ) :
    ∃ v s, runTwo b sch true (equalsVector V.ptrEq V.wEq V.realClose V.fidClose) (fun _ => false) prev
        qc1 qc2 d d (qc1.ops.length + qc2.ops.length + 2) = .ok (v, s) ∧
      (v = .notEquivalent → 2 * reducedOverlapError ε δ η qc1 qc2 + reducedOverlapError ε δ η qc1 qc2 ^ 2 < V.threshold →
        ∃ k, reported qc1.garbage (output qc1 ω1 x) k ≠ reported qc2.garbage (output qc2 ω2 x) k) ∧
      (v ≠ .notEquivalent → 0 ≤ V.threshold → reducedOverlapError ε δ η qc1 qc2 ≤ 1 / 2 → ∀ k,
        |reported qc1.garbage (output qc1 ω1 x) k - reported qc2.garbage (output qc2 ω2 x) k| ≤
          2 * Real.sqrt (2 * (V.threshold + 2 * reducedOverlapError ε δ η qc1 qc2 + reducedOverlapError ε δ η qc1 qc2 ^ 2))) ∧
      (v = .equivalent ∨ v = .equivalentUpToPhase ∨ v = .notEquivalent) := by
  obtain ⟨s, h | h⟩ := runTwo_spec b sch true (equalsVector V.ptrEq V.wEq V.realClose V.fidClose)
    (fun _ => false) (fun _ _ _ h => h) prev qc1 qc2 hs.good d d _ (Nat.le_refl _)
  · exact absurd h.1 (by simp)
  obtain ⟨_, hr, _, _, _, _⟩ := h
  refine ⟨_, s, hr, ?_⟩
  have f1 := vec_finalObject_reduced hb hg h1 d x hx hd
  have f2 := vec_finalObject_reduced hb hg h2 d x hx hd
  have N1 := reduced_normalised qc1.garbage true (output_normalised qc1 ω1 h1.ops x hx)
  have N2 := reduced_normalised qc2.garbage true (output_normalised qc2 ω2 h2.ops x hx)
  have np := fun k => reported_nonneg qc1.garbage (output qc1 ω1 x) k
  have nq := fun k => reported_nonneg qc2.garbage (output qc2 ω2 x) k
  have sp := reported_sum qc1.garbage qc1 ω1 h1 hx
  have sq := reported_sum qc2.garbage qc2 ω2 h2 hx
  have e1 : reduceGarbageVec qc1.garbage true (output qc1 ω1 x) = fun k => ((Real.sqrt (reported qc1.garbage (output qc1 ω1 x) k) : ℝ) : ℂ) :=
    funext fun k => reduceGarbageVec_eq _ _ _ k
  have e2 : reduceGarbageVec qc2.garbage true (output qc2 ω2 x) = fun k => ((Real.sqrt (reported qc2.garbage (output qc2 ω2 x) k) : ℝ) : ℂ) :=
    funext fun k => reduceGarbageVec_eq _ _ _ k
  rw [e1] at f1 N1
  rw [e2] at f2 N2
  generalize reported qc1.garbage (output qc1 ω1 x) = p at *
  generalize reported qc2.garbage (output qc2 ω2 x) = q at *
  generalize finalObject b true qc1 d = E at *
  generalize finalObject b true qc2 d = F at *
  have ho := overlap_close (val E) (val F) _ _ (V.overlap E F) η _ _ hη (nrm_normalised N1) (nrm_normalised N2) f1 f2 (V.overlap_error E F)
  have a1 : 0 ≤ accumulated ε δ (cost qc1 + 1) := le_trans (nrm_nonneg _) f1
  have a2 : 0 ≤ accumulated ε δ (cost qc2 + 1) := le_trans (nrm_nonneg _) f2
  have hk12 : accumulated ε δ (cost qc1 + 1) + accumulated ε δ (cost qc2 + 1) ≤ reducedOverlapError ε δ η qc1 qc2 := by
    unfold reducedOverlapError
    nlinarith [mul_nonneg a1 a2, mul_nonneg hη (mul_nonneg (by linarith : 0 ≤ 1 + accumulated ε δ (cost qc1 + 1)) (by linarith : 0 ≤ 1 + accumulated ε δ (cost qc2 + 1)))]
  change ‖V.overlap E F - Spec.inner _ _‖ ≤ reducedOverlapError ε δ η qc1 qc2 at ho
  have hin := inner_sqrt p q
  have hmul := fun (c : ℂ) (a : ℝ) (hc1 : nrm (c • val F - _) ≤ a) => fidelity_of_multiple _ _ (val F) c a _ N1 N2 hc1 f2
  rw [hin] at ho
  simp only [hin] at hmul
  generalize reducedOverlapError ε δ η qc1 qc2 = κ at *
  generalize accumulated ε δ (cost qc1 + 1) = α at *
  generalize accumulated ε δ (cost qc2 + 1) = β at *
  have o0 : 0 ≤ overlap p q := Finset.sum_nonneg fun k _ => mul_nonneg (Real.sqrt_nonneg _) (Real.sqrt_nonneg _)
  have o1 : overlap p q ≤ 1 := by
    have := distance_overlap np nq sp sq
    have h0 : 0 ≤ ∑ k, (Real.sqrt (p k) - Real.sqrt (q k)) ^ 2 := Finset.sum_nonneg fun k _ => sq_nonneg _
    linarith
  have hn : Complex.normSq ((overlap p q : ℝ) : ℂ) = overlap p q ^ 2 := by rw [Complex.normSq_ofReal, pow_two]
  have hfid := fidelity_close _ _ _ ho (by rw [Complex.norm_real, Real.norm_eq_abs, abs_of_nonneg o0]; exact o1)
  rw [hn, Complex.normSq_apply] at hfid
  have k0 : 0 ≤ κ := le_trans (norm_nonneg _) ho
  have hre : |(V.overlap E F).re - overlap p q| ≤ κ := by
    have := Complex.abs_re_le_norm (V.overlap E F - ((overlap p q : ℝ) : ℂ))
    rw [Complex.sub_re, Complex.ofReal_re] at this
    exact le_trans this ho
  unfold equalsVector
  split
  · rename_i hp
    have dist : 0 ≤ V.threshold → κ ≤ 1 / 2 → ∀ k, |p k - q k| ≤ 2 * Real.sqrt (2 * (V.threshold + 2 * κ + κ ^ 2)) := by
      intro ht hk
      refine outcome_distance np nq sp sq ?_
      obtain ⟨c, hc⟩ := V.ptrEq_sound _ _ hp
      rw [hc] at f1
      have hm := hmul c _ f1 (by linarith)
      rw [hn] at hm
      have hb1 : (α + β) / (1 - β) ≤ 2 * κ := by
        rw [div_le_iff₀ (by linarith)]
        nlinarith
      have hb0 : 0 ≤ (α + β) / (1 - β) := div_nonneg (by linarith) (by linarith)
      have hb2 := pow_le_pow_left₀ hb0 hb1 2
      nlinarith
    split
    · exact ⟨by simp, fun _ => dist, by simp⟩
    · exact ⟨by simp, fun _ => dist, by simp⟩
  · split
    · rename_i hrc
      rw [V.realClose_iff] at hrc
      refine ⟨by simp, fun _ _ _ => outcome_distance np nq sp sq ?_, by simp⟩
      rw [abs_lt] at hrc
      rw [abs_le] at hre
      nlinarith [hrc.1, hre.2]
    · split
      · rename_i _ hfc
        rw [V.fidClose_iff] at hfc
        refine ⟨by simp, fun _ _ _ => outcome_distance np nq sp sq ?_, by simp⟩
        rw [abs_lt] at hfc
        rw [abs_le] at hfid
        nlinarith [hfc.1, hfid.2]
      · rename_i _ hfc
        refine ⟨fun _ hlt => ?_, by simp, by simp⟩
        by_contra hno
        push Not at hno
        have e : p = q := funext hno
        subst e
        apply hfc
        rw [V.fidClose_iff]
        have : overlap p p = 1 := by
          unfold overlap
          simp only [Real.mul_self_sqrt (np _)]
          exact sp
        rw [this] at hfid
        rw [one_pow] at hfid
        exact lt_of_le_of_lt hfid hlt

/-- **C93** (no false alarm): within the error budget a simulation never refutes partially equivalent circuits with the same garbage qubits. -/
theorem rounding_partial_never_refutes {val : D → Basis n → ℂ} {ε δ η w : ℝ} (hη : 0 ≤ η) (hb : RoundedVector b val ε) (hg : RoundedGarbage b val ε)
    (V : RoundedVectorTests val η w) (qc1 qc2 : QC n) (ω1 ω2 : Equiv.Perm (Fin n)) (h1 : WellFormed qc1 ω1) (h2 : WellFormed qc2 ω2)
    (sch) (hs : Configured qc1 qc2 sch) (prev : Criterion) (x : Basis n → ℂ) (hx : Normalised x) (d : D) (hd : nrm (val d - x) ≤ δ)
    (hκ : 2 * reducedOverlapError ε δ η qc1 qc2 + reducedOverlapError ε δ η qc1 qc2 ^ 2 < V.threshold)
    (anc : List Bool) (ha : AncillasZero anc x) (hgg : qc1.garbage = qc2.garbage) (hp : PartiallyEquivalent qc1.garbage anc qc1 ω1 qc2 ω2) :
    ∃ v s, runTwo b sch true (equalsVector V.ptrEq V.wEq V.realClose V.fidClose) (fun _ => false) prev
        qc1 qc2 d d (qc1.ops.length + qc2.ops.length + 2) = .ok (v, s) ∧ v ≠ .notEquivalent := by
  obtain ⟨v, s, hr, hv, _⟩ := rounding_partial_simulation hη hb hg V qc1 qc2 ω1 ω2 h1 h2 sch hs prev x hx d hd
  refine ⟨v, s, hr, fun hne => ?_⟩
  obtain ⟨k, hk⟩ := hv hne hκ
  apply hk
  rw [← hgg]
  unfold reported
  rw [hp x ha k]

end QCEC.Props
