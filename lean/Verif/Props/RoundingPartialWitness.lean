import Verif.Props.RoundingPartial
import Verif.Props.RoundingWitness
import Verif.Props.PartialWitness
import Verif.Props.ExhaustiveWitness
/-!
# C93: concrete cases

A package that really rounds, `X(1)` and the empty circuit: partially equivalent if qubit 1 is garbage, not if qubit 0 is.
-/
namespace QCEC.Props
open QCEC QCEC.DD QCEC.Sem QCEC.Spec Matrix

namespace RoundingPartialCases

/-- `X(1)` with garbage qubits. -/
noncomputable def flipped (g : List Bool) : QC 2 := { justX1 with garbage := g }

/-- No gate at all, with garbage qubits. -/
noncomputable def blank (g : List Bool) : QC 2 := { nothing2 with garbage := g }

theorem flipped_wf (g : List Bool) : WellFormed (flipped g) 1 := ⟨justX1_wf.ops, justX1_wf.out, justX1_wf.labels⟩
theorem blank_wf (g : List Bool) : WellFormed (blank g) 1 := ⟨nothing2_wf.ops, nothing2_wf.out, nothing2_wf.labels⟩

theorem flipped_output (g : List Bool) (v : Basis 2 → ℂ) (x : Basis 2) : output (flipped g) 1 v x = v (Function.update x 1 (!x 1)) := by
  simp only [output, readOut, execute, flipped, justX1, Op.phys, SOp.phys, gX_mulVec, load]
  rfl

theorem blank_output (g : List Bool) (v : Basis 2 → ℂ) (x : Basis 2) : output (blank g) 1 v x = v x := nothing2_output v x

/-- With qubit 1 garbage the circuits are partially equivalent. -/
theorem partially : PartiallyEquivalent [false, true] [] (flipped [false, true]) 1 (blank [false, true]) 1 := by
  intro v _ k
  unfold prob
  simp only [flipped_output, blank_output]
  refine Finset.sum_nbij' (fun x : Basis 2 => Function.update x 1 (!x 1)) (fun x : Basis 2 => Function.update x 1 (!x 1)) (by simp) (by simp)
    (fun x _ => by revert x; decide) (fun x _ => by revert x; decide) (fun x _ => ?_)
  have : (∀ q : Fin 2, [false, true].getD q.val false = false → x q = k q) ↔
      (∀ q : Fin 2, [false, true].getD q.val false = false → Function.update x 1 (!x 1) q = k q) := by
    revert x k; decide
  by_cases h : ∀ q : Fin 2, [false, true].getD q.val false = false → x q = k q
  · rw [if_pos h, if_pos (this.mp h)]
  · rw [if_neg h, if_neg fun h' => h (this.mpr h')]

/-- The circuits are not equivalent, not even up to a global phase. -/
theorem not_same (g : List Bool) : ¬ SameUpToPhase [] (flipped g) 1 (blank g) 1 := by
  rintro ⟨c, _, h⟩
  have h1 := congrFun (h ket00 (fun x _ q hq => by simp at hq)) (fun q => decide (q = 1))
  simp only [flipped_output, blank_output, Pi.smul_apply, smul_eq_mul, ket00] at h1
  rw [if_pos (by decide), if_neg (by decide), mul_zero] at h1
  exact one_ne_zero h1

/-- With qubit 0 garbage instead, whether qubit 1 is measured as `1` tells the circuits apart with certainty. -/
theorem told_apart : ¬ PartiallyWithin (9 / 10) [true, false] [] (flipped [true, false]) 1 (blank [true, false]) 1 := by
  intro h
  have h1 := h ket00 (fun x _ q hq => by simp at hq) (by simp [Normalised, Spec.inner, ket00])
    (Finset.univ.filter fun x => x 1 = true) (fun x y hxy => by
      simp only [Finset.mem_filter, Finset.mem_univ, true_and]
      rw [hxy 1 rfl])
  have e1 : likelihood (Finset.univ.filter fun x : Basis 2 => x 1 = true) (output (flipped [true, false]) 1 ket00) = 1 := by
    unfold likelihood
    rw [Finset.sum_eq_single (fun q : Fin 2 => decide (q = 1))]
    · rw [flipped_output, ket00, if_pos (by decide)]; norm_num
    · intro x _ hx
      rw [flipped_output, ket00, if_neg (by revert x; decide)]; norm_num
    · intro hx; exact absurd (by decide) hx
  have e2 : likelihood (Finset.univ.filter fun x : Basis 2 => x 1 = true) (output (blank [true, false]) 1 ket00) = 0 := by
    unfold likelihood
    refine Finset.sum_eq_zero fun x hx => ?_
    have : x 1 = true := by simpa using hx
    rw [blank_output, ket00, if_neg (by rintro rfl; simp at this)]; norm_num
  rw [e1, e2] at h1
  norm_num at h1

open Classical in
/-- A garbage test that accepts exactly what is within `θ`. -/
noncomputable def sharpGarbage (n : Nat) (θ : ℝ) : RoundedGarbageTest (fun d : Mat n => d) θ θ where
  closeG g d := decide (∃ B : Mat n, Blocks g B ∧ Stretch θ (d - B))
  closeG_sound g d h := by simpa using h
  closeG_complete g d B hB h := by rw [decide_eq_true_iff]; exact ⟨B, hB, h⟩

/-- The scaling package with the exact garbage reduction. -/
noncomputable def reducingVector (n : Nat) (ε : ℝ) : Backend (Op n) (Equiv.Perm (Fin n)) (List (Fin n × Fin n)) (Mat n) (Basis n → ℂ) :=
  { scaledVector n ε with reduceGarbage := fun f r d => ((1 + ε : ℝ) : ℂ) • reduceGarbageVec f r d }

theorem reducingVector_rounded (n : Nat) {ε : ℝ} (hε : 0 ≤ ε) : RoundedVector (reducingVector n ε) (fun d => d) ε :=
  have h := scaledVector_rounded n hε
  { nonneg := h.nonneg, tracked := h.tracked, apply := h.apply, relabel := h.relabel, ancillae := h.ancillae }

theorem reducingVector_garbage (n : Nat) {ε : ℝ} (hε : 0 ≤ ε) : RoundedGarbage (reducingVector n ε) (fun d => d) ε := by
  intro f r d
  have e : (reducingVector n ε).reduceGarbage f r d - reduceGarbageVec f r d = (ε : ℂ) • reduceGarbageVec f r d := by
    show ((1 + ε : ℝ) : ℂ) • _ - _ = _
    rw [Complex.ofReal_add, add_smul, Complex.ofReal_one, one_smul, add_sub_cancel_left]
  rw [e, nrm_smul, nrm_reduced, Complex.norm_real, Real.norm_of_nonneg hε]

theorem cost_flipped (g : List Bool) : cost (flipped g) = 3 := rfl
theorem cost_blank (g : List Bool) : cost (blank g) = 2 := rfl

/-- The alternating check of `X(1)` against nothing with a package that rounds. -/
theorem alternating_case (g : List Bool) : ∃ v s, runAlt (scaledMatrix 2 (1 / 1000)) (sharpTests 2 (1 / 10)).isId (fun _ _ => false)
      (.counts oneToOneScheme) (altCheck true (sharpGarbage 2 (1 / 10)).closeG (sharpTests 2 (1 / 10)).close (sharpTests 2 (1 / 10)).wOne 2
        (flipped g) (blank g)) (fun _ => false) .noInformation (flipped g) (blank g)
      (altInit (scaledMatrix 2 (1 / 1000)) 1 2 (flipped g) (blank g)) 3 = .ok (v, s) ∧
    (v ≠ .notEquivalent → PartiallyWithin (4 * (1 / 10 + accumulated (1 / 1000) 0 6)) (altGarbage 2 g g) [false, false]
      (flipped g) 1 (blank g) 1) ∧
    (v = .notEquivalent → accumulated (1 / 1000) 0 6 ≤ 1 / 10 →
      ¬ PartiallyEquivalent (altGarbage 2 g g) [false, false] (flipped g) 1 (blank g) 1) := by
  obtain ⟨v, s, hr, h1, h2, _⟩ := rounding_partial_alternating (scaledMatrix_rounded 2 (ε := 1 / 1000) (by norm_num)) (flipped g) (blank g) 1 1
    (flipped_wf g) (blank_wf g) (sharpTests 2 (1 / 10)) (sharpGarbage 2 (1 / 10)) (fun _ _ => false) (.counts oneToOneScheme)
    (fun _ => (CancelSafe.disjoint fun _ _ _ _ => rfl).nearSafe _) (.counts _ ⟨oneToOneConfigured _ _⟩) .noInformation 1 rfl
  refine ⟨v, s, hr, h1, fun hv hle => h2 hv hle (Or.inl fun q hq => ?_)⟩
  simp [flipped, justX1] at hq

/-- **C93**: with qubit 1 garbage, not refuted – although the circuits are not equivalent. -/
theorem alternating_accepts : ∃ v s, runAlt (scaledMatrix 2 (1 / 1000)) (sharpTests 2 (1 / 10)).isId (fun _ _ => false)
      (.counts oneToOneScheme) (altCheck true (sharpGarbage 2 (1 / 10)).closeG (sharpTests 2 (1 / 10)).close (sharpTests 2 (1 / 10)).wOne 2
        (flipped [false, true]) (blank [false, true])) (fun _ => false) .noInformation (flipped [false, true]) (blank [false, true])
      (altInit (scaledMatrix 2 (1 / 1000)) 1 2 (flipped [false, true]) (blank [false, true])) 3 = .ok (v, s) ∧ v ≠ .notEquivalent := by
  obtain ⟨v, s, hr, _, h2⟩ := alternating_case [false, true]
  refine ⟨v, s, hr, fun hv => h2 hv (by unfold accumulated; norm_num) ?_⟩
  intro w hw k
  exact partially w (fun x _ q hq => by simp at hq) k

/-- **C93**: with qubit 0 garbage instead, refuted. -/
theorem alternating_refutes : ∃ s, runAlt (scaledMatrix 2 (1 / 1000)) (sharpTests 2 (1 / 10)).isId (fun _ _ => false)
      (.counts oneToOneScheme) (altCheck true (sharpGarbage 2 (1 / 10)).closeG (sharpTests 2 (1 / 10)).close (sharpTests 2 (1 / 10)).wOne 2
        (flipped [true, false]) (blank [true, false])) (fun _ => false) .noInformation (flipped [true, false]) (blank [true, false])
      (altInit (scaledMatrix 2 (1 / 1000)) 1 2 (flipped [true, false]) (blank [true, false])) 3 = .ok (.notEquivalent, s) := by
  obtain ⟨v, s, hr, h1, _⟩ := alternating_case [true, false]
  by_cases hv : v = .notEquivalent
  · subst hv; exact ⟨s, hr⟩
  · exfalso
    apply told_apart
    intro w hw hn A hA
    refine le_trans (h1 hv w ?_ hn A hA) (by unfold accumulated; norm_num)
    intro x _ q hq
    exact absurd hq (by revert q; decide)

/-- The simulation of the partially equivalent pair with the default fidelity threshold and garbage reduction that rounds: not refuted. -/
theorem simulation_accepts : ∃ v s, runTwo (reducingVector 2 (1 / 10 ^ 15)) oneToOneScheme true
    (equalsVector (exactOverlap 2 (1 / 10 ^ 8)).ptrEq (exactOverlap 2 (1 / 10 ^ 8)).wEq (exactOverlap 2 (1 / 10 ^ 8)).realClose
      (exactOverlap 2 (1 / 10 ^ 8)).fidClose) (fun _ => false) .noInformation (flipped [false, true]) (blank [false, true]) ket00 ket00 3
        = .ok (v, s) ∧ v ≠ .notEquivalent := by
  refine rounding_partial_never_refutes (δ := 0) le_rfl (reducingVector_rounded 2 (by norm_num)) (reducingVector_garbage 2 (by norm_num))
    (exactOverlap 2 (1 / 10 ^ 8)) (flipped [false, true]) (blank [false, true]) 1 1 (flipped_wf _) (blank_wf _) oneToOneScheme
    (oneToOneConfigured _ _) .noInformation ket00 (by simp [Normalised, Spec.inner, ket00]) ket00 (by rw [sub_self, nrm_zero]) ?_ []
    (fun y _ q hq => by simp at hq) rfl partially
  unfold reducedOverlapError accumulated
  rw [cost_flipped, cost_blank]
  show _ < (1 / 10 ^ 8 : ℝ)
  norm_num

end RoundingPartialCases
end QCEC.Props
