import Verif.Spec.EndToEndRounding
import Verif.Lemmas.RoundingProj
import Verif.Props.Rounding
import Verif.Props.EndToEndMixed
/-!
# C86: what the verdict of a run means when the decision-diagram package rounds
-/
namespace QCEC.Props
open QCEC QCEC.DD QCEC.Sem QCEC.Gen QCEC.ZX QCEC.Spec QCEC.Spec.ZX QCEC.Mgr QCEC.Prep QCEC.Par Matrix

variable {m n : Nat}

/-- The qubits that are ancillary in both circuits. -/
def rCommon (S : Inexact m n) : List Bool := altAncillary n S.qc1.ancillary S.qc2.ancillary

theorem within_covers {f g : List Bool} (h : Covers n f g) {e : ℝ} {c : ℂ} {qc1 qc2 : QC n} {ω1 ω2 : Equiv.Perm (Fin n)}
    (hs : OutputsWithinOn g e c qc1 ω1 qc2 ω2) : OutputsWithinOn f e c qc1 ω1 qc2 ω2 := fun x hx => hs x (zero_covers h hx)

theorem within_mono {g : List Bool} {e e' : ℝ} {c : ℂ} {qc1 qc2 : QC n} {ω1 ω2 : Equiv.Perm (Fin n)}
    (hs : OutputsWithinOn g e c qc1 ω1 qc2 ω2) (h : e ≤ e') : OutputsWithinOn g e' c qc1 ω1 qc2 ω2 := fun x hx =>
  le_trans (hs x hx) (mul_le_mul_of_nonneg_right h (nrm_nonneg x))

theorem zeroState_zero (anc : List Bool) : AncillasZero anc (Pi.single (fun _ => false) 1 : Basis n → ℂ) := by
  intro x hx q _
  by_contra hne
  apply hx
  rw [Pi.single_apply, if_neg]
  rintro rfl
  exact hne rfl

/-- The factor has modulus close to one. -/
theorem within_modulus {g : List Bool} {e : ℝ} {c : ℂ} {qc1 qc2 : QC n} {ω1 ω2 : Equiv.Perm (Fin n)} (h1 : ∀ o ∈ qc1.ops, o.Valid)
    (h2 : ∀ o ∈ qc2.ops, o.Valid) (hs : OutputsWithinOn g e c qc1 ω1 qc2 ω2) : |‖c‖ - 1| ≤ e := by
  have h := hs _ (zeroState_zero g)
  have n1 : nrm (output qc1 ω1 (Pi.single (fun _ => false) 1 : Basis n → ℂ)) = 1 := by
    rw [output_eq, nrm_unitary _ (funcOf_unitary qc1 ω1 h1), nrm_single]
  have n2 : nrm (output qc2 ω2 (Pi.single (fun _ => false) 1 : Basis n → ℂ)) = 1 := by
    rw [output_eq, nrm_unitary _ (funcOf_unitary qc2 ω2 h2), nrm_single]
  have n3 := nrm_smul c (output qc2 ω2 (Pi.single (fun _ => false) 1 : Basis n → ℂ))
  rw [nrm_single] at h
  have t1 := nrm_le_of_close (output qc1 ω1 (Pi.single (fun _ => false) 1 : Basis n → ℂ)) (c • output qc2 ω2 (Pi.single (fun _ => false) 1))
  have t2 := nrm_le_of_close (c • output qc2 ω2 (Pi.single (fun _ => false) 1 : Basis n → ℂ)) (output qc1 ω1 (Pi.single (fun _ => false) 1))
  rw [nrm_comm] at t2
  rw [n2] at n3
  rw [abs_le]
  constructor <;> linarith

theorem same_within {g : List Bool} {c : ℂ} {e : ℝ} (he : 0 ≤ e) {qc1 qc2 : QC n} {ω1 ω2 : Equiv.Perm (Fin n)}
    (hs : SameUpTo c g qc1 ω1 qc2 ω2) : OutputsWithinOn g e c qc1 ω1 qc2 ω2 := fun x hx => by
  rw [hs x hx, sub_self, nrm_zero]
  exact mul_nonneg he (nrm_nonneg x)

/-! ## The errors -/

/-- Accumulated error of the construction of the first and of the second circuit. -/
noncomputable def errA (S : Inexact m n) : ℝ := accumulated S.ε 0 (cost S.qc1 + 2)
noncomputable def errB (S : Inexact m n) : ℝ := accumulated S.ε 0 (cost S.qc2 + 2)

theorem errA_nonneg (S : Inexact m n) : 0 ≤ errA S := accumulated_nonneg S.roundM.nonneg le_rfl _
theorem errB_nonneg (S : Inexact m n) : 0 ≤ errB S := accumulated_nonneg S.roundM.nonneg le_rfl _

theorem drift_eq (S : Inexact m n) : S.drift = S.θ + ((1 + S.ηM) * ((1 + errA S) * (1 + errB S)) - 1) := by
  unfold Inexact.drift errA errB accumulated
  congr 2
  have : cost S.qc1 + cost S.qc2 + 4 = (cost S.qc1 + 2) + (cost S.qc2 + 2) := by omega
  rw [this, pow_add]
  ring

theorem drift_sum (S : Inexact m n) : S.θ + (errA S + errB S) ≤ S.drift := by
  rw [drift_eq]
  have a := errA_nonneg S
  have b := errB_nonneg S
  have := S.ηM_nonneg
  nlinarith [mul_nonneg a b, mul_nonneg this (mul_nonneg (by linarith : 0 ≤ 1 + errA S) (by linarith : 0 ≤ 1 + errB S))]

theorem drift_nonneg (S : Inexact m n) : 0 ≤ S.drift := by
  have := drift_sum S
  have := errA_nonneg S
  have := errB_nonneg S
  have := S.θ_nonneg
  linarith

theorem drift_alt (S : Inexact m n) : S.θ + accumulated S.ε 0 (cost S.qc1 + cost S.qc2 + 1) ≤ S.drift := by
  unfold Inexact.drift accumulated
  have hε := S.roundM.nonneg
  have h1 : (1 + S.ε) ^ (cost S.qc1 + cost S.qc2 + 1) ≤ (1 + S.ε) ^ (cost S.qc1 + cost S.qc2 + 4) := pow_le_pow_right₀ (by linarith) (by omega)
  have h2 : 0 ≤ (1 + S.ε) ^ (cost S.qc1 + cost S.qc2 + 4) := pow_nonneg (by linarith) _
  have := mul_nonneg S.ηM_nonneg h2
  nlinarith

theorem cube_small {e d : ℝ} (h0 : 0 ≤ e) (h : e ≤ d) (hd : d ≤ 1 / 10) : (1 + e) ^ 3 - 1 ≤ (331 / 100) * d := by
  have h1 : e ^ 2 ≤ e * (1 / 10) := by nlinarith
  have h2 : e ^ 3 ≤ e * (1 / 100) := by nlinarith
  nlinarith

/-! ## The answers -/

/-- What the single answers mean. -/
def RAnswerMeans (S : Inexact m n) (quiet : Bool) (k : Kind) (c : Criterion) : Prop :=
  match k with
  | .simulation => (c = .notEquivalent → S.Budget → ¬ SameUpToPhase (flags m n) S.qc1 S.ω1 S.qc2 S.ω2) ∧ (quiet = true → c ≠ .noInformation)
  | .alternating => (quiet = false ∧ c = .noInformation) ∨ ((c = .equivalent ∨ c = .equivalentUpToGlobalPhase ∨ c = .notEquivalent) ∧
      (c ≠ .notEquivalent → S.drift ≤ 1 / 10 → ∃ f : ℂ, OutputsWithinOn (rCommon S) (8 * S.drift) f S.qc1 S.ω1 S.qc2 S.ω2) ∧
      (c = .equivalent → S.drift ≤ 1 / 10 → OutputsWithinOn (rCommon S) (8 * S.drift) 1 S.qc1 S.ω1 S.qc2 S.ω2) ∧
      (c = .equivalentUpToGlobalPhase → S.Budget → ¬ Same (rCommon S) S.qc1 S.ω1 S.qc2 S.ω2) ∧
      (c = .notEquivalent → S.Budget → ¬ SameUpToPhase (rCommon S) S.qc1 S.ω1 S.qc2 S.ω2))
  | .construction => (quiet = false ∧ c = .noInformation) ∨ ((c = .equivalent ∨ c = .equivalentUpToGlobalPhase ∨ c = .notEquivalent) ∧
      (c ≠ .notEquivalent → S.drift ≤ 1 / 10 → ∃ f : ℂ, OutputsWithinOn (S.someAnc false) (8 * S.drift) f S.qc1 S.ω1 S.qc2 S.ω2))
  | .zx => c ∈ [.equivalent, .equivalentUpToGlobalPhase, .probablyNotEquivalent, .noInformation] ∧
      Sound c (flags m n) S.qc1 S.ω1 S.qc2 S.ω2

theorem altVerdict_three {D : Type} (close wOne : D → Bool) (d : D) : altVerdict close wOne d = .equivalent ∨
    altVerdict close wOne d = .equivalentUpToGlobalPhase ∨ altVerdict close wOne d = .notEquivalent := by
  unfold altVerdict; split
  · split <;> simp
  · simp

theorem _root_.QCEC.Spec.NearSafe.mono {e e' : ℝ} {opEq : Op n → Op n → Bool} {qc1 qc2 : QC n} (h : NearSafe e' opEq qc1 qc2) (he : e ≤ e') : NearSafe e opEq qc1 qc2 :=
  fun hn p1 a r1 p2 b r2 e1 e2 ⟨c, hc⟩ => h (fun hlt => hn (lt_of_le_of_lt he hlt)) p1 a r1 p2 b r2 e1 e2 ⟨c, within_mono hc he⟩

theorem _root_.QCEC.Spec.Inexact.Safe.configured {S : Inexact m n} (h : S.Safe) : AltConfigured S.qc1 S.qc2 S.schA := by
  have h2 := h.2.1
  have h3 := S.confA
  revert h2 h3
  generalize S.schA = sch
  intro h2 h3
  cases h3 with
  | counts sch hs => exact .counts sch hs
  | lookahead size => exact .lookahead size (h2 fun x => x).1 (h2 fun x => x).2

theorem rounded_alternating_means (S : Inexact m n) (hsafe : S.Safe) {quiet : Bool} {stop : Nat → Bool} (hm : Mono stop)
    (hq : quiet = true → ∀ i, stop i = false) {fuel : Nat} (hf : S.qc1.ops.length + S.qc2.ops.length + 2 ≤ fuel)
    (accepted : Accepted S.qc1 S.qc2) {c s}
    (h : runAlt S.bM S.T.isId S.opEq S.schA (altVerdict S.T.close S.T.wOne) stop .noInformation S.qc1 S.qc2
        (altInit S.bM S.ident n S.qc1 S.qc2) fuel = .ok (c, s)) : RAnswerMeans S quiet .alternating c := by
  have h0 : Stretch S.ε (S.valM (altInit S.bM S.ident n S.qc1 S.qc2) - ancProj (rCommon S)) := by
    have := S.roundM.ancillae (rCommon S) true S.ident 1 (by rw [S.ident_val]; exact stretch_one)
    have e : reduceAncillae (rCommon S) true (S.valM S.ident) = ancProj (rCommon S) := by rw [S.ident_val]; simp [reduceAncillae]
    rwa [e, mul_one] at this
  have hacc : accumulated S.ε S.ε (cost S.qc1 + cost S.qc2) = accumulated S.ε 0 (cost S.qc1 + cost S.qc2 + 1) := by
    unfold accumulated; rw [pow_succ]; ring
  have hcan : S.schA.Cancels → NearSafeFrom (accumulated S.ε S.ε (cost S.qc1 + cost S.qc2)) (ancProj (rCommon S)) S.opEq S.qc1 S.qc2 := fun hk =>
    ((hsafe.1 hk).from S.wf1.ops S.wf2.ops).mono (by rw [hacc]; linarith [drift_alt S, S.θ_nonneg])
  obtain ⟨v, s', hr, ho⟩ := alternating_rounded_outcome S.roundM.nonneg S.roundM S.qc1 S.qc2 S.ω1 S.ω2 S.wf1 S.wf2 S.T.isId S.T.isId_sound
    S.opEq S.schA hsafe.configured (altVerdict S.T.close S.T.wOne) stop hm .noInformation _ _ hcan (stretch_ancProj _) h0 fuel hf
  rw [hr] at h
  cases h
  rcases ho with ⟨hs, hv⟩ | ⟨_, hv, hst⟩
  · refine Or.inl ⟨?_, hv⟩
    cases quiet with
    | false => rfl
    | true => rw [hq rfl] at hs; cases hs
  right
  rw [hacc] at hst
  have u1 := funcOf_unitary S.qc1 S.ω1 S.wf1.ops
  have u2 := funcOf_unitary S.qc2 S.ω2 S.wf2.ops
  have hdr := drift_alt S
  -- what an accepted diagram says about the outputs
  have core : ∀ (f : ℂ) (I : Finset (Basis n)), I.Nonempty → Stretch S.θ (S.valM s.d - f • indic I) → S.drift ≤ 1 / 10 →
      OutputsWithinOn (rCommon S) (8 * S.drift) f S.qc1 S.ω1 S.qc2 S.ω2 := by
    intro f I hI hcl hd x hx
    have hn : Stretch (S.θ + accumulated S.ε 0 (cost S.qc1 + cost S.qc2 + 1)) (funcOf S.qc1 S.ω1 * ancProj (rCommon S) * (funcOf S.qc2 S.ω2)ᴴ - f • indic I) :=
      (hst.comm.tri hcl).mono (by linarith)
    obtain ⟨hb, _, _⟩ := near_product u1 u2 (stretch_ancProj _) hI hn (ancProj_apply _ x hx) (by rw [ancProj_ct]; exact ancProj_apply _ x hx)
    rw [output_eq, output_eq]
    refine le_trans hb (mul_le_mul_of_nonneg_right ?_ (nrm_nonneg x))
    have := cube_small (stretch_nonneg hn) hdr hd
    linarith [drift_nonneg S]
  have known : Known (rCommon S) S.qc1 S.ω1 S.qc2 S.ω2 := known_of_settled (hsafe.2.2 accepted)
  refine ⟨by rw [hv]; exact altVerdict_three .., ?_, ?_, ?_, ?_⟩
  · intro hne hd
    rw [hv] at hne
    unfold altVerdict at hne
    split at hne
    · rename_i hcl
      obtain ⟨f, I, hI, hst'⟩ := S.T.close_sound _ hcl
      exact ⟨f, core f I hI hst' hd⟩
    · exact absurd rfl hne
  · intro he hd
    rw [hv] at he
    unfold altVerdict at he
    split at he
    · rename_i hcl
      split at he
      · rename_i hw
        obtain ⟨I, hI, hst'⟩ := S.T.wOne_sound _ hcl hw
        refine core 1 I hI ?_ hd
        rw [one_smul]; exact hst'
      · cases he
    · cases he
  · intro he hB hsame
    obtain ⟨anc', e⟩ := product_of_known S.wf1.ops S.wf2.ops (rCommon S) known 1 hsame
    rw [e] at hst
    have hw := S.T.wOne_complete s.d anc' (by rw [one_smul] at hst; exact hst.mono hB.1)
    rw [hv] at he
    unfold altVerdict at he
    split at he
    · cases he
    · cases he
  · rintro he hB ⟨f, hf1, hsame⟩
    obtain ⟨anc', e⟩ := product_of_known S.wf1.ops S.wf2.ops (rCommon S) known f hsame
    rw [e] at hst
    have hcl := S.T.close_complete s.d f anc' hf1 (hst.mono hB.1)
    rw [hv] at he
    unfold altVerdict at he
    rw [if_pos hcl] at he
    split at he <;> cases he

/-- Two vectors of the same length, both close to multiples of a third. -/
theorem both_multiples {u v x : Basis n → ℂ} {c c' : ℂ} {t e : ℝ} (he0 : 0 ≤ e) (he : e ≤ 1 / 10) (ht : t ≤ (331 / 100) * e)
    (hc : ‖c‖ ≤ 1 + e) (hc' : 1 - e ≤ ‖c'‖) (h1 : nrm (u - c • x) ≤ t * nrm x) (h2 : nrm (v - c' • x) ≤ t * nrm x) :
    nrm (u - (c * c'⁻¹) • v) ≤ 8 * e * nrm x := by
  have hpos : 0 < ‖c'‖ := by linarith
  have hne : c' ≠ 0 := norm_pos_iff.mp hpos
  have e1 : u - (c * c'⁻¹) • v = (u - c • x) + -((c * c'⁻¹) • (v - c' • x)) := by
    rw [smul_sub, smul_smul, mul_assoc, inv_mul_cancel₀ hne, mul_one]; abel
  rw [e1]
  refine le_trans (nrm_add _ _) ?_
  rw [nrm_neg, nrm_smul, norm_mul, norm_inv]
  have hq : ‖c‖ * ‖c'‖⁻¹ ≤ 11 / 9 := by
    rw [mul_inv_le_iff₀ hpos]
    nlinarith
  have hx := nrm_nonneg x
  have hq0 : 0 ≤ ‖c‖ * ‖c'‖⁻¹ := by positivity
  have h3 : ‖c‖ * ‖c'‖⁻¹ * nrm (v - c' • x) ≤ 11 / 9 * (t * nrm x) := mul_le_mul hq h2 (nrm_nonneg _) (by norm_num)
  have h4 : t * nrm x ≤ (331 / 100) * e * nrm x := mul_le_mul_of_nonneg_right ht hx
  have h5 : 0 ≤ e * nrm x := mul_nonneg he0 hx
  nlinarith

/-- A vector close to a multiple of another one that is close to a third. -/
theorem multiple_of_close {u v f : Basis n → ℂ} {c : ℂ} {a k e r : ℝ} (hu : nrm u = r) (hv : nrm v = r) (ha : 0 ≤ a) (hk : 0 ≤ k)
    (hs : a + k ≤ e) (he : e ≤ 1 / 10) (h1 : nrm (c • f - u) ≤ a * r) (h2 : nrm (f - v) ≤ k * r) : nrm (u - c • v) ≤ 8 * e * r := by
  have hr : 0 ≤ r := hu ▸ nrm_nonneg u
  have h3 : r ≤ k * r + nrm f := by
    have := nrm_le_of_close v f; rw [nrm_comm, hv] at this; linarith
  have h4 : nrm (c • f) ≤ a * r + r := by
    have := nrm_le_of_close (c • f) u; rw [hu] at this; linarith
  rw [nrm_smul] at h4
  have h5 : nrm (u - c • v) ≤ a * r + ‖c‖ * (k * r) := by
    have := nrm_tri u (c • f) (c • v)
    rw [nrm_comm u (c • f), ← smul_sub, nrm_smul] at this
    have := mul_le_mul_of_nonneg_left h2 (norm_nonneg c)
    linarith
  have h6 : (9 / 10) * r ≤ nrm f := by nlinarith
  have h7 : ‖c‖ * r ≤ 2 * r := by
    have := mul_le_mul_of_nonneg_left h6 (norm_nonneg c)
    have : a * r ≤ 1 / 10 * r := mul_le_mul_of_nonneg_right (by linarith) hr
    nlinarith
  have h8 : ‖c‖ * (k * r) ≤ 2 * k * r := by nlinarith
  have h9 : (a + k) * r ≤ e * r := mul_le_mul_of_nonneg_right hs hr
  have h10 : 0 ≤ a * r := mul_nonneg ha hr
  have h11 : 0 ≤ k * r := mul_nonneg hk hr
  nlinarith

theorem rounded_construction_means (S : Inexact m n) {quiet : Bool} {stop : Nat → Bool} (hm : Mono stop)
    (hq : quiet = true → ∀ i, stop i = false) {fuel : Nat} (hf : S.qc1.ops.length + S.qc2.ops.length + 2 ≤ fuel) {c s}
    (h : runTwo S.bM S.schC false (equalsMatrix S.T.ptrEq S.T.wEq S.T.close S.T.mulDagger) stop .noInformation
        S.qc1 S.qc2 (constructionInit S.bM S.ident S.qc1) (constructionInit S.bM S.ident S.qc2) fuel = .ok (c, s)) :
    RAnswerMeans S quiet .construction c := by
  obtain ⟨hs⟩ := S.confC
  obtain ⟨s', ⟨h0, hr⟩ | ⟨_, hr, _⟩⟩ := runTwo_spec S.bM S.schC false
    (equalsMatrix S.T.ptrEq S.T.wEq S.T.close S.T.mulDagger) stop hm .noInformation S.qc1 S.qc2 hs.good
    (constructionInit S.bM S.ident S.qc1) (constructionInit S.bM S.ident S.qc2) fuel hf
  · rw [hr] at h
    cases h
    refine Or.inl ⟨?_, rfl⟩
    cases quiet with
    | false => rfl
    | true => rw [hq rfl] at h0; cases h0
  rw [hr] at h
  cases h
  right
  refine ⟨equalsMatrix_three .., ?_⟩
  intro hne hd
  have o1 := construction_rounded S.roundM S.wf1 S.ident S.ident_val
  have o2 := construction_rounded S.roundM S.wf2 S.ident S.ident_val
  generalize finalObject S.bM false S.qc1 (constructionInit S.bM S.ident S.qc1) = e at *
  generalize finalObject S.bM false S.qc2 (constructionInit S.bM S.ident S.qc2) = f at *
  have u1 := funcOf_unitary S.qc1 S.ω1 S.wf1.ops
  have u2 := funcOf_unitary S.qc2 S.ω2 S.wf2.ops
  have hsum := drift_sum S
  have hA := errA_nonneg S
  have hB := errB_nonneg S
  have hd0 := drift_nonneg S
  have hθ := S.θ_nonneg
  have z1 : ∀ x : Basis n → ℂ, AncillasZero (S.someAnc false) x → (ancProj S.qc1.ancillary).mulVec x = x := fun x hx =>
    ancProj_apply _ x fun y hy q hq => hx y hy q (by rw [Inexact.someAnc, marks_get, hq]; rfl)
  have z2 : ∀ x : Basis n → ℂ, AncillasZero (S.someAnc false) x → (ancProj S.qc2.ancillary).mulVec x = x := fun x hx =>
    ancProj_apply _ x fun y hy q hq => hx y hy q (by rw [Inexact.someAnc, marks_get, hq]; simp)
  have one_ct : (1 : Mat n) * (1 : Mat n)ᴴ = 1 := by simp
  unfold equalsMatrix at hne
  by_cases hp : S.T.ptrEq e f = true
  · obtain ⟨c, hc⟩ := S.T.ptrEq_sound _ _ hp
    refine ⟨c, fun x hx => ?_⟩
    have a1 := o1.1 x
    have a2 := o2.1 x
    rw [Matrix.sub_mulVec, ← Matrix.mulVec_mulVec, z1 x hx, hc, Matrix.smul_mulVec, ← output_eq] at a1
    rw [Matrix.sub_mulVec, ← Matrix.mulVec_mulVec, z2 x hx, ← output_eq] at a2
    refine multiple_of_close ?_ ?_ hA hB (by linarith) hd a1 a2
    · rw [output_eq, nrm_unitary _ u1]
    · rw [output_eq, nrm_unitary _ u2]
  rw [if_neg hp] at hne
  simp only at hne
  by_cases hany : (S.T.close e || S.T.close f) = true
  · rw [if_pos hany] at hne
    by_cases hboth : (S.T.close e && S.T.close f) = true
    · rw [Bool.and_eq_true] at hboth
      obtain ⟨c, I, hI, hc⟩ := S.T.close_sound _ hboth.1
      obtain ⟨c', I', hI', hc'⟩ := S.T.close_sound _ hboth.2
      have k1 : Stretch (S.θ + errA S) (funcOf S.qc1 S.ω1 * ancProj S.qc1.ancillary * (1 : Mat n)ᴴ - c • indic I) := by
        rw [Matrix.conjTranspose_one, Matrix.mul_one]
        exact (o1.1.comm.tri hc).mono (by unfold errA; linarith)
      have k2 : Stretch (S.θ + errB S) (funcOf S.qc2 S.ω2 * ancProj S.qc2.ancillary * (1 : Mat n)ᴴ - c' • indic I') := by
        rw [Matrix.conjTranspose_one, Matrix.mul_one]
        exact (o2.1.comm.tri hc').mono (by unfold errB; linarith)
      refine ⟨c * c'⁻¹, fun x hx => ?_⟩
      obtain ⟨b1, b2, _⟩ := near_product u1 one_ct (stretch_ancProj _) hI k1 (z1 x hx) (by rw [ancProj_ct]; exact z1 x hx)
      obtain ⟨d1, _, _⟩ := near_product u2 one_ct (stretch_ancProj _) hI' k2 (z2 x hx) (by rw [ancProj_ct]; exact z2 x hx)
      obtain ⟨_, _, d3⟩ := near_product u2 one_ct (stretch_ancProj _) hI' k2 (z2 _ (zeroState_zero _))
        (by rw [ancProj_ct]; exact z2 _ (zeroState_zero _))
      rw [nrm_single, mul_one, mul_one] at d3
      rw [Matrix.one_mulVec] at b1 d1
      have hx0 := nrm_nonneg x
      rw [output_eq, output_eq]
      refine both_multiples (x := x) (t := (331 / 100) * S.drift) hd0 hd le_rfl (by linarith) (by linarith) ?_ ?_
      · exact le_trans b1 (mul_le_mul_of_nonneg_right (cube_small (stretch_nonneg k1) (by linarith) hd) hx0)
      · exact le_trans d1 (mul_le_mul_of_nonneg_right (cube_small (stretch_nonneg k2) (by linarith) hd) hx0)
    · rw [if_neg hboth] at hne; exact absurd rfl hne
  · rw [if_neg hany] at hne
    by_cases hmc : S.T.close (S.T.mulDagger e f) = true
    · obtain ⟨c, I, hI, hc⟩ := S.T.close_sound _ hmc
      have hpc := product_close S.ηM_nonneg o1.2 o2.2 o1.1 o2.1 (S.T.mulDagger_error e f)
      have e1 : funcOf S.qc1 S.ω1 * ancProj S.qc1.ancillary * (funcOf S.qc2 S.ω2 * ancProj S.qc2.ancillary)ᴴ =
          funcOf S.qc1 S.ω1 * (ancProj S.qc1.ancillary * ancProj S.qc2.ancillary) * (funcOf S.qc2 S.ω2)ᴴ := by
        rw [Matrix.conjTranspose_mul, ancProj_ct]; simp only [Matrix.mul_assoc]
      rw [e1] at hpc
      have k1 : Stretch S.drift (funcOf S.qc1 S.ω1 * (ancProj S.qc1.ancillary * ancProj S.qc2.ancillary) * (funcOf S.qc2 S.ω2)ᴴ - c • indic I) :=
        (hpc.comm.tri hc).mono (by rw [drift_eq]; unfold errA errB; linarith)
      refine ⟨c, fun x hx => ?_⟩
      have hP : Stretch 1 (ancProj S.qc1.ancillary * ancProj S.qc2.ancillary : Mat n) := by
        have := (stretch_ancProj (n := n) S.qc1.ancillary).mul zero_le_one (stretch_ancProj (n := n) S.qc2.ancillary)
        rwa [one_mul] at this
      obtain ⟨b1, _, _⟩ := near_product u1 u2 hP hI k1 (x := x) (by rw [← Matrix.mulVec_mulVec, z2 x hx, z1 x hx])
        (by rw [Matrix.conjTranspose_mul, ancProj_ct, ancProj_ct, ← Matrix.mulVec_mulVec, z1 x hx, z2 x hx])
      rw [output_eq, output_eq]
      refine le_trans b1 (mul_le_mul_of_nonneg_right ?_ (nrm_nonneg x))
      have := cube_small (stretch_nonneg k1) le_rfl hd
      linarith
    · rw [if_neg hmc] at hne; exact absurd rfl hne

theorem rounded_simRun_means (S : Inexact m n) {quiet : Bool} {prev c : Criterion}
    (hp : prev = .notEquivalent → S.Budget → ¬ SameUpToPhase (flags m n) S.qc1 S.ω1 S.qc2 S.ω2) (h : RSimRun S quiet prev c) :
    RAnswerMeans S quiet .simulation c := by
  obtain ⟨R, g, g', st, x, d, stop, fuel, s, hgen, hden, hdx, hm, hq, hf, hrun⟩ := h
  obtain ⟨hs⟩ := S.confS
  obtain ⟨hnorm, hanc⟩ := stimulus_state S.data hgen S.cliff_normalised hden
  obtain ⟨s', ⟨h0, hr⟩ | ⟨h0, hr, _⟩⟩ := runTwo_spec S.bV S.schS false
    (equalsVector S.V.ptrEq S.V.wEq S.V.realClose S.V.fidClose) stop hm prev S.qc1 S.qc2 hs.good d d fuel hf
  · rw [hr] at hrun
    cases hrun
    refine ⟨hp, fun hqt => ?_⟩
    rw [hq hqt] at h0; cases h0
  · rw [hr] at hrun
    cases hrun
    refine ⟨fun hne hB hsame => ?_, fun _ => ?_⟩
    · obtain ⟨v, s'', hr', hv⟩ := rounding_never_refutes S.ηV_nonneg S.roundV S.V S.qc1 S.qc2 S.ω1 S.ω2 S.wf1 S.wf2 S.schS hs prev x hnorm d
        hdx hB.2 (flags m n) hanc hsame
      obtain ⟨s3, ⟨h3, _⟩ | ⟨_, hr3, _⟩⟩ := runTwo_spec S.bV S.schS false
        (equalsVector S.V.ptrEq S.V.wEq S.V.realClose S.V.fidClose) (fun _ => false) (fun _ _ _ h => h) prev S.qc1 S.qc2 hs.good d d _ (Nat.le_refl _)
      · cases h3
      · rw [hr3] at hr'
        cases hr'
        exact hv hne
    · unfold equalsVector
      repeat' split
      all_goals simp

/-- **C86**: what the answers of the single checkers mean when the package rounds. -/
theorem rounded_answer_means (S : Inexact m n) {quiet : Bool} {k : Kind} {c : Criterion} (hsafe : k = .alternating → S.Safe) (h : RAnswer S quiet k c) :
    RAnswerMeans S quiet k c := by
  induction h with
  | alternating stop hm hq fuel hf accepted c s h => exact rounded_alternating_means S (hsafe rfl) hm hq hf accepted h
  | construction stop hm hq fuel hf c s h => exact rounded_construction_means S hm hq hf h
  | simulation c h => exact rounded_simRun_means S (by simp) h
  | simulationAgain prev c _ h ih => exact rounded_simRun_means S (ih (by simp)).1 h
  | zx hr1 hr2 hc1 hc2 outs1 outs2 ho1 ho2 M g φ hR hg done hq c h =>
    refine ⟨?_, zx_sound_ancilla S.data S.wf1.ops S.wf2.ops hr1 hr2 hc1 hc2 ho1 ho2 hR hg h⟩
    rcases zx_never_notEquivalent h with h | h | h | h <;> simp [h]

/-! ## The verdict -/

theorem rSome_covers_common (S : Inexact m n) (zx : Bool) : Covers n (S.someAnc zx) (rCommon S) := by
  intro q hq
  rw [rCommon, altAncillary_flag, Bool.and_eq_true] at hq
  rw [Inexact.someAnc, marks_get, hq.1]
  rfl

theorem rCommon_covers_both (S : Inexact m n) (l : Bool) : Covers n (rCommon S) (S.bothAnc l) := by
  intro q hq
  rw [Inexact.bothAnc, marks_get, Bool.and_eq_true] at hq
  rw [rCommon, altAncillary_flag]
  exact hq.1

theorem rSome_covers_last (S : Inexact m n) : Covers n (S.someAnc true) (flags m n) := by
  intro q hq
  rw [flags_get m n S.data] at hq
  rw [Inexact.someAnc, marks_get, hq]
  simp

theorem rLast_covers_both (S : Inexact m n) : Covers n (flags m n) (S.bothAnc true) := by
  intro q hq
  rw [Inexact.bothAnc, marks_get, Bool.and_eq_true] at hq
  rw [flags_get m n S.data]
  simpa using hq.2

theorem rSome_covers_some (S : Inexact m n) (zx : Bool) : Covers n (S.someAnc zx) (S.someAnc false) := by
  intro q hq
  rw [Inexact.someAnc, marks_get, Bool.false_and, Bool.or_false] at hq
  rw [Inexact.someAnc, marks_get, hq]
  rfl

/-- The verdict of a conclusive run has its meaning. -/
theorem rounded_conclusive_means (S : Inexact m n) {cfg : Configuration} {quiet : Bool} {e : Event} (hc : Conclusive e) (hen : Enabled cfg e.kind)
    (h : RAnswerMeans S quiet e.kind e.verdict) : RMeaning S cfg e.verdict := by
  have md : ∀ {g f}, OutputsWithinOn g (8 * S.drift) f S.qc1 S.ω1 S.qc2 S.ω2 → |‖f‖ - 1| ≤ 8 * S.drift := fun hw =>
    within_modulus S.wf1.ops S.wf2.ops hw
  rcases e with ⟨k, v⟩
  cases k <;> simp only [Conclusive, RAnswerMeans] at hc h hen ⊢
  · subst hc
    refine ⟨by simp, by simp, by simp, fun _ _ hB hp => h.1 rfl hB (phase_covers ?_ hp), by simp⟩
    rw [show cfg.execution.runSimulationChecker = true from hen, Bool.true_or]
    exact rLast_covers_both S
  · rcases h with h | ⟨h3, hpos, heq, hph, hne⟩
    · exact absurd h.2 hc
    · have lo := rSome_covers_common S cfg.execution.runZXChecker
      have hi := rCommon_covers_both S (cfg.execution.runSimulationChecker || cfg.execution.runZXChecker)
      refine ⟨fun hv hd => ?_, fun hv _ hd => within_covers lo (heq hv hd), fun hv _ hB hs => hph hv hB (sameUpTo_covers hi hs),
        fun hv _ hB hs => hne hv hB (phase_covers hi hs), by rcases h3 with e | e | e <;> simp [e]⟩
      obtain ⟨f, hf⟩ := hpos (by rcases hv with e | e <;> simp [e]) hd
      exact ⟨f, md hf, within_covers lo hf⟩
  · rcases h with h | ⟨h3, hpos⟩
    · exact absurd h.2 hc
    · refine ⟨fun hv hd => ?_, fun _ hno => absurd hen hno, fun _ hno => absurd hen hno, fun _ hno => absurd hen hno,
        by rcases h3 with e | e | e <;> simp [e]⟩
      obtain ⟨f, hf⟩ := hpos (by rcases hv with e | e <;> simp [e]) hd
      exact ⟨f, md hf, within_covers (rSome_covers_some S _) hf⟩
  · have hz := h.2
    have hzx : cfg.execution.runZXChecker = true := hen
    have lo : Covers n (S.someAnc cfg.execution.runZXChecker) (flags m n) := by rw [hzx]; exact rSome_covers_last S
    have hi : Covers n (flags m n) (S.bothAnc (cfg.execution.runSimulationChecker || cfg.execution.runZXChecker)) := by
      rw [hzx, Bool.or_true]; exact rLast_covers_both S
    have d0 : 0 ≤ 8 * S.drift := by linarith [drift_nonneg S]
    refine ⟨fun hv _ => ?_, fun hv _ _ => same_within d0 (sameUpTo_covers lo (hz.equivalent hv)),
      fun hv _ _ hs => (hz.phase hv).2 (sameUpTo_covers hi hs), ?_, ?_⟩
    · rcases hv with e | e
      · exact ⟨1, by simpa using d0, same_within d0 (sameUpTo_covers lo (hz.equivalent e))⟩
      · obtain ⟨f, hf1, hf⟩ := (hz.phase e).1
        exact ⟨f, by rw [hf1]; simpa using d0, same_within d0 (sameUpTo_covers lo hf)⟩
    · rcases hc with hc | hc <;> simp [hc]
    · rcases hc with hc | hc <;> simp [hc]

theorem rounded_default_means (S : Inexact m n) {cfg : Configuration} {v : Criterion}
    (h : v = .noInformation ∨ v = .probablyEquivalent ∨ v = .probablyNotEquivalent) : RMeaning S cfg v := by
  rcases h with h | h | h <;> subst h <;> exact ⟨by simp, by simp, by simp, by simp, by simp⟩

/-- **C86** (sequential): the verdict of a run that returns. -/
theorem rounded_sequential_verdict (S : Inexact m n) {env : Env} {fuel : Nat} {s s' : State} (hsafe : Enabled s.cfg .alternating → S.Safe) (hm : mode env s.cfg = .sequential)
    (h : run env fuel s = some (.returned s'))
    (hans : ∀ e : Event, FromEnv env e → Enabled s.cfg e.kind → RAnswer S false e.kind e.verdict) :
    RMeaning S s.cfg s'.results.equivalence := by
  obtain ⟨hx, hp, _⟩ := sequential_verdict_explained hm h
  by_cases hc : ∃ e ∈ s'.log, Conclusive e
  · obtain ⟨e, he, hce⟩ := hc
    rw [hx.1 e he hce]
    exact rounded_conclusive_means S hce (hp e he).2 (rounded_answer_means S (fun hk => hsafe (hk ▸ (hp e he).2)) (hans e (hp e he).1 (hp e he).2))
  · rw [hx.2 fun e he hce => hc ⟨e, he, hce⟩]
    exact rounded_default_means S (evidence_default _)

theorem rounded_adjust_zx (S : Inexact m n) {quiet : Bool} {env : ParEnv} {cfg : Configuration}
    (hans : ∀ k c, Enabled cfg k → env.may k c → RAnswer S quiet k c) : ZXAnswers (adjust cfg env) := by
  rintro c (⟨he, hc⟩ | ⟨_, rfl⟩)
  · have := (rounded_answer_means S (by simp) (hans .zx c he hc)).1
    simpa using this
  · simp

/-- **C86** (parallel): the same for every schedule of the threads. -/
theorem rounded_parallel_verdict (S : Inexact m n) {env : ParEnv} {cfg : Configuration} {res : Results} {s : PState} (hsafe : Enabled cfg .alternating → S.Safe)
    (h : Reachable env cfg res s) (hr : s.main = .ended .returned)
    (hans : ∀ k c, Enabled cfg k → env.may k c → RAnswer S false k c) : RMeaning S cfg s.results.equivalence := by
  obtain ⟨hx, hp, _⟩ := parallel_verdict_explained (rounded_adjust_zx S hans) (adjust_reachable h) hr
  have hmean : ∀ e ∈ s.log, Enabled cfg e.kind ∧ RAnswerMeans S false e.kind e.verdict := fun e he =>
    ⟨(hp e he).2, rounded_answer_means S (fun hk => hsafe (hk ▸ (hp e he).2)) (hans _ _ (hp e he).2 ((adjust_may (hp e he).2 _).mp (hp e he).1))⟩
  by_cases hc : ∃ e ∈ s.log, Conclusive e
  · obtain ⟨e, he, hce⟩ := hc
    rw [hx.1 e he hce]
    exact rounded_conclusive_means S hce (hmean e he).1 (hmean e he).2
  · have hn : ∀ e ∈ s.log, ¬ Conclusive e := fun e he hce => hc ⟨e, he, hce⟩
    by_cases hg : ∃ e ∈ s.log, GivesUp e
    · obtain ⟨e, he, hge⟩ := hg
      rw [hx.2.1 e he hge]
      exact rounded_default_means S (Or.inl rfl)
    · rw [hx.2.2 fun e he => ⟨hn e he, fun hge => hg ⟨e, he, hge⟩⟩]
      exact rounded_default_means S (parEvidence_default _ _)

/-- **C86** (a usable bound): the drift is at most twice the number of multiplications times the relative error of one of them, plus the
error of the test and twice that of the product with the adjoint. -/
theorem drift_linear (S : Inexact m n) (h : (cost S.qc1 + cost S.qc2 + 4 : ℕ) * S.ε + S.ηM ≤ 1 / 2) :
    S.drift ≤ S.θ + 2 * ((cost S.qc1 + cost S.qc2 + 4 : ℕ) * S.ε + S.ηM) := by
  have := accumulated_linear S.roundM.nonneg S.ηM_nonneg (cost S.qc1 + cost S.qc2 + 4) h
  unfold Inexact.drift
  unfold accumulated at this
  rw [mul_comm (1 + S.ηM)]
  linarith

/-! ## Uninterrupted runs decide -/

theorem rounded_conclusive_three (S : Inexact m n) {e : Event} (hc : Conclusive e) (h : RAnswerMeans S true e.kind e.verdict) :
    e.verdict = .equivalent ∨ e.verdict = .equivalentUpToGlobalPhase ∨ e.verdict = .notEquivalent := by
  rcases e with ⟨k, v⟩
  cases k <;> simp only [Conclusive, RAnswerMeans] at hc h ⊢
  · exact Or.inr (Or.inr hc)
  · rcases h with h | h
    · exact absurd h.1 (by simp)
    · exact h.1
  · rcases h with h | h
    · exact absurd h.1 (by simp)
    · exact h.1
  · rcases hc with h | h <;> simp [h]

/-- An uninterrupted answer of the alternating or the construction checker is conclusive. -/
theorem rounded_decisive (S : Inexact m n) {e : Event} (hk : e.kind = .alternating ∨ e.kind = .construction)
    (h : RAnswerMeans S true e.kind e.verdict) : Conclusive e := by
  rcases e with ⟨k, v⟩
  have three : v = .equivalent ∨ v = .equivalentUpToGlobalPhase ∨ v = .notEquivalent := by
    rcases hk with hk | hk <;> simp only at hk <;> subst hk <;> simp only [RAnswerMeans] at h <;> rcases h with h | h
    · exact absurd h.1 (by simp)
    · exact h.1
    · exact absurd h.1 (by simp)
    · exact h.1
  rcases hk with hk | hk <;> simp only at hk <;> subst hk <;> rcases three with e | e | e <;> subst e <;> simp [Conclusive]

/-- **C86** (the question is decided): with the alternating or the construction checker switched on, no timeout and no exception, an
uninterrupted run returns one of the three verdicts, with its meaning. -/
theorem rounded_sequential_decides (S : Inexact m n) {env : Env} {fuel : Nat} {s : State} (hsafe : Enabled s.cfg .alternating → S.Safe) (hm : mode env s.cfg = .sequential)
    (hc : CountersOk s) (ht : ¬ s.cfg.execution.timeout > 0) (hfuel : s.cfg.simulation.maxSims < fuel)
    (hen : Enabled s.cfg .alternating ∨ Enabled s.cfg .construction) (hfail : ¬ SomeCheckerFails env s.cfg)
    (hans : ∀ e : Event, FromEnv env e → Enabled s.cfg e.kind → RAnswer S true e.kind e.verdict) :
    ∃ s', run env fuel s = some (.returned s') ∧ RMeaning S s.cfg s'.results.equivalence ∧
      (s'.results.equivalence = .equivalent ∨ s'.results.equivalence = .equivalentUpToGlobalPhase ∨ s'.results.equivalence = .notEquivalent) := by
  have hg : ¬ SomeSimGivesUp env s.cfg := by
    rintro ⟨he, k, hk⟩
    exact (rounded_answer_means S (by simp) (hans ⟨.simulation, .noInformation⟩ ⟨k, hk⟩ he)).2 rfl rfl
  obtain ⟨s', hs'⟩ := sequential_returns_partial env s hm hc hfail hg fuel hfuel
  refine ⟨s', hs', ?_⟩
  obtain ⟨hx, hp, _⟩ := sequential_verdict_explained hm hs'
  have hmean : ∀ e ∈ s'.log, RAnswerMeans S true e.kind e.verdict := fun e he => rounded_answer_means S (fun hk => hsafe (hk ▸ (hp e he).2)) (hans e (hp e he).1 (hp e he).2)
  have hcon : ∃ e ∈ s'.log, Conclusive e := by
    by_contra hcon
    have hn : ∀ e ∈ s'.log, ¬ Conclusive e := fun e he hce => hcon ⟨e, he, hce⟩
    have hall := sequential_all_consulted hm ht hs' hn (fun e he hk => by
      have := hmean e he
      rw [hk] at this
      exact this.2 rfl)
    have hne : ∀ k, (k = .alternating ∨ k = .construction) → Enabled s.cfg k → False := by
      intro k hk hek
      obtain ⟨e, he, hke⟩ := hall k (by rcases hk with rfl | rfl <;> simp) hek (by rcases hk with rfl | rfl <;> simp)
      exact hn e he (rounded_decisive S (hke ▸ hk) (hmean e he))
    rcases hen with h | h
    · exact hne _ (Or.inl rfl) h
    · exact hne _ (Or.inr rfl) h
  obtain ⟨e, he, hce⟩ := hcon
  rw [hx.1 e he hce]
  exact ⟨rounded_conclusive_means S hce (hp e he).2 (hmean e he), rounded_conclusive_three S hce (hmean e he)⟩

/-- **C86** (the question is decided, parallel). -/
theorem rounded_parallel_decides (S : Inexact m n) {env quiet : ParEnv} {cfg : Configuration} {res : Results} {s : PState}
    (hsafe : Enabled cfg .alternating → S.Safe)
    (hq : quiet.zxTransformable = env.zxTransformable) (hrun : CalmSteps env quiet (launch env.zxTransformable cfg res) s)
    (hr : s.main = .ended .returned) (ht : s.timedOut = false) (hen : Enabled cfg .alternating ∨ Enabled cfg .construction)
    (hans : ∀ k c, Enabled cfg k → quiet.may k c → RAnswer S true k c) :
    (RMeaning S cfg s.results.equivalence ∧
      (s.results.equivalence = .equivalent ∨ s.results.equivalence = .equivalentUpToGlobalPhase ∨ s.results.equivalence = .notEquivalent)) ∨
    (s.results.equivalence = .noInformation ∧ (∃ e ∈ s.log, Suspects e) ∧ (∃ e ∈ s.log, Passed e) ∧
      s.results.performedSimulations = cfg.simulation.maxSims) := by
  have hz := rounded_adjust_zx S hans
  obtain ⟨s1, h1, hd, hl, hres, hc, hto, _⟩ := CalmSteps.quiet (env := adjust cfg env) (quiet := adjust cfg quiet) hq (adjust_calm hrun)
  have hdone : s1.done = true := by rw [hd]; exact returned_done hrun.steps hr
  have hv := reachable_vinv hz.never h1
  have hb := reachable_base h1
  rw [← hres, ← hl]
  have hmean : ∀ e ∈ s1.log, Enabled cfg e.kind ∧ RAnswerMeans S true e.kind e.verdict := by
    intro e he
    have hp := hv.prov e he
    have hen' : Enabled cfg e.kind := enabled_of_launch (hb.conf ▸ hp.2)
    exact ⟨hen', rounded_answer_means S (fun hk => hsafe (hk ▸ hen')) (hans _ _ hen' ((adjust_may hen' _).mp hp.1))⟩
  obtain ⟨n1, n2, n3⟩ := not_only (zxOk := (adjust cfg quiet).zxTransformable) hen
  rw [← hb.conf] at n2 n3
  have hnever : ∀ e ∈ s1.log, ¬ GivesUp e := by
    rintro ⟨k, v⟩ he ⟨hk, hv'⟩
    have := (hmean _ he).2
    simp only at hk hv'
    subst hv'
    cases k <;> simp only [RAnswerMeans] at this
    · exact absurd rfl (this.2 trivial)
    · rcases this with h | h
      · exact absurd h.1 (by simp)
      · exact absurd h.1 (by simp)
    · rcases this with h | h
      · exact absurd h.1 (by simp)
      · exact absurd h.1 (by simp)
    · exact hk rfl
  by_cases hcon : ∃ e ∈ s1.log, Conclusive e
  · obtain ⟨e, he, hce⟩ := hcon
    left
    rw [hv.explained.1 e he hce]
    exact ⟨rounded_conclusive_means S hce (hmean e he).1 (hmean e he).2, rounded_conclusive_three S hce (hmean e he).2⟩
  · rcases stop_reason_open hz h1 hdone with h | h | h | ⟨e, he, h⟩ | h | h | h
    · rw [hto, ht] at h; simp at h
    · rw [n1] at h; simp at h
    · exact absurd h hcon
    · exact absurd h (hnever e he)
    · rw [n2] at h; simp at h
    · rw [n3] at h; simp at h
    · right
      have hms : s1.cfg.simulation.maxSims = cfg.simulation.maxSims := by rw [hb.conf, launchCfg_maxSims]
      refine ⟨?_, h.1, h.2.1, by rw [h.2.2, hms]⟩
      rw [hv.explained.2.2 fun e he => ⟨fun hce => hcon ⟨e, he, hce⟩, hnever e he⟩]
      unfold parEvidence
      rw [if_pos h.1, if_pos ⟨h.2.1, h.2.2⟩]

/-- **C86** (what is told apart): a verdict of the three with its meaning, without the construction checker and with errors within the
budget.  Circuits with the same outputs are reported `Equivalent`; circuits that differ by a global phase are not refuted; circuits whose
outputs differ on some input by more than eight times the drift, whatever factor is removed, are reported `NotEquivalent`. -/
theorem rounded_verdict_separates (S : Inexact m n) {cfg : Configuration} {v : Criterion} (h : RMeaning S cfg v)
    (h3 : v = .equivalent ∨ v = .equivalentUpToGlobalPhase ∨ v = .notEquivalent) (hno : ¬ Enabled cfg .construction) (hB : S.Budget)
    (hd : S.drift ≤ 1 / 10) :
    (Same (S.bothAnc (cfg.execution.runSimulationChecker || cfg.execution.runZXChecker)) S.qc1 S.ω1 S.qc2 S.ω2 → v = .equivalent) ∧
    (SameUpToPhase (S.bothAnc (cfg.execution.runSimulationChecker || cfg.execution.runZXChecker)) S.qc1 S.ω1 S.qc2 S.ω2 → v ≠ .notEquivalent) ∧
    ((∀ c : ℂ, ∃ x, AncillasZero (S.someAnc cfg.execution.runZXChecker) x ∧
        nrm (output S.qc1 S.ω1 x - c • output S.qc2 S.ω2 x) > 8 * S.drift * nrm x) → v = .notEquivalent) := by
  refine ⟨fun hs => ?_, fun hs e => h.notEquivalent e hno hB hs, fun hfar => ?_⟩
  · rcases h3 with e | e | e
    · exact e
    · exact absurd hs (h.phase e hno hB)
    · exact absurd (same_imp_phase hs) (h.notEquivalent e hno hB)
  · by_contra hne
    obtain ⟨c, _, hw⟩ := h.positive (by rcases h3 with e | e | e <;> simp_all) hd
    obtain ⟨x, hx, hfar⟩ := hfar c
    exact absurd (hw x hx) (not_le.mpr hfar)

end QCEC.Props
