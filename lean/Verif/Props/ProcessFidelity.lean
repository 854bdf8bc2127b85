import Verif.Spec.ProcessFidelity
import Verif.Lemmas.ProductAverage
import Verif.Props.ProductStimuli
/-!
# C92: how many product stimuli expose a difference

The average fidelity of the outputs on product stimuli is at most `(1 + 2 φ) / 3`, where `φ` is the process fidelity of the circuits.
-/
namespace QCEC.Props
open QCEC QCEC.DD QCEC.Sem QCEC.Gen QCEC.ZX QCEC.Spec QCEC.Spec.ZX QCEC.Mgr QCEC.Prep QCEC.Par MeasureTheory Matrix

variable {m n : Nat} {R : Rng}

theorem dataInput_injective (hd : m ≤ n) : Function.Injective (dataInput n : Basis m → Basis n) := by
  intro x y h
  funext i
  have := congrFun h (Fin.castLE hd i)
  simpa [dataInput] using this

theorem dataInput_free (x : Basis m) : AncillaFree m (dataInput n x) := by
  intro q hq
  unfold dataInput
  rw [dif_neg (by omega)]

theorem dataInput_surjective (hd : m ≤ n) {b : Basis n} (hb : AncillaFree m b) : dataInput n (fun i : Fin m => b (Fin.castLE hd i)) = b := by
  funext q
  unfold dataInput
  split
  · rfl
  · exact (hb q (by omega)).symm

/-- A product state is the superposition of the classical inputs. -/
theorem productState_superposition (hd : m ≤ n) (l : Fin m → Basis1) :
    productState n l = ∑ x : Basis m, prodAmp l x • basisState (dataInput n x) := by
  funext z
  rw [Finset.sum_apply]
  simp only [Pi.smul_apply, smul_eq_mul, basisState]
  by_cases hz : AncillaFree m z
  · have e := dataInput_surjective hd hz
    rw [Finset.sum_eq_single (fun i : Fin m => z (Fin.castLE hd i)) (fun x _ hx => ?_) (fun h => absurd (Finset.mem_univ _) h)]
    · rw [e, if_pos rfl, mul_one]
      unfold productState prodAmp
      obtain ⟨k, rfl⟩ := Nat.exists_eq_add_of_le hd
      rw [Fin.prod_univ_add]
      have h1 : ∏ i : Fin k, amp (stateAt l (Fin.natAdd m i).1) (z (Fin.natAdd m i)) = 1 := by
        refine Finset.prod_eq_one fun i _ => ?_
        rw [hz _ (by simp)]
        unfold stateAt
        rw [dif_neg (by simp)]
        simp [amp]
      rw [h1, mul_one]
      refine Finset.prod_congr rfl fun i _ => ?_
      unfold stateAt
      rw [dif_pos (by simp)]
      rfl
    · rw [if_neg, mul_zero]
      intro h
      apply hx
      apply dataInput_injective hd
      rw [e, h]
  · rw [Finset.sum_eq_zero fun x _ => ?_]
    · have h2 := (productState_ok hd l).2
      by_contra hne
      apply hz
      intro q hq
      exact h2 z hne q (by rw [flags_get m n hd]; simpa using hq)
    · rw [if_neg, mul_zero]
      rintro rfl
      exact hz (dataInput_free x)

/-- The matrix of inner products of the outputs. -/
noncomputable def overlaps (m : Nat) (qc1 : QC n) (ω1 : Equiv.Perm (Fin n)) (qc2 : QC n) (ω2 : Equiv.Perm (Fin n)) (x y : Fin m → Bool) : ℂ :=
  Spec.inner (output qc1 ω1 (basisState (dataInput n x))) (output qc2 ω2 (basisState (dataInput n y)))

theorem inner_product_states {qc1 qc2 : QC n} {ω1 ω2 : Equiv.Perm (Fin n)} (hd : m ≤ n) (l : Fin m → Basis1) :
    Spec.inner (output qc1 ω1 (productState n l)) (output qc2 ω2 (productState n l)) = quad (overlaps m qc1 ω1 qc2 ω2) l := by
  have hlin : ∀ (qc : QC n) (ω : Equiv.Perm (Fin n)),
      output qc ω (productState n l) = ∑ x : Basis m, prodAmp l x • output qc ω (basisState (dataInput n x)) := by
    intro qc ω
    rw [productState_superposition hd, output_eq, Matrix.mulVec_sum]
    exact Finset.sum_congr rfl fun x _ => by rw [Matrix.mulVec_smul, ← output_eq]
  rw [hlin, hlin]
  unfold quad overlaps Spec.inner
  simp only [Finset.sum_apply, Pi.smul_apply, smul_eq_mul, star_sum, star_mul', Finset.sum_mul, Finset.mul_sum]
  rw [Finset.sum_comm, Finset.sum_congr rfl fun y _ => Finset.sum_comm, Finset.sum_comm]
  refine Finset.sum_congr rfl fun x _ => ?_
  refine Finset.sum_congr rfl fun y _ => Finset.sum_congr rfl fun z _ => ?_
  ring

/-- Bessel's inequality for the outputs. -/
theorem overlaps_frob {qc1 qc2 : QC n} {ω1 ω2 : Equiv.Perm (Fin n)} (h1 : WellFormed qc1 ω1) (h2 : WellFormed qc2 ω2) (hd : m ≤ n) :
    frob (overlaps m qc1 ω1 qc2 ω2) ≤ 2 ^ m := by
  have hcol : ∀ y : Fin m → Bool, ∑ x, Complex.normSq (overlaps m qc1 ω1 qc2 ω2 x y) ≤ 1 := by
    intro y
    set v := output qc2 ω2 (basisState (dataInput n y)) with hv
    have hn : Normalised v := output_normalised qc2 ω2 h2.ops _ (basisState_normalised _)
    have hall : ∑ b : Basis n, Complex.normSq (Spec.inner (output qc1 ω1 (basisState b)) v) = 1 := by
      have hF := unitary_comm _ (funcOf_unitary qc1 ω1 h1.ops)
      have h3 : ∀ b : Basis n, Spec.inner (output qc1 ω1 (basisState b)) v = ((funcOf qc1 ω1)ᴴ.mulVec v) b := by
        intro b
        rw [output_eq]
        unfold Spec.inner mulVec dotProduct basisState
        refine Finset.sum_congr rfl fun z _ => ?_
        simp [Matrix.conjTranspose_apply]
      have h4 : Normalised ((funcOf qc1 ω1)ᴴ.mulVec v) := by
        unfold Normalised
        rw [inner_unitary _ (by rw [Matrix.conjTranspose_conjTranspose]; exact hF)]
        exact hn
      unfold Normalised Spec.inner at h4
      have h5 : ((∑ b : Basis n, Complex.normSq (((funcOf qc1 ω1)ᴴ.mulVec v) b) : ℝ) : ℂ) = 1 := by
        rw [← h4]
        push_cast
        refine Finset.sum_congr rfl fun b _ => ?_
        rw [Complex.normSq_eq_conj_mul_self]
        rfl
      rw [Finset.sum_congr rfl fun b _ => congrArg Complex.normSq (h3 b)]
      exact_mod_cast h5
    rw [← hall]
    have h6 : ∑ x : Fin m → Bool, Complex.normSq (overlaps m qc1 ω1 qc2 ω2 x y) =
        ∑ b ∈ Finset.univ.image (dataInput n : Basis m → Basis n), Complex.normSq (Spec.inner (output qc1 ω1 (basisState b)) v) := by
      rw [Finset.sum_image fun a _ b _ h => dataInput_injective hd h]
      rfl
    rw [h6]
    exact Finset.sum_le_sum_of_subset_of_nonneg (Finset.subset_univ _) fun b _ _ => Complex.normSq_nonneg _
  unfold frob
  rw [Finset.sum_comm]
  calc _ ≤ ∑ _y : Fin m → Bool, (1 : ℝ) := Finset.sum_le_sum fun y _ => hcol y
    _ = 2 ^ m := by simp

theorem overlaps_tr {qc1 qc2 : QC n} {ω1 ω2 : Equiv.Perm (Fin n)} :
    Complex.normSq (tr (overlaps m qc1 ω1 qc2 ω2)) = 4 ^ m * processFidelity m qc1 ω1 qc2 ω2 := by
  unfold processFidelity tr overlaps
  rw [norm_div, div_pow, Complex.normSq_eq_norm_sq]
  have h4 : (4 : ℝ) ^ m = ‖(2 : ℂ) ^ m‖ ^ 2 := by
    rw [norm_pow, Complex.norm_ofNat, ← pow_mul, mul_comm m 2, pow_mul]
    norm_num
  rw [h4]
  have hne : ‖(2 : ℂ) ^ m‖ ^ 2 ≠ 0 := by rw [norm_pow, Complex.norm_ofNat]; positivity
  field_simp

/-- **C92**: the fidelity of the outputs, averaged over all product stimuli, is at most `(1 + 2 φ) / 3`. -/
theorem product_fidelity_average {qc1 qc2 : QC n} {ω1 ω2 : Equiv.Perm (Fin n)} (h1 : WellFormed qc1 ω1) (h2 : WellFormed qc2 ω2) (hd : m ≤ n) :
    (∑ l : Fin m → Basis1, ‖Spec.inner (output qc1 ω1 (productState n l)) (output qc2 ω2 (productState n l))‖ ^ 2) / 6 ^ m ≤
      (1 + 2 * processFidelity m qc1 ω1 qc2 ω2) / 3 := by
  have h := product_average m (overlaps m qc1 ω1 qc2 ω2)
  rw [overlaps_tr] at h
  have hf := overlaps_frob h1 h2 hd
  have hsum : ∑ l, Complex.normSq (quad (overlaps m qc1 ω1 qc2 ω2) l) =
      ∑ l : Fin m → Basis1, ‖Spec.inner (output qc1 ω1 (productState n l)) (output qc2 ω2 (productState n l))‖ ^ 2 :=
    Finset.sum_congr rfl fun l _ => by rw [inner_product_states hd, Complex.normSq_eq_norm_sq]
  rw [hsum] at h
  have h6 : (0 : ℝ) < 6 ^ m := by positivity
  have h2' : (0 : ℝ) < 2 ^ m := by positivity
  have e : (3 : ℝ) ^ m * 4 ^ m = 6 ^ m * 2 ^ m := by rw [← mul_pow, ← mul_pow]; norm_num
  rw [div_le_div_iff₀ h6 (by norm_num)]
  have h3 : (2 : ℝ) ^ m * ((∑ l : Fin m → Basis1, ‖Spec.inner (output qc1 ω1 (productState n l)) (output qc2 ω2 (productState n l))‖ ^ 2) * 3) ≤
      2 ^ m * ((1 + 2 * processFidelity m qc1 ω1 qc2 ω2) * 6 ^ m) := by
    have h4 := mul_le_mul_of_nonneg_left hf h6.le
    have h5 : 2 * 3 ^ m * (4 ^ m * processFidelity m qc1 ω1 qc2 ω2) = 2 * (6 ^ m * 2 ^ m) * processFidelity m qc1 ω1 qc2 ω2 := by
      rw [← e]; ring
    rw [h5] at h
    linarith
  exact le_of_mul_le_mul_left h3 h2'

/-! ## The fraction of stimuli that expose a difference -/

theorem productStim_disagree (S : Setting m n) (l : Fin m → Basis1) : DisagreeOn S (productStim n l) ↔
    ¬ Agrees S.V.threshold (output S.qc1 S.ω1 (productState n l)) (output S.qc2 S.ω2 (productState n l)) := by
  constructor
  · rintro ⟨x, hx, hno⟩
    rw [productStim_denotes] at hx
    subst hx
    exact hno
  · exact fun hno => ⟨_, (productStim_denotes l _).mpr rfl, hno⟩

theorem agrees_fidelity_bound {thr : ℝ} (ht : thr < 1 / 2) {e f : Basis n → ℂ} (h : Agrees thr e f) : 1 - 2 * thr ≤ ‖Spec.inner e f‖ ^ 2 := by
  rcases h with h | h
  · rw [abs_lt] at h
    have hre := Complex.re_le_norm (Spec.inner e f)
    have : 1 - thr ≤ ‖Spec.inner e f‖ := by linarith [h.1]
    nlinarith [this]
  · rw [abs_lt] at h
    linarith [h.1, h.2]

/-- The number of product stimuli on which the circuits agree. -/
theorem agreeing_products (S : Setting m n) :
    ∃ A : Finset (Fin m → Basis1), A.card = 6 ^ m - productDisagreements S ∧
      ∀ l ∈ A, Agrees S.V.threshold (output S.qc1 S.ω1 (productState n l)) (output S.qc2 S.ω2 (productState n l)) := by
  classical
  refine ⟨Finset.univ.filter fun l => ¬ DisagreeOn S (productStim n l), ?_, fun l hl => ?_⟩
  · have h1 := Finset.card_filter_add_card_filter_not (s := (Finset.univ : Finset (Fin m → Basis1))) (fun l => DisagreeOn S (productStim n l))
    have h2 : (Finset.univ : Finset (Fin m → Basis1)).card = 6 ^ m := by
      rw [Finset.card_univ, Fintype.card_fun, Fintype.card_fin]
      rfl
    have h3 : productDisagreements S = (Finset.univ.filter fun l : Fin m → Basis1 => DisagreeOn S (productStim n l)).card := by
      unfold productDisagreements
      rw [Set.ncard_eq_toFinset_card']
      congr 1
      ext l
      simp
    omega
  · have := (Finset.mem_filter.mp hl).2
    rw [productStim_disagree, not_not] at this
    exact this

/-- **C92**: two circuits of process fidelity `φ` agree on at most a fraction of `(1 + 2 φ) / (3 (1 - 2 δ))` of the product stimuli, `δ` being the fidelity
threshold. -/
theorem product_agreement_bound (S : Setting m n) (ht : S.V.threshold < 1 / 2) :
    ((6 ^ m - productDisagreements S : ℕ) : ℝ) / 6 ^ m ≤ (1 + 2 * S.fidelity) / (3 * (1 - 2 * S.V.threshold)) := by
  obtain ⟨A, hA, hag⟩ := agreeing_products S
  have hav := product_fidelity_average (m := m) S.wf1 S.wf2 S.data
  have hpos : 0 < 1 - 2 * S.V.threshold := by linarith
  have h6 : (0 : ℝ) < 6 ^ m := by positivity
  have hle : (A.card : ℝ) * (1 - 2 * S.V.threshold) ≤
      ∑ l : Fin m → Basis1, ‖Spec.inner (output S.qc1 S.ω1 (productState n l)) (output S.qc2 S.ω2 (productState n l))‖ ^ 2 := by
    rw [← nsmul_eq_mul, ← Finset.sum_const]
    calc _ ≤ ∑ l ∈ A, ‖Spec.inner (output S.qc1 S.ω1 (productState n l)) (output S.qc2 S.ω2 (productState n l))‖ ^ 2 :=
          Finset.sum_le_sum fun l hl => agrees_fidelity_bound ht (hag l hl)
      _ ≤ _ := Finset.sum_le_sum_of_subset_of_nonneg (Finset.subset_univ _) fun l _ _ => by positivity
  rw [hA] at hle
  have hφ : S.fidelity = processFidelity m S.qc1 S.ω1 S.qc2 S.ω2 := rfl
  rw [← hφ, div_le_div_iff₀ h6 (by norm_num)] at hav
  rw [div_le_div_iff₀ h6 (by linarith)]
  nlinarith [hle, hav]

theorem agreement_real (S : Setting m n) (hs : S.stateType = .random1QBasis) :
    agreement S = ENNReal.ofReal (((6 ^ m - productDisagreements S : ℕ) : ℝ) / 6 ^ m) := by
  unfold agreement
  rw [hs]
  simp only
  rw [ENNReal.ofReal_div_of_pos (by positivity), ENNReal.ofReal_natCast]
  congr 1
  rw [← Nat.cast_ofNat (R := ℝ), ← Nat.cast_pow, ENNReal.ofReal_natCast]

/-- **C92**: the probability that `K` simulations with product stimuli miss the difference between two circuits of process fidelity `φ` is at most
`((1 + 2 φ) / (3 (1 - 2 δ)))^K`, whatever other checkers are used, sequentially and in any schedule of the threads. -/
theorem product_simulations_bound [MeasurableSpace R.σ] {μ : Measure R.σ} (S : Setting m n) (hs : S.stateType = .random1QBasis) (ht : S.V.threshold < 1 / 2)
    (hμ : IdealDice R μ) (K seed : Nat) :
    (∀ (env : R.σ → Env) (s s' : R.σ → State), (∀ᵐ w ∂μ, RunWith S K R ⟨seed, w, []⟩ (env w) (s w) (s' w)) →
      (∀ (w : R.σ) (e : Event), FromEnv (env w) e → e.kind = .alternating ∨ e.kind = .construction → Answer S true e.kind e.verdict) →
      μ {w | (s' w).results.equivalence = .probablyEquivalent} ≤
        ENNReal.ofReal ((1 + 2 * S.fidelity) / (3 * (1 - 2 * S.V.threshold))) ^ K) ∧
    (∀ (env : R.σ → ParEnv) (cfg : R.σ → Configuration) (res : R.σ → Results) (s : R.σ → PState),
      (∀ᵐ w ∂μ, ParallelRunWith S K R ⟨seed, w, []⟩ (env w) (cfg w) (res w) (s w)) →
      (∀ w k c, Enabled (cfg w) k → k ≠ .simulation → (env w).may k c → Answer S false k c) →
      μ {w | (s w).results.equivalence = .probablyEquivalent} ≤
        ENNReal.ofReal ((1 + 2 * S.fidelity) / (3 * (1 - 2 * S.V.threshold))) ^ K) := by
  have hi : IdealStimuli S R μ := by
    unfold IdealStimuli
    rw [hs]
    exact hμ
  have hb : agreement S ^ K ≤ ENNReal.ofReal ((1 + 2 * S.fidelity) / (3 * (1 - 2 * S.V.threshold))) ^ K := by
    rw [agreement_real S hs]
    exact pow_le_pow_left' (ENNReal.ofReal_le_ofReal (product_agreement_bound S ht)) K
  exact ⟨fun env s s' hrun hans => (stimuli_bound S hi seed env s s' hrun hans).trans hb,
    fun env cfg res s hrun hans => (parallel_stimuli_bound S hi seed env cfg res s hrun hans).trans hb⟩

/-! ## Circuits that are close are likely to be taken for equivalent -/

/-- **C92**: the fidelity of the outputs, averaged over all product stimuli, is at least the process fidelity. -/
theorem product_fidelity_average_ge {qc1 qc2 : QC n} {ω1 ω2 : Equiv.Perm (Fin n)} (hd : m ≤ n) :
    processFidelity m qc1 ω1 qc2 ω2 ≤
      (∑ l : Fin m → Basis1, ‖Spec.inner (output qc1 ω1 (productState n l)) (output qc2 ω2 (productState n l))‖ ^ 2) / 6 ^ m := by
  have h := product_average_ge m (overlaps m qc1 ω1 qc2 ω2)
  rw [overlaps_tr] at h
  have hsum : ∑ l, Complex.normSq (quad (overlaps m qc1 ω1 qc2 ω2) l) =
      ∑ l : Fin m → Basis1, ‖Spec.inner (output qc1 ω1 (productState n l)) (output qc2 ω2 (productState n l))‖ ^ 2 :=
    Finset.sum_congr rfl fun l _ => by rw [inner_product_states hd, Complex.normSq_eq_norm_sq]
  rw [hsum] at h
  have h6 : (0 : ℝ) < 6 ^ m := by positivity
  have e : (9 : ℝ) ^ m * (4 ^ m * processFidelity m qc1 ω1 qc2 ω2) = 6 ^ m * (6 ^ m * processFidelity m qc1 ω1 qc2 ω2) := by
    rw [← mul_assoc, ← mul_assoc, ← mul_pow, ← mul_pow]
    norm_num
  rw [e] at h
  rw [le_div_iff₀ h6, mul_comm]
  exact le_of_mul_le_mul_left h h6

/-- **C92**: two circuits of process fidelity `φ` differ visibly on at most a fraction of `(1 - φ) / δ` of the product stimuli. -/
theorem product_disagreement_bound (S : Setting m n) : (productDisagreements S : ℝ) / 6 ^ m ≤ (1 - S.fidelity) / S.V.threshold := by
  classical
  have hav := product_fidelity_average_ge (m := m) (qc1 := S.qc1) (ω1 := S.ω1) (qc2 := S.qc2) (ω2 := S.ω2) S.data
  have hφ : S.fidelity = processFidelity m S.qc1 S.ω1 S.qc2 S.ω2 := rfl
  rw [← hφ] at hav
  have h6 : (0 : ℝ) < 6 ^ m := by positivity
  rw [le_div_iff₀ h6] at hav
  have hcard : (Finset.univ : Finset (Fin m → Basis1)).card = 6 ^ m := by
    rw [Finset.card_univ, Fintype.card_fun, Fintype.card_fin]
    rfl
  have h3 : productDisagreements S = (Finset.univ.filter fun l : Fin m → Basis1 => DisagreeOn S (productStim n l)).card := by
    unfold productDisagreements
    rw [Set.ncard_eq_toFinset_card']
    congr 1
    ext l
    simp
  have hle1 : ∀ l : Fin m → Basis1, ‖Spec.inner (output S.qc1 S.ω1 (productState n l)) (output S.qc2 S.ω2 (productState n l))‖ ≤ 1 := by
    intro l
    obtain ⟨hn, _⟩ := productState_ok S.data l
    refine (inner_bound _ _).trans ?_
    rw [nrm_normalised (output_normalised S.qc1 S.ω1 S.wf1.ops _ hn), nrm_normalised (output_normalised S.qc2 S.ω2 S.wf2.ops _ hn), mul_one]
  have hbound : (productDisagreements S : ℝ) * S.V.threshold ≤
      ∑ l : Fin m → Basis1, (1 - ‖Spec.inner (output S.qc1 S.ω1 (productState n l)) (output S.qc2 S.ω2 (productState n l))‖ ^ 2) := by
    rw [h3, ← nsmul_eq_mul, ← Finset.sum_const]
    refine le_trans (Finset.sum_le_sum fun l hl => ?_) (Finset.sum_le_sum_of_subset_of_nonneg (Finset.subset_univ _) fun l _ _ => ?_)
    · have hdis := (Finset.mem_filter.mp hl).2
      rw [productStim_disagree] at hdis
      unfold Agrees at hdis
      push Not at hdis
      have h1 := hle1 l
      have h0 := norm_nonneg (Spec.inner (output S.qc1 S.ω1 (productState n l)) (output S.qc2 S.ω2 (productState n l)))
      have h2 := hdis.2
      rw [abs_of_nonpos (by nlinarith)] at h2
      linarith
    · have h1 := hle1 l
      have h0 := norm_nonneg (Spec.inner (output S.qc1 S.ω1 (productState n l)) (output S.qc2 S.ω2 (productState n l)))
      nlinarith
  rw [Finset.sum_sub_distrib, Finset.sum_const, hcard, nsmul_eq_mul, mul_one] at hbound
  push_cast at hbound
  rw [div_le_div_iff₀ h6 S.threshold]
  nlinarith

theorem productDisagreements_le (S : Setting m n) : productDisagreements S ≤ 6 ^ m := by
  unfold productDisagreements
  refine (Set.ncard_le_ncard (Set.subset_univ _)).trans ?_
  rw [Set.ncard_univ, Nat.card_eq_fintype_card, Fintype.card_fun, Fintype.card_fin]
  exact Nat.le_refl _

theorem agreement_pow_ge (S : Setting m n) (hs : S.stateType = .random1QBasis) (K : Nat) :
    ENNReal.ofReal (1 - K * ((1 - S.fidelity) / S.V.threshold)) ≤ agreement S ^ K := by
  rw [agreement_real S hs, ← ENNReal.ofReal_pow (by positivity)]
  refine ENNReal.ofReal_le_ofReal ?_
  have h6 : (0 : ℝ) < 6 ^ m := by positivity
  have hle := productDisagreements_le S
  have hd : (productDisagreements S : ℝ) ≤ 6 ^ m := by exact_mod_cast hle
  have e : ((6 ^ m - productDisagreements S : ℕ) : ℝ) / 6 ^ m = 1 + -((productDisagreements S : ℝ) / 6 ^ m) := by
    rw [Nat.cast_sub hle, sub_div]
    push_cast
    rw [div_self h6.ne']
    ring
  have hone : (productDisagreements S : ℝ) / 6 ^ m ≤ 1 := by
    rw [div_le_one h6]
    exact hd
  have hb := one_add_mul_le_pow (a := -((productDisagreements S : ℝ) / 6 ^ m)) (by linarith) K
  rw [e]
  refine le_trans ?_ hb
  have := mul_le_mul_of_nonneg_left (product_disagreement_bound S) (Nat.cast_nonneg (α := ℝ) K)
  linarith

/-- **C92**: `K` simulations with product stimuli take two circuits of process fidelity `φ` for equivalent with a probability of at least
`1 - K (1 - φ) / δ`, sequentially and in any schedule of the threads, if no other checker is used. -/
theorem product_simulations_miss [MeasurableSpace R.σ] {μ : Measure R.σ} (S : Setting m n) (hs : S.stateType = .random1QBasis)
    (hμ : IdealDice R μ) (K seed : Nat) :
    (∀ (env : R.σ → Env) (s s' : R.σ → State), (∀ᵐ w ∂μ, RunWith S K R ⟨seed, w, []⟩ (env w) (s w) (s' w)) → (∀ w, OnlySimulations (s w)) →
      ENNReal.ofReal (1 - K * ((1 - S.fidelity) / S.V.threshold)) ≤ μ {w | (s' w).results.equivalence = .probablyEquivalent}) ∧
    (∀ (env : R.σ → ParEnv) (cfg : R.σ → Configuration) (res : R.σ → Results) (s : R.σ → PState),
      (∀ᵐ w ∂μ, ParallelRunWith S K R ⟨seed, w, []⟩ (env w) (cfg w) (res w) (s w)) → (∀ w, NothingElse (cfg w)) →
      ENNReal.ofReal (1 - K * ((1 - S.fidelity) / S.V.threshold)) ≤ μ {w | (s w).results.equivalence = .probablyEquivalent}) := by
  have hi : IdealStimuli S R μ := by
    unfold IdealStimuli
    rw [hs]
    exact hμ
  have hb := agreement_pow_ge S hs K
  exact ⟨fun env s s' hrun honly => hb.trans_eq (stimuli_probability S hi seed env s s' hrun honly).1.symm,
    fun env cfg res s hrun honly => hb.trans_eq (parallel_stimuli_probability S hi seed env cfg res s hrun honly).1.symm⟩

/-! ## What the process fidelity says -/

theorem processFidelity_le_one {qc1 qc2 : QC n} {ω1 ω2 : Equiv.Perm (Fin n)} (h1 : WellFormed qc1 ω1) (h2 : WellFormed qc2 ω2) (hd : m ≤ n) :
    processFidelity m qc1 ω1 qc2 ω2 ≤ 1 := by
  have h := tr_le (overlaps m qc1 ω1 qc2 ω2)
  rw [overlaps_tr] at h
  have hf := overlaps_frob h1 h2 hd
  have h4 : (4 : ℝ) ^ m = 2 ^ m * 2 ^ m := by rw [← mul_pow]; norm_num
  have hp : (0 : ℝ) < 4 ^ m := by positivity
  have h5 : (2 : ℝ) ^ m * frob (overlaps m qc1 ω1 qc2 ω2) ≤ 4 ^ m := by
    rw [h4]
    gcongr
  have : 4 ^ m * processFidelity m qc1 ω1 qc2 ω2 ≤ 4 ^ m * 1 := by linarith
  exact le_of_mul_le_mul_left this hp

/-- The process fidelity is one exactly for circuits that are the same up to a global phase. -/
theorem processFidelity_one_iff {qc1 qc2 : QC n} {ω1 ω2 : Equiv.Perm (Fin n)} (h1 : WellFormed qc1 ω1) (h2 : WellFormed qc2 ω2) (hd : m ≤ n) :
    processFidelity m qc1 ω1 qc2 ω2 = 1 ↔ SameUpToPhase (flags m n) qc1 ω1 qc2 ω2 := by
  have hnorm : ∀ x y : Basis n, ‖Spec.inner (output qc1 ω1 (basisState x)) (output qc2 ω2 (basisState y))‖ ≤ 1 := by
    intro x y
    refine (inner_bound _ _).trans ?_
    rw [nrm_normalised (output_normalised qc1 ω1 h1.ops _ (basisState_normalised _)),
      nrm_normalised (output_normalised qc2 ω2 h2.ops _ (basisState_normalised _)), mul_one]
  constructor
  · intro hφ
    set g : Basis m → ℂ := fun x => Spec.inner (output qc1 ω1 (basisState (dataInput n x))) (output qc2 ω2 (basisState (dataInput n x))) with hg
    set c : ℂ := (∑ x, g x) / 2 ^ m with hc
    have hc1 : ‖c‖ = 1 := by
      have h3 : ‖c‖ ^ 2 = 1 := hφ
      have h4 : 0 ≤ ‖c‖ := norm_nonneg _
      nlinarith
    have hcc : star c * c = 1 := by
      have h5 := Complex.normSq_eq_conj_mul_self (z := c)
      rw [Complex.normSq_eq_norm_sq, hc1] at h5
      rw [← show ((1 : ℝ) : ℂ) = 1 from Complex.ofReal_one, ← one_pow (2 : ℕ), h5]
      rfl
    -- every summand is the phase
    have hle : ∀ x, (star c * g x).re ≤ 1 := by
      intro x
      refine (Complex.re_le_norm _).trans ?_
      rw [norm_mul, norm_star, hc1, one_mul]
      exact hnorm _ _
    have hsum : ∑ x : Basis m, (star c * g x).re = ∑ _x : Basis m, (1 : ℝ) := by
      rw [← Complex.re_sum, ← Finset.mul_sum]
      have h6 : ∑ x, g x = 2 ^ m * c := by
        rw [hc]
        field_simp
      rw [h6, mul_left_comm, hcc]
      simp [← Complex.ofReal_ofNat, ← Complex.ofReal_pow]
    have hre : ∀ x, (star c * g x).re = 1 := fun x =>
      (Finset.sum_eq_sum_iff_of_le fun x _ => hle x).mp hsum x (Finset.mem_univ x)
    have hone : ∀ x, g x = c := by
      intro x
      have h7 : ‖star c * g x‖ ≤ 1 := by
        rw [norm_mul, norm_star, hc1, one_mul]
        exact hnorm _ _
      have h8 : star c * g x = 1 := by
        have h9 := Complex.sq_norm (star c * g x)
        rw [Complex.normSq_apply, hre x] at h9
        have h10 : (star c * g x).im = 0 := by
          have := norm_nonneg (star c * g x)
          nlinarith
        exact Complex.ext (hre x) h10
      calc g x = (star c * c) * g x := by rw [hcc, one_mul]
        _ = c * (star c * g x) := by ring
        _ = c := by rw [h8, mul_one]
    -- so the outputs are multiples with the conjugate phase
    have hout : ∀ x : Basis m, output qc1 ω1 (basisState (dataInput n x)) = star c • output qc2 ω2 (basisState (dataInput n x)) := by
      intro x
      have h11 := multiple_of_inner (output_normalised qc1 ω1 h1.ops _ (basisState_normalised (dataInput n x)))
        (output_normalised qc2 ω2 h2.ops _ (basisState_normalised (dataInput n x))) (by rw [show Spec.inner _ _ = g x from rfl, hone x, hc1])
      rw [inner_conj, show Spec.inner (output qc1 ω1 (basisState (dataInput n x))) (output qc2 ω2 (basisState (dataInput n x))) = g x from rfl, hone x] at h11
      exact h11
    refine ⟨star c, by rw [norm_star, hc1], fun v hv => ?_⟩
    funext z
    rw [Pi.smul_apply, output_columns, output_columns qc2, Finset.smul_sum]
    refine Finset.sum_congr rfl fun b _ => ?_
    by_cases hb : v b = 0
    · rw [hb]; simp
    · have hfree : AncillaFree m b := fun q hq => hv b hb q (by rw [flags_get m n hd]; simpa using hq)
      rw [← dataInput_surjective hd hfree, hout]
      simp only [Pi.smul_apply, smul_eq_mul]
      ring
  · rintro ⟨c, hc, hs⟩
    have hone : ∀ x : Basis m, Spec.inner (output qc1 ω1 (basisState (dataInput n x))) (output qc2 ω2 (basisState (dataInput n x))) = star c := by
      intro x
      rw [hs _ fun b hb q hq => ?_]
      · rw [Sem.inner_smul_left]
        have := output_normalised qc2 ω2 h2.ops _ (basisState_normalised (dataInput n x))
        unfold Normalised at this
        rw [this, mul_one]
      · unfold basisState at hb
        split at hb
        · rename_i h
          subst h
          rw [flags_get m n hd] at hq
          exact dataInput_free x q (of_decide_eq_true hq)
        · exact absurd rfl hb
    unfold processFidelity
    rw [Finset.sum_congr rfl fun x _ => hone x]
    simp [hc]

end QCEC.Props
