import Verif.Props.DetectionKinds
import Verif.Lemmas.Rounding
/-!
# C92: product states expose every difference

Circuits that agree on all product stimuli are equivalent up to a global phase.  (Already the states `|0⟩`, `|1⟩` and `|+⟩` would do.)
-/
namespace QCEC.Props
open QCEC QCEC.DD QCEC.Sem QCEC.Gen QCEC.ZX QCEC.Spec QCEC.Spec.ZX QCEC.Mgr QCEC.Prep QCEC.Par MeasureTheory Matrix

variable {m n : Nat} {R : Rng}

/-! ## The state of a product stimulus -/

/-- The state of qubit `q`. -/
def stateAt {m : Nat} (l : Fin m → Basis1) (q : Nat) : Basis1 := if h : q < m then l ⟨q, h⟩ else .zero

/-- The state vector. -/
noncomputable def productState (n : Nat) {m : Nat} (l : Fin m → Basis1) : Basis n → ℂ := fun z => ∏ q : Fin n, amp (stateAt l q.1) (z q)

theorem productStim_get {l : Fin m → Basis1} {q : Nat} : (List.ofFn l ++ List.replicate (n - m) Basis1.zero).getD q .zero = stateAt l q := by
  unfold stateAt
  rw [List.getD_eq_getElem?_getD]
  split
  · rename_i h
    rw [List.getElem?_append_left (by simpa using h)]
    simp [h]
  · rename_i h
    rw [List.getElem?_append_right (by simpa using h), List.getElem?_replicate]
    split <;> rfl

theorem productStim_denotes {cliff : (k seed : Nat) → Basis k → ℂ} (l : Fin m → Basis1) (x : Basis n → ℂ) :
    Denotes cliff (productStim n l) x ↔ x = productState n l := by
  constructor
  · intro h
    cases h
    funext z
    unfold productState
    exact Finset.prod_congr rfl fun q _ => by rw [productStim_get]
  · rintro rfl
    have := Denotes.product (n := n) (cliff := cliff) (List.ofFn l ++ List.replicate (n - m) Basis1.zero)
    simp only [productStim_get] at this
    exact this

theorem productState_ok (hd : m ≤ n) (l : Fin m → Basis1) : Normalised (productState n l) ∧ AncillasZero (flags m n) (productState n l) := by
  obtain ⟨e, g', hg⟩ := product_all_combinations (List.ofFn l) n (by simpa using hd)
  rw [List.length_ofFn] at hg
  exact stimulus_state hd hg (cliff := fun _ _ => basisState fun _ => false) (fun _ _ => basisState_normalised _)
    ((productStim_denotes l _).mpr rfl)

/-- The classical input `b` as product stimulus. -/
def classicalStates (m : Nat) (b : Basis n) (hd : m ≤ n) : Fin m → Basis1 := fun i => if b (Fin.castLE hd i) then .one else .zero

theorem stateAt_classical (hd : m ≤ n) {b : Basis n} (hb : AncillaFree m b) (q : Fin n) :
    stateAt (classicalStates m b hd) q.1 = if b q then .one else .zero := by
  unfold stateAt classicalStates
  split
  · rfl
  · rename_i h
    rw [hb q (by omega)]
    rfl

theorem amp_classical (c d : Bool) : amp (if c then .one else .zero) d = if d = c then 1 else 0 := by
  cases c <;> cases d <;> simp [amp]

theorem prod_classical (b z : Basis n) : ∏ q : Fin n, amp (if b q then .one else .zero) (z q) = if z = b then 1 else 0 := by
  simp only [amp_classical]
  rw [Finset.prod_boole]
  simp [funext_iff]

theorem productState_classical (hd : m ≤ n) {b : Basis n} (hb : AncillaFree m b) :
    productState n (classicalStates m b hd) = basisState b := by
  funext z
  unfold productState basisState
  rw [← prod_classical]
  exact Finset.prod_congr rfl fun q _ => by rw [stateAt_classical hd hb]

theorem amp_plus (d : Bool) : amp .plus d = (1 / (Real.sqrt 2 : ℂ)) * (amp .zero d + amp .one d) := by
  cases d <;> simp [amp]

/-- Qubit `i` in the state `|+⟩`, the others classical. -/
theorem productState_plus (hd : m ≤ n) {b : Basis n} (hb : AncillaFree m b) (i : Fin m) :
    productState n (Function.update (classicalStates m b hd) i .plus) =
      (1 / (Real.sqrt 2 : ℂ)) • (basisState (Function.update b (Fin.castLE hd i) false) + basisState (Function.update b (Fin.castLE hd i) true)) := by
  have hother : ∀ q : Fin n, q ≠ Fin.castLE hd i → stateAt (Function.update (classicalStates m b hd) i .plus) q.1 = if b q then .one else .zero := by
    intro q hq
    rw [← stateAt_classical hd hb q]
    unfold stateAt
    split
    · rename_i h
      rw [Function.update_of_ne]
      intro he
      apply hq
      rw [← he]
      rfl
    · rfl
  have hself : stateAt (Function.update (classicalStates m b hd) i .plus) (Fin.castLE hd i).1 = .plus := by
    unfold stateAt
    rw [dif_pos (by simp)]
    simp
  have hflip : ∀ (c : Bool) (z : Basis n), basisState (Function.update b (Fin.castLE hd i) c) z =
      amp (if c then .one else .zero) (z (Fin.castLE hd i)) *
        ∏ q ∈ Finset.univ.erase (Fin.castLE hd i), amp (if b q then .one else .zero) (z q) := by
    intro c z
    unfold basisState
    rw [← prod_classical, ← Finset.mul_prod_erase _ _ (Finset.mem_univ (Fin.castLE hd i)), Function.update_self]
    congr 1
    refine Finset.prod_congr rfl fun q hq => ?_
    rw [Function.update_of_ne (Finset.ne_of_mem_erase hq)]
  funext z
  show productState n _ z = _ * (basisState _ z + basisState _ z)
  rw [hflip, hflip]
  unfold productState
  rw [← Finset.mul_prod_erase _ _ (Finset.mem_univ (Fin.castLE hd i)), hself, amp_plus]
  have : ∏ q ∈ Finset.univ.erase (Fin.castLE hd i), amp (stateAt (Function.update (classicalStates m b hd) i .plus) q.1) (z q) =
      ∏ q ∈ Finset.univ.erase (Fin.castLE hd i), amp (if b q then .one else .zero) (z q) :=
    Finset.prod_congr rfl fun q hq => by rw [hother q (Finset.ne_of_mem_erase hq)]
  rw [this]
  simp only [Bool.false_eq_true, if_false, if_true]
  ring

/-! ## Equal outputs up to a phase -/

theorem inner_self_zero {v : Basis n → ℂ} (h : Spec.inner v v = 0) : v = 0 := by
  funext z
  unfold Spec.inner at h
  have h1 : ∀ x, star (v x) * v x = ((Complex.normSq (v x) : ℝ) : ℂ) := fun x => by
    rw [Complex.normSq_eq_conj_mul_self]
    rfl
  rw [Finset.sum_congr rfl fun x _ => h1 x, ← Complex.ofReal_sum, Complex.ofReal_eq_zero,
    Finset.sum_eq_zero_iff_of_nonneg fun x _ => Complex.normSq_nonneg _] at h
  exact Complex.normSq_eq_zero.mp (h z (Finset.mem_univ z))

/-- Normalised states whose inner product has modulus one are equal up to a phase. -/
theorem multiple_of_inner {e f : Basis n → ℂ} (he : Normalised e) (hf : Normalised f) (h : ‖Spec.inner e f‖ = 1) :
    e = Spec.inner f e • f := by
  rw [← sub_eq_zero]
  apply inner_self_zero
  unfold Normalised at he hf
  have hc : star (Spec.inner f e) = Spec.inner e f := by rw [← inner_conj]
  have hn : Spec.inner f e * Spec.inner e f = 1 := by
    rw [← hc]
    have := Complex.mul_conj (Spec.inner f e)
    have h2 : Complex.normSq (Spec.inner f e) = 1 := by
      rw [Complex.normSq_eq_norm_sq, inner_conj e f, norm_star, h]
      norm_num
    rw [h2] at this
    exact_mod_cast this
  rw [inner_sub_left, inner_sub_right, inner_sub_right, inner_smul_left, inner_smul_right', inner_smul_left, inner_smul_right', hc, he, hf]
  linear_combination -hn

/-- **C92**: circuits whose outputs on all product stimuli are equal up to a phase – a different one for each stimulus, perhaps – are
equivalent up to a global phase, and conversely. -/
theorem product_stimuli_complete {qc1 qc2 : QC n} {ω1 ω2 : Equiv.Perm (Fin n)} (h1 : WellFormed qc1 ω1) (h2 : WellFormed qc2 ω2) (hd : m ≤ n) :
    SameUpToPhase (flags m n) qc1 ω1 qc2 ω2 ↔
      ∀ l : Fin m → Basis1, ‖Spec.inner (output qc1 ω1 (productState n l)) (output qc2 ω2 (productState n l))‖ = 1 := by
  constructor
  · rintro ⟨c, hc, hs⟩ l
    obtain ⟨hn, ha⟩ := productState_ok hd l
    rw [hs _ ha, inner_smul_left]
    have := output_normalised qc2 ω2 h2.ops _ hn
    unfold Normalised at this
    rw [this, mul_one, norm_star, hc]
  · intro hall
    have hmul : ∀ l : Fin m → Basis1, ∃ c : ℂ, output qc1 ω1 (productState n l) = c • output qc2 ω2 (productState n l) := by
      intro l
      obtain ⟨hn, _⟩ := productState_ok hd l
      exact ⟨_, multiple_of_inner (output_normalised qc1 ω1 h1.ops _ hn) (output_normalised qc2 ω2 h2.ops _ hn) (hall l)⟩
    have hbasis : ∀ b : Basis n, AncillaFree m b → ∃ c : ℂ, output qc1 ω1 (basisState b) = c • output qc2 ω2 (basisState b) := by
      intro b hb
      have := hmul (classicalStates m b hd)
      rwa [productState_classical hd hb] at this
    -- the phases of inputs that differ in one qubit are equal
    have hadd : ∀ (qc : QC n) (ω : Equiv.Perm (Fin n)) (t : ℂ) (v w : Basis n → ℂ),
        output qc ω (t • (v + w)) = t • (output qc ω v + output qc ω w) := by
      intro qc ω t v w
      rw [output_eq, output_eq, output_eq, Matrix.mulVec_smul, Matrix.mulVec_add]
    have ht : (1 / (Real.sqrt 2 : ℂ)) ≠ 0 := by
      have hs := sqrt_two_sq
      intro h0
      rw [div_eq_zero_iff] at h0
      rcases h0 with h0 | h0
      · exact one_ne_zero h0
      · rw [h0] at hs
        norm_num at hs
    have hlin : ∀ (b0 b1 : Basis n), b0 ≠ b1 → ∀ s t : ℂ,
        s • output qc2 ω2 (basisState b0) + t • output qc2 ω2 (basisState b1) = 0 → s = 0 ∧ t = 0 := by
      intro b0 b1 hne s t h0
      have e1 : output qc2 ω2 (s • basisState b0 + t • basisState b1) = 0 := by
        rw [output_eq, Matrix.mulVec_add, Matrix.mulVec_smul, Matrix.mulVec_smul, ← output_eq, ← output_eq, h0]
      have e2 : s • basisState b0 + t • basisState b1 = (0 : Basis n → ℂ) := by
        apply inner_self_zero
        rw [← inner_unitary (funcOf qc2 ω2) (funcOf_unitary qc2 ω2 h2.ops), ← output_eq, e1]
        simp [Spec.inner]
      refine ⟨?_, ?_⟩
      · have := congrFun e2 b0
        simpa [basisState, hne] using this
      · have := congrFun e2 b1
        simpa [basisState, Ne.symm hne] using this
    have hstep : ∀ (b : Basis n) (i : Fin m) (c : ℂ), AncillaFree m b →
        output qc1 ω1 (basisState (Function.update b (Fin.castLE hd i) false)) =
          c • output qc2 ω2 (basisState (Function.update b (Fin.castLE hd i) false)) →
        output qc1 ω1 (basisState (Function.update b (Fin.castLE hd i) true)) =
          c • output qc2 ω2 (basisState (Function.update b (Fin.castLE hd i) true)) := by
      intro b i c hb hc
      have hfree : AncillaFree m (Function.update b (Fin.castLE hd i) true) := by
        intro q hq
        rw [Function.update_of_ne]
        · exact hb q hq
        · rintro rfl
          have : (Fin.castLE hd i).1 < m := i.2
          omega
      obtain ⟨c', hc'⟩ := hbasis _ hfree
      obtain ⟨d, hd'⟩ := hmul (Function.update (classicalStates m b hd) i .plus)
      rw [productState_plus hd hb, hadd, hadd, hc, hc', smul_comm d] at hd'
      have hd' := smul_right_injective _ ht hd'
      have hz : (c - d) • output qc2 ω2 (basisState (Function.update b (Fin.castLE hd i) false)) +
          (c' - d) • output qc2 ω2 (basisState (Function.update b (Fin.castLE hd i) true)) = 0 := by
        rw [sub_smul, sub_smul, ← sub_eq_zero.mpr hd', smul_add]
        abel
      obtain ⟨z1, z2⟩ := hlin _ _ (by
        intro h
        have := congrFun h (Fin.castLE hd i)
        simp at this) _ _ hz
      rw [hc', sub_eq_zero.mp z2, ← sub_eq_zero.mp z1]
    -- hence all are equal
    let zero : Basis n := fun _ => false
    obtain ⟨c, hc⟩ := hbasis zero fun _ _ => rfl
    have hcol : ∀ (b : Basis n), AncillaFree m b → ∀ s : Finset (Fin n),
        output qc1 ω1 (basisState fun q => decide (q ∈ s) && b q) = c • output qc2 ω2 (basisState fun q => decide (q ∈ s) && b q) := by
      intro b hb s
      induction s using Finset.induction_on with
      | empty => simpa using hc
      | insert q s hq ih =>
        cases hbq : b q with
        | false =>
          have : (fun q' => decide (q' ∈ insert q s) && b q') = fun q' => decide (q' ∈ s) && b q' := by
            funext q'
            by_cases he : q' = q
            · rw [he, hbq]; simp
            · simp [he]
          rw [this]
          exact ih
        | true =>
          have hqm : q.1 < m := by
            by_contra hno
            rw [hb q (by omega)] at hbq
            cases hbq
          have e0 : Function.update (fun q' => decide (q' ∈ s) && b q') (Fin.castLE hd ⟨q.1, hqm⟩) false =
              fun q' => decide (q' ∈ s) && b q' := by
            funext q'
            by_cases he : q' = q
            · subst he
              show Function.update _ q' _ _ = _
              rw [Function.update_self]
              simp [hq]
            · show Function.update _ q _ _ = _
              rw [Function.update_of_ne he]
          have e1 : Function.update (fun q' => decide (q' ∈ s) && b q') (Fin.castLE hd ⟨q.1, hqm⟩) true =
              fun q' => decide (q' ∈ insert q s) && b q' := by
            funext q'
            by_cases he : q' = q
            · subst he
              show Function.update _ q' _ _ = _
              rw [Function.update_self]
              simp [hbq]
            · show Function.update _ q _ _ = _
              rw [Function.update_of_ne he]
              simp [he]
          have := hstep (fun q' => decide (q' ∈ s) && b q') ⟨q.1, hqm⟩ c (fun q' hq' => by simp [hb q' hq']) (by rw [e0]; exact ih)
          rw [e1] at this
          exact this
    refine ⟨c, ?_, ?_⟩
    · have n1 := output_normalised qc1 ω1 h1.ops _ (basisState_normalised zero)
      have n2 := output_normalised qc2 ω2 h2.ops _ (basisState_normalised zero)
      unfold Normalised at n1 n2
      rw [hc, inner_smul_left, inner_smul_right', n2, mul_one] at n1
      have h3 : ((‖c‖ ^ 2 : ℝ) : ℂ) = 1 := by
        rw [← n1, ← Complex.normSq_eq_norm_sq, Complex.normSq_eq_conj_mul_self]
        rfl
      have h4 : ‖c‖ ^ 2 = 1 := by exact_mod_cast h3
      exact (pow_eq_one_iff_of_nonneg (norm_nonneg c) (by decide)).mp h4
    · intro v hv
      funext z
      rw [Pi.smul_apply, output_columns, output_columns qc2, Finset.smul_sum]
      refine Finset.sum_congr rfl fun b _ => ?_
      by_cases hb : v b = 0
      · rw [hb]; simp
      · have := hcol b (fun q hq => hv b hb q (by rw [flags_get m n hd]; simpa using hq)) Finset.univ
        simp only [Finset.mem_univ, decide_true, Bool.true_and] at this
        rw [this, Pi.smul_apply, smul_eq_mul, smul_eq_mul]
        ring

instance : Finite Basis1 := Finite.of_surjective _ basis1_bijective.2

/-! ## Random product stimuli find every difference -/

/-- **C92**: if the circuits are not equivalent up to a global phase, then they disagree on some product stimulus for every threshold small
enough. -/
theorem product_stimuli_detect {qc1 qc2 : QC n} {ω1 ω2 : Equiv.Perm (Fin n)} (h1 : WellFormed qc1 ω1) (h2 : WellFormed qc2 ω2) (hd : m ≤ n)
    (hne : ¬ SameUpToPhase (flags m n) qc1 ω1 qc2 ω2) :
    ∃ thr : ℝ, 0 < thr ∧ ∀ S : Setting m n, S.qc1 = qc1 → S.ω1 = ω1 → S.qc2 = qc2 → S.ω2 = ω2 → S.V.threshold ≤ thr →
      0 < productDisagreements S := by
  rw [product_stimuli_complete h1 h2 hd] at hne
  push Not at hne
  obtain ⟨l, hl⟩ := hne
  obtain ⟨hn, _⟩ := productState_ok hd l
  have n1 := nrm_normalised (output_normalised qc1 ω1 h1.ops _ hn)
  have n2 := nrm_normalised (output_normalised qc2 ω2 h2.ops _ hn)
  have hle := inner_bound (output qc1 ω1 (productState n l)) (output qc2 ω2 (productState n l))
  rw [n1, n2, mul_one] at hle
  have hlt := lt_of_le_of_ne hle hl
  have h0 := norm_nonneg (Spec.inner (output qc1 ω1 (productState n l)) (output qc2 ω2 (productState n l)))
  refine ⟨1 - ‖Spec.inner (output qc1 ω1 (productState n l)) (output qc2 ω2 (productState n l))‖, by linarith, ?_⟩
  rintro S rfl rfl rfl rfl hthr
  have hbad : DisagreeOn S (productStim n l) := by
    refine ⟨_, (productStim_denotes l _).mpr rfl, ?_⟩
    have hre := Complex.re_le_norm (Spec.inner (output S.qc1 S.ω1 (productState n l)) (output S.qc2 S.ω2 (productState n l)))
    rintro (h | h)
    · have := (abs_lt.mp h).1
      linarith
    · have := (abs_lt.mp h).1
      nlinarith
  unfold productDisagreements
  exact (Set.ncard_pos (Set.toFinite _)).mpr ⟨l, hbad⟩

/-- Equivalent circuits agree on all product stimuli. -/
theorem product_stimuli_agree (S : Setting m n) (h : SameUpToPhase (flags m n) S.qc1 S.ω1 S.qc2 S.ω2) : productDisagreements S = 0 := by
  have hall := (product_stimuli_complete S.wf1 S.wf2 S.data).mp h
  unfold productDisagreements
  rw [Set.ncard_eq_zero (Set.toFinite _), Set.eq_empty_iff_forall_notMem]
  rintro l ⟨x, hx, hno⟩
  rw [productStim_denotes] at hx
  subst hx
  refine hno (Or.inr ?_)
  rw [hall l]
  simpa using S.threshold

/-- The fraction of the product stimuli on which the circuits agree. -/
theorem agreement_lt (S : Setting m n) (ht : S.stateType = .random1QBasis) (h : 0 < productDisagreements S) : agreement S < 1 := by
  unfold agreement
  rw [ht]
  simp only
  have hp : 0 < 6 ^ m := by positivity
  refine (ENNReal.div_lt_iff (Or.inl (by exact_mod_cast hp.ne')) (Or.inl (ENNReal.natCast_ne_top _))).mpr ?_
  rw [one_mul]
  exact_mod_cast (by omega : 6 ^ m - productDisagreements S < 6 ^ m)

theorem agreement_one (S : Setting m n) (ht : S.stateType = .random1QBasis) (h : productDisagreements S = 0) : agreement S = 1 := by
  unfold agreement
  rw [ht, h]
  simp only [Nat.sub_zero]
  have hp : 0 < 6 ^ m := by positivity
  exact ENNReal.div_self (by exact_mod_cast hp.ne') (ENNReal.natCast_ne_top _)

section Probability
variable [MeasurableSpace R.σ] {μ : Measure R.σ}

/-- **C92**: if the circuits disagree on some product stimulus, then the probability that simulations miss it gets below every bound: for
every `ε` there is a number of simulations from which on every run, sequential or parallel, with any other checkers, reports
`ProbablyEquivalent` with a probability below `ε`. -/
theorem product_simulations_converge (S : Setting m n) (ht : S.stateType = .random1QBasis) (hdis : 0 < productDisagreements S)
    (hμ : IdealDice R μ) {ε : ENNReal} (hε : 0 < ε) :
    ∃ K0 : Nat, ∀ K, K0 ≤ K → ∀ seed : Nat,
      (∀ (env : R.σ → Env) (s s' : R.σ → State), (∀ᵐ w ∂μ, RunWith S K R ⟨seed, w, []⟩ (env w) (s w) (s' w)) →
        (∀ (w : R.σ) (e : Event), FromEnv (env w) e → e.kind = .alternating ∨ e.kind = .construction → Answer S true e.kind e.verdict) →
        μ {w | (s' w).results.equivalence = .probablyEquivalent} < ε) ∧
      (∀ (env : R.σ → ParEnv) (cfg : R.σ → Configuration) (res : R.σ → Results) (s : R.σ → PState),
        (∀ᵐ w ∂μ, ParallelRunWith S K R ⟨seed, w, []⟩ (env w) (cfg w) (res w) (s w)) →
        (∀ w k c, Enabled (cfg w) k → k ≠ .simulation → (env w).may k c → Answer S false k c) →
        μ {w | (s w).results.equivalence = .probablyEquivalent} < ε) := by
  have hideal : IdealStimuli S R μ := by
    unfold IdealStimuli
    rw [ht]
    exact hμ
  have hlim := ENNReal.tendsto_pow_atTop_nhds_zero_of_lt_one (agreement_lt S ht hdis)
  obtain ⟨K0, hK0⟩ := Filter.eventually_atTop.mp (hlim.eventually (gt_mem_nhds hε))
  refine ⟨K0, fun K hK seed => ⟨?_, ?_⟩⟩
  · intro env s s' hrun hans
    exact lt_of_le_of_lt (stimuli_bound S hideal seed env s s' hrun hans) (hK0 K hK)
  · intro env cfg res s hrun hans
    exact lt_of_le_of_lt (parallel_stimuli_bound S hideal seed env cfg res s hrun hans) (hK0 K hK)

end Probability

end QCEC.Props
