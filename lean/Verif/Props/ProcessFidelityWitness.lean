import Verif.Props.ProcessFidelity
import Verif.Props.DetectionStimuliWitness
/-!
# C92: the bound by the process fidelity in a concrete case
-/
namespace QCEC.Props
open QCEC QCEC.DD QCEC.Sem QCEC.Gen QCEC.ZX QCEC.Spec QCEC.Spec.ZX QCEC.Mgr QCEC.Prep QCEC.Par MeasureTheory

variable {n : Nat}

/-- The process fidelity of a Z gate and no gate is zero. -/
theorem zSetting_fidelity : zSetting.fidelity = 0 := by
  have h : processFidelity 2 justZ 1 nothing2 1 = 0 := by
    unfold processFidelity
    have hx : ∀ x : Basis 2, Spec.inner (output justZ 1 (basisState (dataInput 2 x))) (output nothing2 1 (basisState (dataInput 2 x))) =
        if x 0 = true then -1 else 1 := by
      intro x
      have hd : dataInput 2 x = x := by
        funext q
        unfold dataInput
        rw [dif_pos q.2]
      rw [hd]
      unfold Spec.inner
      simp only [justZ_output, nothing2_output]
      rw [Finset.sum_eq_single x]
      · by_cases hx0 : x 0 = true <;> simp [basisState, hx0]
      · intro z _ hz
        simp [basisState, hz]
      · intro h
        exact absurd (Finset.mem_univ _) h
    rw [Finset.sum_congr rfl fun x _ => hx x]
    have hc : (∑ x : Basis 2, (if x 0 = true then (-1 : ℤ) else 1)) = 0 := by decide
    have hcc : (∑ x : Basis 2, (if x 0 = true then (-1 : ℂ) else 1)) = 0 := by
      have := congrArg (Int.cast : ℤ → ℂ) hc
      push_cast at this
      exact this
    rw [hcc]
    simp
  exact h

/-- `product_simulations_bound` is not vacuous: a Z gate is missed by `K` product stimuli with a probability of at most `(1 / (3 · 0.98))^K`, in runs that
exist; the exact probability is `3^-K` (`z_missed_rarely`), so that the bound is tight up to the threshold. -/
theorem z_bounded {K : Nat} (hK : 0 < K) : ∃ (R : Rng) (_ : MeasurableSpace R.σ) (μ : Measure R.σ) (env : R.σ → Env)
    (s' : R.σ → State) (s : R.σ → PState),
    (∀ w, RunWith zSetting K R ⟨0, w, []⟩ (env w) (simOnly K) (s' w)) ∧
    (∀ w, ParallelRunWith zSetting K R ⟨0, w, []⟩ calmEnv (manySims K 2) {} (s w)) ∧
    μ {w | (s' w).results.equivalence = .probablyEquivalent} ≤ ENNReal.ofReal (1 / (3 * (1 - 2 * (1 / 100)))) ^ K ∧
    μ {w | (s w).results.equivalence = .probablyEquivalent} ≤ ENNReal.ofReal (1 / (3 * (1 - 2 * (1 / 100)))) ^ K := by
  obtain ⟨R, hR, μ, hdice, _⟩ := ideal_source_exists
  obtain ⟨⟨env, s', hrun⟩, s, hpar⟩ := kinds_runs_exist (R := R) zSetting (fun h => by cases h) (fun h => by cases h) hK
    (by decide : 1 < 2) 0
  have hthr : zSetting.V.threshold = 1 / 100 := rfl
  obtain ⟨h1, h2⟩ := product_simulations_bound (R := R) (μ := μ) zSetting rfl (by rw [hthr]; norm_num) hdice K 0
  rw [zSetting_fidelity, hthr] at h1 h2
  refine ⟨R, hR, μ, env, s', s, fun w => (hrun w).1, hpar, ?_, ?_⟩
  · have := h1 env (fun _ => simOnly K) s' (Filter.Eventually.of_forall fun w => (hrun w).1) ?_
    · simpa using this
    · rintro w e he (hk | hk) <;> rw [(hrun w).2 e he] at hk <;> cases hk
  · have := h2 (fun _ => calmEnv) (fun _ => manySims K 2) (fun _ => {}) s (Filter.Eventually.of_forall hpar) ?_
    · simpa using this
    · exact fun w k _ hen hk _ => absurd ((manySims_only K 2).2 k hen) hk

/-! ## No number of simulations suffices for all circuits -/

/-- A Z gate on the first of `k + 1` qubits, controlled by all others. -/
noncomputable def mczGate (k : Nat) : Gate (k + 1) where
  k := 1
  u x y := mZ (x 0) (y 0)
  targets _ := 0
  controls := (List.finRange k).map fun i => (i.succ, true)

theorem mcz_mat (k : Nat) (x y : Basis (k + 1)) : (mczGate k).mat x y = if x = y then (if ∀ q, x q = true then -1 else 1) else 0 := by
  have hctl : (∀ c ∈ (mczGate k).controls, y c.1 = c.2) ↔ ∀ i : Fin k, y i.succ = true := by
    simp [mczGate]
  unfold Gate.mat
  by_cases hc : ∀ i : Fin k, y i.succ = true
  · rw [if_pos (hctl.mpr hc)]
    have hrest : (∀ q, (∀ i, (mczGate k).targets i ≠ q) → x q = y q) ↔ ∀ i : Fin k, x i.succ = y i.succ := by
      constructor
      · exact fun h i => h _ fun _ => (Fin.succ_ne_zero i).symm
      · intro h q hq
        rcases Fin.eq_zero_or_eq_succ q with rfl | ⟨i, rfl⟩
        · exact absurd rfl (hq (0 : Fin 1))
        · exact h i
    have hu : (mczGate k).u (x ∘ (mczGate k).targets) (y ∘ (mczGate k).targets) = mZ (x 0) (y 0) := rfl
    rw [hu]
    by_cases hr : ∀ i : Fin k, x i.succ = y i.succ
    · rw [if_pos (hrest.mpr hr)]
      have hxy : x = y ↔ x 0 = y 0 := by
        constructor
        · exact fun h => by rw [h]
        · intro h
          funext q
          rcases Fin.eq_zero_or_eq_succ q with rfl | ⟨i, rfl⟩
          · exact h
          · exact hr i
      have hall : (∀ q, x q = true) ↔ x 0 = true := by
        constructor
        · exact fun h => h 0
        · intro h q
          rcases Fin.eq_zero_or_eq_succ q with rfl | ⟨i, rfl⟩
          · exact h
          · rw [hr i, hc i]
      simp only [hxy, hall]
      cases x 0 <;> cases y 0 <;> simp [mZ]
    · rw [if_neg fun h => hr (hrest.mp h), if_neg]
      rintro rfl
      exact hr fun _ => rfl
  · rw [if_neg fun h => hc (hctl.mp h)]
    by_cases hxy : x = y
    · subst hxy
      rw [if_pos rfl, if_pos rfl, if_neg fun h => hc fun i => h _]
    · rw [if_neg hxy, if_neg hxy]

theorem mcz_valid (k : Nat) : (mczGate k).Valid := by
  refine ⟨fun i j _ => Subsingleton.elim (α := Fin 1) i j, ?_, (gate1_valid mZ (0 : Fin 1) (by intro a b; cases a <;> cases b <;> simp [mZ])).unitary⟩
  intro c hc i
  simp only [mczGate, List.mem_map] at hc
  obtain ⟨j, _, rfl⟩ := hc
  exact (Fin.succ_ne_zero j).symm

/-- Every qubit is read out under its own name. -/
def idOut (n : Nat) : List (Fin n × Fin n) := (List.finRange n).map fun q => (q, q)

theorem idOut_wf {qc : QC n} (ho : qc.outputPermutation = idOut n) (hv : ∀ o ∈ qc.ops, o.Valid) : WellFormed qc 1 := by
  refine .of_total hv ?_ ?_ ?_
  · rw [ho]
    unfold idOut
    refine ⟨?_, ?_⟩
    · rw [List.map_map, show (Prod.fst ∘ fun q : Fin n => (q, q)) = id from rfl, List.map_id]
      exact List.nodup_finRange n
    · rw [List.map_map, show (Prod.snd ∘ fun q : Fin n => (q, q)) = id from rfl, List.map_id]
      exact List.nodup_finRange n
  · rw [ho]
    exact fun q => ⟨(q, q), by simp [idOut], rfl⟩
  · rw [ho]
    intro t ht
    simp only [idOut, List.mem_map, List.mem_finRange, true_and] at ht
    obtain ⟨q, rfl⟩ := ht
    rfl

/-- The controlled Z gate. -/
noncomputable def mcz (k : Nat) : QC (k + 1) where
  ops := [.simple (.gate (mczGate k))]
  initialLayout := 1
  outputPermutation := idOut (k + 1)

/-- No gate at all. -/
noncomputable def idle (k : Nat) : QC (k + 1) where
  ops := []
  initialLayout := 1
  outputPermutation := idOut (k + 1)

theorem mcz_output (k : Nat) (v : Basis (k + 1) → ℂ) (z : Basis (k + 1)) : output (mcz k) 1 v z = (if ∀ q, z q = true then -1 else 1) * v z := by
  simp only [output, readOut, execute, mcz, Op.phys, SOp.phys]
  simp [Matrix.mulVec, dotProduct, mcz_mat]
  rfl

theorem idle_output (k : Nat) (v : Basis (k + 1) → ℂ) (z : Basis (k + 1)) : output (idle k) 1 v z = v z := by
  simp only [output, readOut, execute, idle, load]
  simp

/-- The controlled Z gate and no gate at all, compared with product stimuli. -/
noncomputable def mczSetting (k : Nat) (thr : ℝ) (h : 0 < thr) : Setting (k + 1) (k + 1) where
  qc1 := mcz k
  qc2 := idle k
  ω1 := 1
  ω2 := 1
  wf1 := idOut_wf rfl (by
    intro o ho
    simp only [mcz, List.mem_cons, List.not_mem_nil, or_false] at ho
    subst ho
    exact mcz_valid k)
  wf2 := idOut_wf rfl (by intro o ho; simp [idle] at ho)
  data := Nat.le_refl _
  anc1 q := by rw [flags_get _ _ (Nat.le_refl _)]; simp [mcz]; omega
  anc2 q := by rw [flags_get _ _ (Nat.le_refl _)]; simp [idle]; omega
  garb := fun _ _ d => d
  garbV := fun _ _ d => d
  T := idealTests (k + 1)
  V := idealVectorTests (k + 1) thr
  threshold := h
  opEq := fun _ _ => false
  cancel _ := .disjoint fun _ _ _ _ => rfl
  schA := .counts oneToOneScheme
  schC := oneToOneScheme
  schS := oneToOneScheme
  confA := .counts _ ⟨oneToOneConfigured _ _⟩
  confC := ⟨oneToOneConfigured _ _⟩
  confS := ⟨oneToOneConfigured _ _⟩
  stateType := .random1QBasis
  cliff := fun k _ z => if z = fun _ => false then 1 else 0
  cliff_normalised := by intro k seed; simp [Normalised, Spec.inner]

theorem mcz_fidelity (k : Nat) (thr : ℝ) (h : 0 < thr) : (mczSetting k thr h).fidelity = (1 - 2 / 2 ^ (k + 1)) ^ 2 := by
  have hf : (mczSetting k thr h).fidelity = processFidelity (k + 1) (mcz k) 1 (idle k) 1 := rfl
  rw [hf]
  unfold processFidelity
  have hx : ∀ x : Basis (k + 1), Spec.inner (output (mcz k) 1 (basisState (dataInput (k + 1) x)))
      (output (idle k) 1 (basisState (dataInput (k + 1) x))) = 1 - (if x = fun _ => true then 2 else 0) := by
    intro x
    have hd : dataInput (k + 1) x = x := by
      funext q
      unfold dataInput
      rw [dif_pos q.2]
    rw [hd]
    unfold Spec.inner
    simp only [mcz_output, idle_output]
    rw [Finset.sum_eq_single x]
    · by_cases hx0 : x = fun _ => true
      · subst hx0
        simp [basisState]
        norm_num
      · have : ¬ ∀ q, x q = true := fun h => hx0 (funext h)
        simp [basisState, hx0, this]
    · intro z _ hz
      simp [basisState, hz]
    · intro h
      exact absurd (Finset.mem_univ _) h
  rw [Finset.sum_congr rfl fun x _ => hx x, Finset.sum_sub_distrib, Finset.sum_ite_eq']
  simp only [Finset.sum_const, Finset.card_univ, Fintype.card_fun, Fintype.card_bool, Fintype.card_fin, Finset.mem_univ, if_true, nsmul_eq_mul, mul_one]
  push_cast
  have hp : (2 : ℂ) ^ (k + 1) ≠ 0 := pow_ne_zero _ two_ne_zero
  rw [sub_div, div_self hp]
  have e : (1 - 2 / 2 ^ (k + 1) : ℂ) = ((1 - 2 / 2 ^ (k + 1) : ℝ) : ℂ) := by push_cast; rfl
  rw [e, Complex.norm_real, Real.norm_eq_abs, sq_abs]

/-- **C92** (`no_number_suffices`): for every fidelity threshold, number `K` of simulations and `ε` there are two circuits that are not equivalent, not even
up to a global phase, and that every run of `K` simulations with product stimuli – there are such runs, for every source of independent throws of a die –
takes for equivalent with a probability of at least `1 - ε`. -/
theorem no_number_suffices (thr : ℝ) (h : 0 < thr) {K : Nat} (hK : 0 < K) (ε : ℝ) (hε : 0 < ε) : ∃ k : Nat,
    ¬ SameUpToPhase (flags (k + 1) (k + 1)) (mcz k) 1 (idle k) 1 ∧
    ∀ (R : Rng) [MeasurableSpace R.σ] (μ : Measure R.σ), IdealDice R μ → ∀ seed : Nat,
      (∀ (env : R.σ → Env) (s s' : R.σ → State), (∀ᵐ w ∂μ, RunWith (mczSetting k thr h) K R ⟨seed, w, []⟩ (env w) (s w) (s' w)) →
        (∀ w, OnlySimulations (s w)) → ENNReal.ofReal (1 - ε) ≤ μ {w | (s' w).results.equivalence = .probablyEquivalent}) ∧
      ∃ (env : R.σ → Env) (s' : R.σ → State), ∀ w, RunWith (mczSetting k thr h) K R ⟨seed, w, []⟩ (env w) (simOnly K) (s' w) := by
  obtain ⟨k, hk⟩ := exists_nat_gt (4 * K / (thr * ε))
  have hpos : 0 < thr * ε := by positivity
  have hk2 : 4 * (K : ℝ) / (thr * ε) < 2 ^ (k + 1) := by
    refine hk.trans ?_
    have h1 : (k : ℝ) < ((2 ^ k : ℕ) : ℝ) := by exact_mod_cast Nat.lt_two_pow_self
    push_cast at h1
    rw [pow_succ]
    have h2 : (0 : ℝ) < 2 ^ k := by positivity
    linarith
  have hp : (0 : ℝ) < 2 ^ (k + 1) := by positivity
  have hp2 : (2 : ℝ) ≤ 2 ^ (k + 1) := by
    rw [pow_succ]
    have h2 : (1 : ℝ) ≤ 2 ^ k := one_le_pow₀ (by norm_num)
    linarith
  have hfid := mcz_fidelity k thr h
  have hlow : 1 - 4 / 2 ^ (k + 1) ≤ (mczSetting k thr h).fidelity := by
    rw [hfid]
    have : (1 - 2 / 2 ^ (k + 1) : ℝ) ^ 2 = 1 - 4 / 2 ^ (k + 1) + (2 / 2 ^ (k + 1)) ^ 2 := by ring
    rw [this]
    have := sq_nonneg (2 / 2 ^ (k + 1) : ℝ)
    linarith
  refine ⟨k, ?_, ?_⟩
  · intro hsame
    have hS := (mczSetting k thr h)
    have h1 := (processFidelity_one_iff (m := k + 1) (mczSetting k thr h).wf1 (mczSetting k thr h).wf2 (Nat.le_refl _)).mpr hsame
    have h2 : (mczSetting k thr h).fidelity = 1 := h1
    rw [hfid] at h2
    have h3 : (0 : ℝ) < 2 / 2 ^ (k + 1) := by positivity
    have h4 : (2 : ℝ) / 2 ^ (k + 1) ≤ 1 := by rw [div_le_one hp]; exact hp2
    nlinarith
  · intro R _ μ hμ seed
    refine ⟨fun env s s' hrun honly => ?_, (kinds_runs_exist (R := R) (mczSetting k thr h) (fun h => by cases h) (fun h => by cases h) hK
      (by decide : 1 < 2) seed).1.imp fun env ⟨s', hs'⟩ => ⟨s', fun w => (hs' w).1⟩⟩
    refine le_trans (ENNReal.ofReal_le_ofReal ?_) ((product_simulations_miss (mczSetting k thr h) rfl hμ K seed).1 env s s' hrun honly)
    have hthr : (mczSetting k thr h).V.threshold = thr := rfl
    rw [hthr]
    have h5 : (K : ℝ) * ((1 - (mczSetting k thr h).fidelity) / thr) ≤ K * (4 / 2 ^ (k + 1) / thr) := by
      gcongr
      linarith
    have h6 : (K : ℝ) * (4 / 2 ^ (k + 1) / thr) ≤ ε := by
      rw [div_lt_iff₀ hpos] at hk2
      rw [div_div, mul_div_assoc', div_le_iff₀ (by positivity)]
      nlinarith
    linarith

end QCEC.Props
