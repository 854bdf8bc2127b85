import Verif.Spec.Exhaustive
import Verif.Props.EndToEnd
import Verif.Props.Prepare
/-!
# C79: as many simulations as there are classical inputs

Joins the model of the generator of stimuli with those of the simulation checker and of the sequential flow.
-/
namespace QCEC.Props
open QCEC QCEC.DD QCEC.Sem QCEC.Gen QCEC.ZX QCEC.Spec QCEC.Spec.ZX QCEC.Mgr QCEC.Prep Matrix

variable {m n : Nat}

theorem basisState_normalised (b : Basis n) : Normalised (basisState b) := by
  unfold Normalised Spec.inner basisState
  rw [Finset.sum_eq_single b]
  · simp
  · intro z _ hz; simp [hz]
  · intro h; exact absurd (Finset.mem_univ _) h

/-- On normalised states the test of the simulation checker is `Agrees`. -/
theorem equalsVector_agrees (V : VectorTests n) (ht : 0 < V.threshold) {e f : Basis n → ℂ} (he : Normalised e) (hf : Normalised f) :
    equalsVector V.ptrEq V.wEq V.realClose V.fidClose e f ≠ .notEquivalent ↔ Agrees V.threshold e f := by
  have hsq : ‖Spec.inner e f‖ ^ 2 = (Spec.inner e f).re * (Spec.inner e f).re + (Spec.inner e f).im * (Spec.inner e f).im := by
    rw [← Complex.normSq_eq_norm_sq, Complex.normSq_apply]
  unfold Agrees
  rw [hsq, ← V.realClose_iff, ← V.fidClose_iff]
  unfold equalsVector
  split
  · rename_i hp
    refine ⟨fun _ => Or.inr ?_, fun _ => by split <;> simp⟩
    obtain ⟨c, _, hc⟩ := V.ptrEq_sound e f hp
    have hin : Spec.inner e f = star c := by
      rw [hc, inner_smul_left]
      unfold Normalised at hf
      rw [hf, mul_one]
    have hcc : star c * c = 1 := by
      have h1 : Spec.inner e e = star c * (c * Spec.inner f f) := by
        conv_lhs => rw [hc]
        unfold Spec.inner
        simp only [Pi.smul_apply, smul_eq_mul, star_mul', Finset.mul_sum]
        refine Finset.sum_congr rfl fun x _ => ?_
        ring
      unfold Normalised at he hf
      rw [he, hf, mul_one] at h1
      exact h1.symm
    rw [V.fidClose_iff, hin, ← Complex.normSq_apply]
    have : Complex.normSq (star c) = 1 := by
      have h2 : ((Complex.normSq (star c) : ℝ) : ℂ) = 1 := by
        rw [Complex.normSq_eq_conj_mul_self]
        simpa [mul_comm] using hcc
      exact_mod_cast h2
    rw [this]
    simpa using ht
  · cases h1 : V.realClose e f with
    | true => simp
    | false =>
      cases h2 : V.fidClose e f with
      | true => simp
      | false => simp

/-- What one simulation of the run answers. -/
theorem simulation_agrees (S : Setting m n) {x : Basis n → ℂ} (hx : Normalised x) {prev c : Criterion} {fuel : Nat} {s}
    (hf : S.qc1.ops.length + S.qc2.ops.length + 2 ≤ fuel)
    (h : runTwo (exactVector n S.garbV) S.schS false (equalsVector S.V.ptrEq S.V.wEq S.V.realClose S.V.fidClose) (fun _ => false) prev
        S.qc1 S.qc2 x x fuel = .ok (c, s)) :
    c ≠ .noInformation ∧ (c ≠ .notEquivalent ↔ Agrees S.V.threshold (output S.qc1 S.ω1 x) (output S.qc2 S.ω2 x)) := by
  obtain ⟨hs⟩ := S.confS
  obtain ⟨s', ⟨h0, _⟩ | ⟨_, hr, _⟩⟩ := runTwo_spec (exactVector n S.garbV) S.schS false
    (equalsVector S.V.ptrEq S.V.wEq S.V.realClose S.V.fidClose) (fun _ => false) (fun _ _ _ h => h) prev S.qc1 S.qc2 hs.good x x fuel hf
  · cases h0
  · rw [hr] at h
    cases h
    rw [simulation_object S.garbV S.wf1, simulation_object S.garbV S.wf2]
    refine ⟨?_, equalsVector_agrees S.V S.threshold (output_normalised _ _ S.wf1.ops x hx) (output_normalised _ _ S.wf2.ops x hx)⟩
    rcases equalsVector_cases S.V (output S.qc1 S.ω1 x) (output S.qc2 S.ω2 x) with h | h | h <;> rw [h] <;> simp

theorem history_length {R : Rng} {g g' : Generator R} {r : Req} : ∀ {K : Nat} {g : Generator R} {sts : List Stim},
    History g (List.replicate K (.request r)) sts g' → sts.length = K ∧ ∀ st ∈ sts, ∃ g1 g2 : Generator R, Generate g1 r st g2 := by
  intro K
  induction K with
  | zero => intro g sts h; cases h; simp
  | succ K ih =>
    intro g sts h
    rw [List.replicate_succ] at h
    cases h with
    | request _ g1 _ r st evs sts hg hrest =>
      obtain ⟨i1, i2⟩ := ih hrest
      refine ⟨by simp [i1], ?_⟩
      intro st' hst'
      rcases List.mem_cons.mp hst' with rfl | hst'
      · exact ⟨_, _, hg⟩
      · exact i2 st' hst'

theorem denotes_basis {cliff : (k seed : Nat) → Basis k → ℂ} {bits : List Bool} {x : Basis n → ℂ} (h : Denotes cliff (.basis bits) x) :
    x = basisState fun q : Fin n => bits.getD q.val false := by
  cases h
  funext z
  unfold basisState
  simp only [funext_iff]

/-- What is known about the simulations of the run. -/
theorem simulates_each (S : Setting m n) (ht : S.stateType = .computationalBasis) {env : Env} {K : Nat} (h : Simulates S env K) :
    (∀ k, k < K → ∃ b : Basis n, AncillaFree m b ∧ ∃ c, env.sim k = some c ∧ c ≠ .noInformation ∧
      (c ≠ .notEquivalent ↔ Agrees S.V.threshold (output S.qc1 S.ω1 (basisState b)) (output S.qc2 S.ω2 (basisState b)))) ∧
    (m ≤ 63 → K = 2 ^ m → ∀ b : Basis n, AncillaFree m b → ∃ k, k < K ∧ ∃ c, env.sim k = some c ∧
      (c ≠ .notEquivalent ↔ Agrees S.V.threshold (output S.qc1 S.ω1 (basisState b)) (output S.qc2 S.ω2 (basisState b)))) := by
  obtain ⟨R, g, g', sts, hh, hk⟩ := h
  have hh' := hh
  rw [ht] at hh'
  obtain ⟨hl, hgen⟩ := history_length (g := g) hh'
  refine ⟨?_, ?_⟩
  · intro k hkK
    obtain ⟨st, hst⟩ : ∃ st, sts[k]? = some st := ⟨_, List.getElem?_eq_getElem (hl ▸ hkK)⟩
    obtain ⟨x, prev, c, fuel, s, hden, hf, hr, hc⟩ := hk k st hst
    obtain ⟨g1, g2, hg⟩ := hgen st (List.mem_of_getElem? hst)
    obtain ⟨hnorm, hanc⟩ := stimulus_state S.data hg S.cliff_normalised hden
    obtain ⟨a1, a2⟩ := simulation_agrees S hnorm hf hr
    have hb : ∃ bits, st = .basis bits := by
      cases hg with
      | narrow => exact ⟨_, rfl⟩
      | wide => exact ⟨_, rfl⟩
      | product ht => simp [checkerReq] at ht
      | stabilizer ht => simp [checkerReq] at ht
    obtain ⟨bits, rfl⟩ := hb
    have hx := denotes_basis hden
    refine ⟨_, ?_, c, hc, a1, by rw [← hx]; exact a2⟩
    intro q hq
    refine hanc (fun q : Fin n => bits.getD q.val false) ?_ q ?_
    · rw [hx]; simp [basisState]
    · rw [flags_get m n S.data]; simpa using hq
  · intro h63 hK b hb
    have hmem := stimuli_exhaustive S.data h63 hh' hK (List.ofFn b) (by simp) (by
      intro i h1 h2
      rw [List.getElem?_ofFn]
      simp only [h2, dif_pos]
      rw [hb ⟨i, h2⟩ h1])
    obtain ⟨k, hkl, hst⟩ := List.getElem_of_mem hmem
    obtain ⟨x, prev, c, fuel, s, hden, hf, hr, hc⟩ := hk k _ (by rw [List.getElem?_eq_getElem hkl, hst])
    have hx := denotes_basis hden
    have hb' : (fun q : Fin n => (List.ofFn b).getD q.val false) = b := by
      funext q
      rw [List.getD_eq_getElem _ _ (by simp)]
      simp
    rw [hb'] at hx
    refine ⟨k, hl ▸ hkl, c, hc, ?_⟩
    rw [← hx]
    exact (simulation_agrees S (by rw [hx]; exact basisState_normalised b) hf hr).2

theorem filter_get {log : List Event} {e : Event} (he : e ∈ log) (hk : e.kind = .simulation) :
    ∃ i : Nat, (log.filter fun e => e.kind = .simulation)[i]? = some e ∧ i < (log.filter fun e => e.kind = .simulation).length := by
  have hm : e ∈ log.filter fun e => e.kind = .simulation := by simp [he, hk]
  obtain ⟨i, hi, hie⟩ := List.getElem_of_mem hm
  exact ⟨i, by rw [List.getElem?_eq_getElem hi, hie], hi⟩

/-- The logged simulations of a run. -/
theorem logged_simulation (S : Setting m n) (ht : S.stateType = .computationalBasis) {env : Env} {fuel : Nat} {s s' : State}
    (hm : mode env s.cfg = .sequential) (h0 : s.results.startedSimulations = 0) (h1 : s.results.performedSimulations = 0)
    (h : run env fuel s = some (.returned s')) (hsim : Simulates S env s'.results.performedSimulations) {e : Event} (he : e ∈ s'.log)
    (hk : e.kind = .simulation) : e.verdict ≠ .noInformation ∧ (e.verdict = .notEquivalent → ¬ AllInputsAgree S) := by
  obtain ⟨_, hp, _, hall⟩ := sequential_counters hm h0 h1 h
  obtain ⟨i, hi, hlt⟩ := filter_get he hk
  obtain ⟨b, hb, c, hc, hn, hag⟩ := (simulates_each S ht hsim).1 i (by rw [hp]; exact hlt)
  rw [hall i e hi] at hc
  cases hc
  refine ⟨hn, fun hv hA => ?_⟩
  exact hag.2 (hA b hb) hv

theorem logged_everything (S : Setting m n) (ht : S.stateType = .computationalBasis) (h63 : m ≤ 63) {env : Env} {fuel : Nat} {s s' : State}
    (hm : mode env s.cfg = .sequential) (h0 : s.results.startedSimulations = 0) (h1 : s.results.performedSimulations = 0)
    (h : run env fuel s = some (.returned s')) (hsim : Simulates S env s'.results.performedSimulations)
    (hfull : s'.results.performedSimulations = 2 ^ m) (hpass : ∀ e ∈ s'.log, e.kind = .simulation → e.verdict ≠ .notEquivalent) :
    AllInputsAgree S := by
  intro b hb
  obtain ⟨_, hp, _, hall⟩ := sequential_counters hm h0 h1 h
  obtain ⟨k, hk, c, hc, hag⟩ := (simulates_each S ht hsim).2 h63 hfull b hb
  rw [hp] at hk
  have hget := List.getElem?_eq_getElem hk
  have hv := hall k _ hget
  rw [hc] at hv
  have hmem := List.mem_filter.mp (List.getElem_mem hk)
  refine hag.1 ?_
  injection hv with hv
  rw [hv]
  exact hpass _ hmem.1 (by simpa using hmem.2)

/-- **C79**: if only simulations with classical stimuli are configured, as many as there are classical inputs, then the run decides whether
the circuits agree on all classical inputs: `ProbablyEquivalent` if they do, `NotEquivalent` if not. -/
theorem exhaustive_simulation (S : Setting m n) (ht : S.stateType = .computationalBasis) (h63 : m ≤ 63) {env : Env} {fuel : Nat} {s s' : State}
    (hm : mode env s.cfg = .sequential) (h0 : s.results.startedSimulations = 0) (h1 : s.results.performedSimulations = 0)
    (hsims : s.cfg.simulation.maxSims = 2 ^ m) (hon : Enabled s.cfg .simulation) (honly : ∀ k, Enabled s.cfg k → k = .simulation)
    (htime : ¬ s.cfg.execution.timeout > 0) (h : run env fuel s = some (.returned s'))
    (hsim : Simulates S env s'.results.performedSimulations) :
    (s'.results.equivalence = .probablyEquivalent ↔ AllInputsAgree S) ∧ (s'.results.equivalence = .notEquivalent ↔ ¬ AllInputsAgree S) := by
  obtain ⟨hx, hp, _⟩ := sequential_verdict_explained hm h
  have hkind : ∀ e ∈ s'.log, e.kind = .simulation := fun e he => honly _ (hp e he).2
  have hlog := fun e he => logged_simulation S ht hm h0 h1 h hsim (e := e) he (hkind e he)
  by_cases hne : ∃ e ∈ s'.log, e.verdict = .notEquivalent
  · obtain ⟨e, he, hv⟩ := hne
    have hno := (hlog e he).2 hv
    have heq : s'.results.equivalence = .notEquivalent := by
      rw [hx.1 e he (by unfold Conclusive; rw [hkind e he]; exact hv), hv]
    rw [heq]
    exact ⟨⟨by simp, fun hA => absurd hA hno⟩, ⟨fun _ => hno, fun _ => rfl⟩⟩
  · have hne' : ∀ e ∈ s'.log, e.verdict ≠ .notEquivalent := fun e he hv => hne ⟨e, he, hv⟩
    have hfull : s'.results.performedSimulations = 2 ^ m := by
      rcases sequential_sims_complete hm hon h with hf | ⟨e, he, hk, hv | hv⟩ | ⟨hf, _⟩
      · rw [hf, hsims]
      · exact absurd hv (hne' e he)
      · exact absurd hv (hlog e he).1
      · exact absurd hf htime
    have hA := logged_everything S ht h63 hm h0 h1 h hsim hfull fun e he _ => hne' e he
    have hncon : ∀ e ∈ s'.log, ¬ Conclusive e := by
      intro e he hc
      unfold Conclusive at hc
      rw [hkind e he] at hc
      exact hne' e he hc
    have heq : s'.results.equivalence = .probablyEquivalent := by
      rw [hx.2 hncon]
      unfold evidence
      rw [if_pos, if_neg]
      · rintro ⟨e, he, hk, _⟩
        rw [hkind e he] at hk
        cases hk
      · obtain ⟨_, hp, _, _⟩ := sequential_counters hm h0 h1 h
        have hpos : 0 < (s'.log.filter fun e => e.kind = .simulation).length := by rw [← hp, hfull]; positivity
        have hmem := List.mem_filter.mp (List.getElem_mem hpos)
        exact ⟨_, hmem.1, by simpa using hmem.2, (hlog _ hmem.1).1, hne' _ hmem.1⟩
    rw [heq]
    exact ⟨⟨fun _ => hA, fun _ => rfl⟩, ⟨by simp, fun hn => absurd hA hn⟩⟩

/-- **C79** (any checkers): whatever else is configured, `ProbablyEquivalent` after as many simulations as there are classical inputs
means that the circuits agree on all of them. -/
theorem exhaustive_probably_equivalent (S : Setting m n) (ht : S.stateType = .computationalBasis) (h63 : m ≤ 63) {env : Env} {fuel : Nat}
    {s s' : State} (hm : mode env s.cfg = .sequential) (h0 : s.results.startedSimulations = 0) (h1 : s.results.performedSimulations = 0)
    (hsims : s.cfg.simulation.maxSims = 2 ^ m) (htime : ¬ s.cfg.execution.timeout > 0) (h : run env fuel s = some (.returned s'))
    (hsim : Simulates S env s'.results.performedSimulations)
    (hans : ∀ e : Event, FromEnv env e → e.kind = .alternating ∨ e.kind = .construction → Answer S true e.kind e.verdict)
    (hv : s'.results.equivalence = .probablyEquivalent) : AllInputsAgree S := by
  have hdef : ∀ c, env.alternating = .returns c ∨ env.construction = .returns c → c ≠ .probablyEquivalent := by
    rintro c hc rfl
    have : ∀ k, k = .alternating ∨ k = .construction → AnswerMeans S true k .probablyEquivalent → False := by
      rintro k hk ha
      rcases hk with rfl | rfl <;> rcases ha with ha | ha
      · simp at ha
      · rcases correct_cases ha with h | h | h <;> simp at h
      · simp at ha
      · rcases correct_cases ha with h | h | h <;> simp at h
    rcases hc with hc | hc
    · exact this .alternating (Or.inl rfl) (answer_means S (hans ⟨.alternating, .probablyEquivalent⟩ hc (Or.inl rfl)))
    · exact this .construction (Or.inr rfl) (answer_means S (hans ⟨.construction, .probablyEquivalent⟩ hc (Or.inr rfl)))
  obtain ⟨_, _, hnc, hfull⟩ := probably_equivalent_meaning hm htime h hdef hv
  rcases hfull with hfull | ⟨e, he, hk, hni⟩
  · refine logged_everything S ht h63 hm h0 h1 h hsim (by rw [hfull, hsims]) fun e he hk hne => (hnc e he).1 ?_
    unfold Conclusive
    rw [hk]
    exact hne
  · exact absurd hni (logged_simulation S ht hm h0 h1 h hsim he hk).1

/-! ## What agreement on all classical inputs means -/

/-- Agreement is a bound on the fidelity. -/
theorem agrees_fidelity {thr : ℝ} {e f : Basis n → ℂ} (h : Agrees thr e f) : 1 - 2 * thr < ‖Spec.inner e f‖ ^ 2 := by
  have hpos : 0 < thr := by rcases h with h | h <;> exact lt_of_le_of_lt (abs_nonneg _) h
  have hsq : ‖Spec.inner e f‖ ^ 2 = (Spec.inner e f).re * (Spec.inner e f).re + (Spec.inner e f).im * (Spec.inner e f).im := by
    rw [← Complex.normSq_eq_norm_sq, Complex.normSq_apply]
  rcases h with h | h
  · rw [hsq]
    have := (abs_lt.mp h).1
    have him := mul_self_nonneg (Spec.inner e f).im
    nlinarith [mul_self_nonneg ((Spec.inner e f).re - 1)]
  · have := (abs_lt.mp h).1
    linarith

theorem basisState_inner (b c : Basis n) : Spec.inner (basisState b) (basisState c) = if b = c then 1 else 0 := by
  unfold Spec.inner basisState
  rw [Finset.sum_eq_single b]
  · by_cases h : b = c <;> simp [h]
  · intro z _ hz; simp [hz]
  · intro h; exact absurd (Finset.mem_univ _) h

theorem output_columns (qc : QC n) (ω : Equiv.Perm (Fin n)) (v : Basis n → ℂ) (z : Basis n) :
    output qc ω v z = ∑ b, v b * output qc ω (basisState b) z := by
  have hcol : ∀ b, output qc ω (basisState b) z = funcOf qc ω z b := by
    intro b
    rw [output_eq]
    unfold mulVec dotProduct basisState
    rw [Finset.sum_eq_single b] <;> simp
    intro x hx h; exact absurd h hx
  simp only [hcol]
  rw [output_eq]
  unfold mulVec dotProduct
  exact Finset.sum_congr rfl fun b _ => mul_comm _ _

/-- Circuits with equal outputs on all classical inputs are equivalent. -/
theorem same_of_columns (S : Setting m n)
    (h : ∀ b : Basis n, AncillaFree m b → output S.qc1 S.ω1 (basisState b) = output S.qc2 S.ω2 (basisState b)) :
    Same (flags m n) S.qc1 S.ω1 S.qc2 S.ω2 := by
  intro v hv
  rw [one_smul]
  funext z
  rw [output_columns, output_columns S.qc2]
  refine Finset.sum_congr rfl fun b _ => ?_
  by_cases hb : v b = 0
  · rw [hb]; simp
  · rw [h b fun q hq => hv b hb q (by rw [flags_get m n S.data]; simpa using hq)]

/-- **C79** (reversible circuits): circuits that map classical inputs to classical outputs are equivalent if (and only if) they agree on all
classical inputs, for every threshold of at most one. -/
theorem reversible_agree_iff (S : Setting m n) (h1 : Reversible S.qc1 S.ω1) (h2 : Reversible S.qc2 S.ω2) (hthr : S.V.threshold ≤ 1) :
    AllInputsAgree S ↔ Same (flags m n) S.qc1 S.ω1 S.qc2 S.ω2 := by
  constructor
  · intro hA
    refine same_of_columns S fun b hb => ?_
    obtain ⟨b1, e1⟩ := h1 b
    obtain ⟨b2, e2⟩ := h2 b
    have := hA b hb
    rw [e1, e2] at this ⊢
    unfold Agrees at this
    rw [basisState_inner] at this
    by_cases he : b1 = b2
    · rw [he]
    · rw [if_neg he] at this
      norm_num at this
      exact absurd this (not_lt.mpr hthr)
  · intro hS b hb
    have : output S.qc1 S.ω1 (basisState b) = output S.qc2 S.ω2 (basisState b) := by
      have := hS (basisState b) (by
        intro z hz q hq
        have hzb : z = b := by
          by_contra hne
          exact hz (by simp [basisState, hne])
        rw [hzb]
        rw [flags_get m n S.data] at hq
        exact hb q (by simpa using hq))
      rwa [one_smul] at this
    rw [this]
    left
    have hn := output_normalised S.qc2 S.ω2 S.wf2.ops _ (basisState_normalised b)
    unfold Normalised at hn
    rw [hn]
    simpa using S.threshold

/-- **C79** (reversible circuits): for them a simulation-only run over all classical inputs decides equivalence. -/
theorem exhaustive_reversible (S : Setting m n) (ht : S.stateType = .computationalBasis) (h63 : m ≤ 63) (hr1 : Reversible S.qc1 S.ω1)
    (hr2 : Reversible S.qc2 S.ω2) (hthr : S.V.threshold ≤ 1) {env : Env} {fuel : Nat} {s s' : State}
    (hm : mode env s.cfg = .sequential) (h0 : s.results.startedSimulations = 0) (h1 : s.results.performedSimulations = 0)
    (hsims : s.cfg.simulation.maxSims = 2 ^ m) (hon : Enabled s.cfg .simulation) (honly : ∀ k, Enabled s.cfg k → k = .simulation)
    (htime : ¬ s.cfg.execution.timeout > 0) (h : run env fuel s = some (.returned s'))
    (hsim : Simulates S env s'.results.performedSimulations) :
    (s'.results.equivalence = .probablyEquivalent ↔ Same (flags m n) S.qc1 S.ω1 S.qc2 S.ω2) ∧
    (s'.results.equivalence = .notEquivalent ↔ ¬ Same (flags m n) S.qc1 S.ω1 S.qc2 S.ω2) := by
  rw [← reversible_agree_iff S hr1 hr2 hthr]
  exact exhaustive_simulation S ht h63 hm h0 h1 hsims hon honly htime h hsim

/-- **C79** (when simulation is exhaustive): the constructor lowers a number of simulations that is larger than that of the classical
inputs to that number – with the default of 16 simulations this is so for up to four data qubits. -/
theorem capped_is_exhaustive {nq : Nat} (hn : nq ≤ 63) {c c' : Configuration} (hs : c.execution.runSimulationChecker = true)
    (ht : c.simulation.stateType = .computationalBasis) (hmany : 2 ^ nq ≤ c.simulation.maxSims) (h : capSims nq c = some c') :
    c'.simulation.maxSims = 2 ^ nq := by
  rw [cap_spec_partial (by omega)] at h
  cases h
  simp only [simLimit, hs, ht]
  simp
  omega

end QCEC.Props
