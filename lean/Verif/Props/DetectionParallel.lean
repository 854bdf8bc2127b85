import Verif.Spec.DetectionParallel
import Verif.Props.Detection
import Verif.Props.ParallelStimuli
import Verif.Props.EndToEndParallel
/-!
# C79, C91: random simulations in a parallel run

The threads may handle the simulations in any order; whatever the schedule, the stimuli are the first numbers of the source.
-/
namespace QCEC.Props
open QCEC QCEC.DD QCEC.Sem QCEC.Gen QCEC.ZX QCEC.Spec QCEC.Spec.ZX QCEC.Mgr QCEC.Prep QCEC.Par MeasureTheory

variable {m n : Nat} {R : Rng}

theorem adjust_zx_other (S : Setting m n) {env : ParEnv} {cfg : Configuration}
    (hans : ∀ k c, Enabled cfg k → k ≠ .simulation → env.may k c → Answer S false k c) : ZXAnswers (adjust cfg env) := by
  rintro c (⟨he, hc⟩ | ⟨_, rfl⟩)
  · have := (answer_means S (hans .zx c he (by simp) hc)).1
    simpa using this
  · simp

theorem filter_indices {α : Type} (p : α → Bool) (l : List α) :
    ((List.range l.length).filter fun i => (l[i]?).any p).length = (l.filter p).length := by
  induction l using List.reverseRecOn with
  | nil => rfl
  | append_singleton l a ih =>
    rw [List.length_append, List.length_singleton, List.range_succ, List.filter_append, List.filter_append, List.length_append,
      List.length_append, ← ih]
    congr 1
    · congr 1
      refine List.filter_congr fun i hi => ?_
      rw [List.getElem?_append_left (List.mem_range.mp hi)]
    · by_cases h : p a <;> simp [h]

/-- Every stimulus requested is that of a simulation handled or under way, hence of one that was counted as started. -/
theorem requested_le {answer : Nat → Criterion → Prop} {s : PState} {σ : Nat → Nat} {k : Nat} {H : List Nat} (hH : Stims answer s σ k H)
    (hs : s.results.startedSimulations = (s.log.filter fun e => decide (e.kind = .simulation)).length +
      (s.slots.filter fun x => decide (x.kind = .simulation ∧ (x.pc ≠ .idle ∨ x.failed = true))).length) :
    k ≤ s.results.startedSimulations := by
  have hlen := hH.handled.length_eq
  have hsub : List.range k ⊆ H ++ ((List.range s.slots.length).filter fun i => (s.slots[i]?).any fun x =>
      decide (x.kind = .simulation ∧ (x.pc ≠ .idle ∨ x.failed = true))).map σ := by
    intro j hj
    rcases hH.covered j (List.mem_range.mp hj) with h1 | ⟨i, x, hx, hHx, hσ⟩
    · exact List.mem_append_left _ h1
    · refine List.mem_append_right _ (List.mem_map.mpr ⟨i, ?_, hσ⟩)
      rw [List.mem_filter]
      exact ⟨List.mem_range.mpr (List.getElem?_eq_some_iff.mp hx).1, by rw [hx]; simpa using ⟨hHx.1, hHx.2.2⟩⟩
  have := (List.subperm_of_subset List.nodup_range hsub).length_le
  rw [List.length_range, List.length_append, List.length_map, filter_indices, ← hlen] at this
  rw [hs]
  exact this

/-- What is known about the simulations of the run, `f` being the stimuli requested. -/
theorem parallel_simulations (S : Setting m n) (ht : S.stateType = .computationalBasis) (h63 : m ≤ 63) {K : Nat} {g : Generator R}
    (hg : g.generated = []) {env : ParEnv} {cfg : Configuration} {res : Results} {s : PState} (h : ParallelRunWith S K R g env cfg res s)
    (hz : ZXAnswers (adjust cfg env)) :
    ∃ (k : Nat) (f : Fin k ↪ Fin (2 ^ m)), k ≤ K ∧ FirstDistinct (fun k => number R m k g.mt) f ∧
      (∀ e ∈ s.log, e.kind = .simulation → e.verdict ≠ .noInformation ∧ ∃ i, (e.verdict ≠ .notEquivalent ↔ f i ∈ agreeing S)) ∧
      (s.results.performedSimulations = K → k = K ∧
        ∀ i, ∃ e ∈ s.log, e.kind = .simulation ∧ (e.verdict ≠ .notEquivalent ↔ f i ∈ agreeing S)) := by
  obtain ⟨σ, k, sts, g', hh, hst⟩ := h.stimuli
  rw [ht] at hh
  obtain ⟨f, hf, hsts⟩ := history_firstDistinct S.data h63 hg hh
  obtain ⟨H, hH⟩ := stimulated (env := env) (cfg := cfg) (res := res) hst
  have hreach : Reachable env cfg res s := stimulated_steps hst
  obtain ⟨hp, hs, _, hle⟩ := parallel_counters hz (adjust_reachable hreach) h.started h.performed
  rw [h.sims] at hle
  -- what the simulation with stimulus `j` answers
  have hans : ∀ (j : Nat) (c : Criterion), StimulusAnswer S sts j c → c ≠ .noInformation ∧
      ∃ hj : j < k, (c ≠ .notEquivalent ↔ f ⟨j, hj⟩ ∈ agreeing S) := by
    rintro j c ⟨st, x, prev, fuel, s', h1, hden, hfu, hr⟩
    have hj : j < k := by
      have hl : sts.length = k := (history_length (g := g) hh).1
      rw [← hl]
      exact (List.getElem?_eq_some_iff.mp h1).1
    have := hsts ⟨j, hj⟩
    simp only at this
    rw [h1] at this
    cases this
    have hx := denotes_basis hden
    have hb : (fun q : Fin n => ((List.range n).map fun i => decide (i < m) && (f ⟨j, hj⟩).1.testBit i).getD q.1 false) =
        inputOf m n (f ⟨j, hj⟩) := by
      funext q
      rw [List.getD_eq_getElem _ _ (by simp)]
      simp [inputOf]
    rw [hb] at hx
    obtain ⟨a1, a2⟩ := simulation_agrees S (by rw [hx]; exact basisState_normalised _) hfu hr
    refine ⟨a1, hj, ?_⟩
    rw [a2, hx, mem_agreeing]
    simp [Disagree, inputOf_free S.data (f ⟨j, hj⟩)]
  have hlen := hH.handled.length_eq
  have hk : k ≤ s.results.startedSimulations := requested_le hH hs
  have hkK : k ≤ K := hk.trans hle
  have hlog : ∀ e ∈ s.log, e.kind = .simulation → ∃ j ∈ H, StimulusAnswer S sts j e.verdict := by
    intro e he hke
    obtain ⟨i, hi, hlt⟩ := filter_get he hke
    have hlt' : i < H.length := hlen ▸ hlt
    have := List.Forall₂.get hH.handled hlt hlt'
    refine ⟨H[i], List.getElem_mem hlt', ?_⟩
    have hie := (List.getElem?_eq_some_iff.mp hi).2
    simp only [List.get_eq_getElem] at this
    rw [hie] at this
    exact this
  refine ⟨k, f, hkK, hf, ?_, ?_⟩
  · intro e he hke
    obtain ⟨j, _, hj⟩ := hlog e he hke
    obtain ⟨h1, hjk, h2⟩ := hans j _ hj
    exact ⟨h1, ⟨j, hjk⟩, h2⟩
  · intro hperf
    have hall : (s.log.filter fun e => decide (e.kind = .simulation) && !decide (e.verdict = .noInformation)) =
        s.log.filter fun e => decide (e.kind = .simulation) := by
      refine List.filter_congr fun e he => ?_
      by_cases hke : e.kind = .simulation
      · obtain ⟨j, _, hj⟩ := hlog e he hke
        simp [hke, (hans j _ hj).1]
      · simp [hke]
    rw [hall, hlen, hperf] at hp
    have hsub : H ⊆ List.range k := fun j hj => List.mem_range.mpr (hH.bound j hj)
    have hle' := (List.subperm_of_subset hH.nodup hsub)
    have h1 := hle'.length_le
    rw [List.length_range] at h1
    have hkeq : k = K := by omega
    refine ⟨hkeq, fun i => ?_⟩
    have hmem : i.1 ∈ H := by
      have hperm := hle'.perm_of_length_le (by rw [List.length_range]; omega)
      exact hperm.mem_iff.mpr (List.mem_range.mpr i.2)
    obtain ⟨a, ha, hia⟩ := List.getElem_of_mem hmem
    have hlt : a < (s.log.filter fun e => e.kind = .simulation).length := hlen ▸ ha
    have := List.Forall₂.get hH.handled hlt ha
    simp only [List.get_eq_getElem] at this
    rw [hia] at this
    have hm := List.mem_filter.mp (List.getElem_mem hlt)
    obtain ⟨_, hjk, h2⟩ := hans _ _ this
    exact ⟨_, hm.1, by simpa using hm.2, h2⟩

/-- No checker that proves equivalence answers `ProbablyEquivalent`. -/
theorem never_probably_equivalent (S : Setting m n) {k : Kind} (hk : k = .alternating ∨ k = .construction)
    (ha : Answer S false k .probablyEquivalent) : False := by
  have ha := answer_means S ha
  rcases hk with rfl | rfl <;> rcases ha with ha | ha
  · simp at ha
  · rcases correct_cases ha with h | h | h <;> simp at h
  · simp at ha
  · rcases correct_cases ha with h | h | h <;> simp at h

/-- Without a conclusive answer the run stops only when all simulations have been performed. -/
theorem parallel_finished {S : Setting m n} {K : Nat} {g : Generator R} {env : ParEnv} {cfg : Configuration} {res : Results} {s : PState}
    (hz : ZXAnswers (adjust cfg env)) (h : ParallelRunWith S K R g env cfg res s) (hpass : ∃ e ∈ s.log, Passed e)
    (hnc : ∀ e ∈ s.log, ¬ Conclusive e) (hng : ∀ e ∈ s.log, ¬ GivesUp e) : s.results.performedSimulations = K := by
  have hreach : Reachable env cfg res s := by
    obtain ⟨σ, k', sts, g', _, hst⟩ := h.stimuli
    exact stimulated_steps hst
  have hv := reachable_vinv hz.never (adjust_reachable hreach)
  have hb := reachable_base (adjust_reachable hreach)
  obtain ⟨e, he, hp⟩ := hpass
  have hsim : s.cfg.execution.runSimulationChecker = true := by
    have := (hv.prov e he).2
    rw [hp.1] at this
    exact this
  rcases parallel_stop_reason hz (adjust_reachable hreach) (returned_done hreach h.returned) with h' | h' | ⟨l, e', hl, h'⟩
  · rw [h.notime] at h'; cases h'
  · exfalso
    rw [hb.conf] at hsim
    revert h' hsim
    unfold zxGivesUp launchCfg dropZX Configuration.onlyZXCheckerConfigured
    split <;> simp <;> intros <;> simp_all
  · have he' : e' ∈ s.log := by rw [hl]; simp
    rcases h' with h' | h' | ⟨_, h'⟩ | ⟨h', _⟩
    · exact absurd h' (hnc e' he')
    · exact absurd h' (hng e' he')
    · revert h'
      unfold Configuration.onlyZXCheckerConfigured
      simp [hsim]
    · rw [h', h.sims]

/-- The verdict `ProbablyEquivalent` of such a run. -/
theorem parallel_probably_equivalent_all_good (S : Setting m n) (ht : S.stateType = .computationalBasis) (h63 : m ≤ 63) {K : Nat}
    {g : Generator R} (hg : g.generated = []) {env : ParEnv} {cfg : Configuration} {res : Results} {s : PState}
    (h : ParallelRunWith S K R g env cfg res s)
    (hans : ∀ k c, Enabled cfg k → k ≠ .simulation → env.may k c → Answer S false k c)
    (hv : s.results.equivalence = .probablyEquivalent) :
    ∃ f : Fin K ↪ Fin (2 ^ m), FirstDistinct (fun k => number R m k g.mt) f ∧ ∀ i, f i ∈ agreeing S := by
  have hz := adjust_zx_other S hans
  obtain ⟨k, f, _, hf, h1, h2⟩ := parallel_simulations S ht h63 hg h hz
  obtain ⟨σ, k', sts, g', _, hst⟩ := h.stimuli
  have hreach : Reachable env cfg res s := stimulated_steps hst
  obtain ⟨hx, hprov, hlast⟩ := parallel_verdict_explained hz (adjust_reachable hreach) h.returned
  have hmay : ∀ e ∈ s.log, e.kind ≠ .simulation → Answer S false e.kind e.verdict := fun e he hk =>
    hans _ _ (hprov e he).2 hk ((adjust_may (hprov e he).2 _).mp (hprov e he).1)
  have hnc : ∀ e ∈ s.log, ¬ Conclusive e := by
    intro e he hc
    have := hx.1 e he hc
    rw [hv] at this
    obtain ⟨ke, ve⟩ := e
    simp only at this
    subst this
    cases ke with
    | simulation => simp [Conclusive] at hc
    | alternating => exact never_probably_equivalent S (Or.inl rfl) (hmay _ he (by simp))
    | construction => exact never_probably_equivalent S (Or.inr rfl) (hmay _ he (by simp))
    | zx => simp [Conclusive] at hc
  have hng : ∀ e ∈ s.log, ¬ GivesUp e := by
    intro e he hge
    have := hx.2.1 e he hge
    rw [hv] at this
    cases this
  have hev := hx.2.2 fun e he => ⟨hnc e he, hng e he⟩
  rw [hv] at hev
  have hns : ¬ ∃ e ∈ s.log, Suspects e := by
    intro hs
    unfold parEvidence at hev
    rw [if_pos hs] at hev
    split at hev <;> cases hev
  have hpass : ∃ e ∈ s.log, Passed e := by
    by_contra hno
    unfold parEvidence at hev
    rw [if_neg hns, if_neg hno] at hev
    cases hev
  have hperf := parallel_finished hz h hpass hnc hng
  obtain ⟨rfl, hall⟩ := h2 hperf
  refine ⟨f, hf, fun i => ?_⟩
  obtain ⟨e, he, hk, hiff⟩ := hall i
  refine hiff.mp fun hne => hnc e he ?_
  unfold Conclusive
  rw [hk]
  exact hne

/-- The verdict of a run with nothing but simulations. -/
theorem parallel_simulations_verdict (S : Setting m n) (ht : S.stateType = .computationalBasis) (h63 : m ≤ 63) {K : Nat}
    {g : Generator R} (hg : g.generated = []) {env : ParEnv} {cfg : Configuration} {res : Results} {s : PState}
    (h : ParallelRunWith S K R g env cfg res s) (honly : NothingElse cfg) :
    (s.results.equivalence = .probablyEquivalent ∧
      ∃ f : Fin K ↪ Fin (2 ^ m), FirstDistinct (fun k => number R m k g.mt) f ∧ ∀ i, f i ∈ agreeing S) ∨
    (s.results.equivalence = .notEquivalent ∧
      ∃ (k : Nat) (f : Fin k ↪ Fin (2 ^ m)), k ≤ K ∧ FirstDistinct (fun k => number R m k g.mt) f ∧ ∃ i, f i ∉ agreeing S) := by
  have hans : ∀ k c, Enabled cfg k → k ≠ .simulation → env.may k c → Answer S false k c :=
    fun k c hk hne _ => absurd (honly.2 k hk) hne
  have hz := adjust_zx_other S hans
  obtain ⟨k, f, hkK, hf, h1, h2⟩ := parallel_simulations S ht h63 hg h hz
  have hreach : Reachable env cfg res s := by
    obtain ⟨σ, k', sts, g', _, hst⟩ := h.stimuli
    exact stimulated_steps hst
  obtain ⟨hx, hprov, _⟩ := parallel_verdict_explained hz (adjust_reachable hreach) h.returned
  have hkind : ∀ e ∈ s.log, e.kind = .simulation := fun e he => honly.2 _ (hprov e he).2
  by_cases hne : ∃ e ∈ s.log, e.verdict = .notEquivalent
  · obtain ⟨e, he, hv⟩ := hne
    refine Or.inr ⟨?_, k, f, hkK, hf, ?_⟩
    · rw [hx.1 e he (by unfold Conclusive; rw [hkind e he]; exact hv), hv]
    · obtain ⟨_, i, hi⟩ := h1 e he (hkind e he)
      exact ⟨i, fun hg => (hi.mpr hg) hv⟩
  · have hne' : ∀ e ∈ s.log, e.verdict ≠ .notEquivalent := fun e he hv => hne ⟨e, he, hv⟩
    have hnc : ∀ e ∈ s.log, ¬ Conclusive e := by
      intro e he hc
      unfold Conclusive at hc
      rw [hkind e he] at hc
      exact hne' e he hc
    have hng : ∀ e ∈ s.log, ¬ GivesUp e := fun e he hge => (h1 e he (hkind e he)).1 hge.2
    have hns : ¬ ∃ e ∈ s.log, Suspects e := by
      rintro ⟨e, he, hk, _⟩
      rw [hkind e he] at hk
      cases hk
    have hpass : ∃ e ∈ s.log, Passed e := by
      rcases parallel_stop_reason hz (adjust_reachable hreach) (returned_done hreach h.returned) with h' | h' | ⟨l, e, hl, _⟩
      · rw [h.notime] at h'; cases h'
      · exfalso
        have hzx := honly.2 .zx
        simp only [Enabled] at hzx
        revert h'
        unfold zxGivesUp dropSims
        cases hrz : cfg.execution.runZXChecker
        · split <;> simp [hrz]
        · exact absurd (hzx hrz) (by simp)
      · have he : e ∈ s.log := by rw [hl]; simp
        exact ⟨e, he, hkind e he, (h1 e he (hkind e he)).1, hne' e he⟩
    have hperf := parallel_finished hz h hpass hnc hng
    refine Or.inl ⟨?_, ?_⟩
    · rw [hx.2.2 fun e he => ⟨hnc e he, hng e he⟩]
      unfold parEvidence
      rw [if_neg hns, if_pos hpass]
    · obtain ⟨rfl, hall⟩ := h2 hperf
      refine ⟨f, hf, fun i => ?_⟩
      obtain ⟨e, he, _, hiff⟩ := hall i
      exact hiff.mp (hne' e he)

/-! ## The probability of the verdict -/

section Probability
variable [MeasurableSpace R.σ] {μ : Measure R.σ}

/-- **C91** (parallel): with an idealised random source, a parallel run of `K ≤ 2^m` simulations with classical stimuli and no other checker
– each scheduled in any way, even one that depends on the stimuli – reports `ProbablyEquivalent` with exactly the probability of a
sequential one. -/
theorem parallel_detection_probability (S : Setting m n) (ht : S.stateType = .computationalBasis) (h63 : m ≤ 63)
    (hμ : IdealSource R μ m) {K : Nat} (hK : K ≤ 2 ^ m) (seed : Nat) (env : R.σ → ParEnv) (cfg : R.σ → Configuration) (res : R.σ → Results)
    (s : R.σ → PState) (hrun : ∀ᵐ w ∂μ, ParallelRunWith S K R ⟨seed, w, []⟩ (env w) (cfg w) (res w) (s w))
    (honly : ∀ w, NothingElse (cfg w)) :
    μ {w | (s w).results.equivalence = .probablyEquivalent} =
      ((2 ^ m - disagreements S).descFactorial K : ENNReal) / ((2 ^ m).descFactorial K : ENNReal) ∧
    μ {w | (s w).results.equivalence = .notEquivalent} =
      1 - ((2 ^ m - disagreements S).descFactorial K : ENNReal) / ((2 ^ m).descFactorial K : ENNReal) := by
  have := hμ.prob
  have hcard : K ≤ Fintype.card (Fin (2 ^ m)) := by rw [Fintype.card_fin]; exact hK
  have hav := avoid_prob hμ hcard (agreeing S)
  rw [agreeing_card, Fintype.card_fin] at hav
  have hkey : ∀ᵐ w ∂μ, ((s w).results.equivalence = .probablyEquivalent ↔
        ∃ f : Fin K ↪ Fin (2 ^ m), FirstDistinct (fun k => number R m k w) f ∧ ∀ i, f i ∈ agreeing S) ∧
      ((s w).results.equivalence = .notEquivalent ↔
        ¬ ∃ f : Fin K ↪ Fin (2 ^ m), FirstDistinct (fun k => number R m k w) f ∧ ∀ i, f i ∈ agreeing S) := by
    filter_upwards [hrun] with w hw
    rcases parallel_simulations_verdict S ht h63 rfl hw (honly w) with ⟨hv, hex⟩ | ⟨hv, k, f, hkK, hf, i, hi⟩
    · rw [hv]
      exact ⟨⟨fun _ => hex, fun _ => rfl⟩, ⟨by simp, fun hn => absurd hex hn⟩⟩
    · have hno : ¬ ∃ f : Fin K ↪ Fin (2 ^ m), FirstDistinct (fun k => number R m k w) f ∧ ∀ i, f i ∈ agreeing S := by
        rintro ⟨f', hf', hA⟩
        have hpre : (Fin.castLEEmb hkK).trans f' = f := firstDistinct_unique (firstDistinct_prefix hkK hf') hf
        exact hi (by rw [← hpre]; exact hA _)
      rw [hv]
      exact ⟨⟨by simp, fun hex => absurd hex hno⟩, ⟨fun _ => hno, fun _ => rfl⟩⟩
  have hmeas := measurable_avoid hμ (K := K) (agreeing S)
  constructor
  · rw [← hav]
    refine measure_congr ?_
    filter_upwards [hkey] with w hw
    exact propext hw.1
  · rw [← hav, ← prob_compl_eq_one_sub hmeas]
    refine measure_congr ?_
    filter_upwards [hkey] with w hw
    exact propext hw.2

/-- **C91** (parallel, any checkers): whatever other checkers are configured, the probability of `ProbablyEquivalent` is at most that, and at
most `((2^m - D) / 2^m)^K`. -/
theorem parallel_detection_bound (S : Setting m n) (ht : S.stateType = .computationalBasis) (h63 : m ≤ 63) (hμ : IdealSource R μ m)
    {K : Nat} (hK : K ≤ 2 ^ m) (seed : Nat) (env : R.σ → ParEnv) (cfg : R.σ → Configuration) (res : R.σ → Results) (s : R.σ → PState)
    (hrun : ∀ᵐ w ∂μ, ParallelRunWith S K R ⟨seed, w, []⟩ (env w) (cfg w) (res w) (s w))
    (hans : ∀ w k c, Enabled (cfg w) k → k ≠ .simulation → (env w).may k c → Answer S false k c) :
    μ {w | (s w).results.equivalence = .probablyEquivalent} ≤
      ((2 ^ m - disagreements S).descFactorial K : ENNReal) / ((2 ^ m).descFactorial K : ENNReal) ∧
    μ {w | (s w).results.equivalence = .probablyEquivalent} ≤ (((2 ^ m - disagreements S : Nat) : ENNReal) / (2 ^ m : Nat)) ^ K := by
  have hcard : K ≤ Fintype.card (Fin (2 ^ m)) := by rw [Fintype.card_fin]; exact hK
  have hav := avoid_prob hμ hcard (agreeing S)
  rw [agreeing_card, Fintype.card_fin] at hav
  have h1 : μ {w | (s w).results.equivalence = .probablyEquivalent} ≤
      ((2 ^ m - disagreements S).descFactorial K : ENNReal) / ((2 ^ m).descFactorial K : ENNReal) := by
    rw [← hav]
    refine measure_mono_ae ?_
    filter_upwards [hrun] with w hw hv
    exact parallel_probably_equivalent_all_good S ht h63 rfl hw (hans w) hv
  exact ⟨h1, h1.trans (descFactorial_ratio_le (Nat.sub_le _ _) K)⟩

end Probability

/-! ## For every random source -/

/-- **C91** (parallel, every random source): a run of more simulations than there are classical inputs on which the circuits agree does not
report `ProbablyEquivalent`. -/
theorem parallel_enough_simulations_detect (S : Setting m n) (ht : S.stateType = .computationalBasis) (h63 : m ≤ 63) {K : Nat}
    {g : Generator R} (hg : g.generated = []) {env : ParEnv} {cfg : Configuration} {res : Results} {s : PState}
    (h : ParallelRunWith S K R g env cfg res s)
    (hans : ∀ k c, Enabled cfg k → k ≠ .simulation → env.may k c → Answer S false k c)
    (hmany : 2 ^ m - disagreements S < K) : s.results.equivalence ≠ .probablyEquivalent := by
  intro hv
  obtain ⟨f, _, hA⟩ := parallel_probably_equivalent_all_good S ht h63 hg h hans hv
  have : Fintype.card (Fin K) ≤ (agreeing S).card := by
    rw [← Finset.card_univ, ← Finset.card_map f]
    refine Finset.card_le_card fun v hv => ?_
    obtain ⟨i, _, rfl⟩ := Finset.mem_map.mp hv
    exact hA i
  rw [Fintype.card_fin, agreeing_card] at this
  omega

/-- **C91** (parallel, every random source): if nothing else is configured such a run reports `NotEquivalent`. -/
theorem parallel_enough_simulations_decide (S : Setting m n) (ht : S.stateType = .computationalBasis) (h63 : m ≤ 63) {K : Nat}
    {g : Generator R} (hg : g.generated = []) {env : ParEnv} {cfg : Configuration} {res : Results} {s : PState}
    (h : ParallelRunWith S K R g env cfg res s) (honly : NothingElse cfg) (hmany : 2 ^ m - disagreements S < K) :
    s.results.equivalence = .notEquivalent := by
  rcases parallel_simulations_verdict S ht h63 hg h honly with ⟨hv, _⟩ | ⟨hv, _⟩
  · exact absurd hv (parallel_enough_simulations_detect S ht h63 hg h (fun k c hk hne _ => absurd (honly.2 k hk) hne) hmany)
  · exact hv

/-! ## As many simulations as there are classical inputs -/

theorem all_agreeing_iff (S : Setting m n) : (∀ v, v ∈ agreeing S) ↔ AllInputsAgree S := by
  constructor
  · intro hA b hb
    obtain ⟨v, _, rfl⟩ := (inputOf_bijective S.data).surjOn hb
    have := (mem_agreeing S v).mp (hA v)
    unfold Disagree at this
    push Not at this
    exact this hb
  · intro hA v
    rw [mem_agreeing]
    rintro ⟨hb, hn⟩
    exact hn (hA _ hb)

/-- **C79** (parallel): if only simulations with classical stimuli are configured, as many as there are classical inputs, then a parallel run
decides whether the circuits agree on all classical inputs – in every schedule. -/
theorem parallel_exhaustive_simulation (S : Setting m n) (ht : S.stateType = .computationalBasis) (h63 : m ≤ 63) {g : Generator R}
    (hg : g.generated = []) {env : ParEnv} {cfg : Configuration} {res : Results} {s : PState}
    (h : ParallelRunWith S (2 ^ m) R g env cfg res s) (honly : NothingElse cfg) :
    (s.results.equivalence = .probablyEquivalent ↔ AllInputsAgree S) ∧ (s.results.equivalence = .notEquivalent ↔ ¬ AllInputsAgree S) := by
  rcases parallel_simulations_verdict S ht h63 hg h honly with ⟨hv, f, _, hA⟩ | ⟨hv, k, f, _, _, i, hi⟩
  · have hall : AllInputsAgree S := by
      rw [← all_agreeing_iff]
      intro v
      obtain ⟨i, rfl⟩ := (Finite.injective_iff_surjective.mp f.injective) v
      exact hA i
    rw [hv]
    exact ⟨⟨fun _ => hall, fun _ => rfl⟩, ⟨by simp, fun hn => absurd hall hn⟩⟩
  · have hno : ¬ AllInputsAgree S := by
      rw [← all_agreeing_iff]
      exact fun hA => hi (hA _)
    rw [hv]
    exact ⟨⟨by simp, fun hA => absurd hA hno⟩, ⟨fun _ => hno, fun _ => rfl⟩⟩

/-- **C79** (parallel, any checkers): whatever else is configured, `ProbablyEquivalent` after as many simulations as there are classical
inputs means that the circuits agree on all of them. -/
theorem parallel_exhaustive_probably_equivalent (S : Setting m n) (ht : S.stateType = .computationalBasis) (h63 : m ≤ 63)
    {g : Generator R} (hg : g.generated = []) {env : ParEnv} {cfg : Configuration} {res : Results} {s : PState}
    (h : ParallelRunWith S (2 ^ m) R g env cfg res s)
    (hans : ∀ k c, Enabled cfg k → k ≠ .simulation → env.may k c → Answer S false k c)
    (hv : s.results.equivalence = .probablyEquivalent) : AllInputsAgree S := by
  obtain ⟨f, _, hA⟩ := parallel_probably_equivalent_all_good S ht h63 hg h hans hv
  rw [← all_agreeing_iff]
  intro v
  obtain ⟨i, rfl⟩ := (Finite.injective_iff_surjective.mp f.injective) v
  exact hA i

/-- **C79** (parallel, reversible circuits): for them such a run decides equivalence. -/
theorem parallel_exhaustive_reversible (S : Setting m n) (ht : S.stateType = .computationalBasis) (h63 : m ≤ 63)
    (hr1 : Reversible S.qc1 S.ω1) (hr2 : Reversible S.qc2 S.ω2) (hthr : S.V.threshold ≤ 1) {g : Generator R} (hg : g.generated = [])
    {env : ParEnv} {cfg : Configuration} {res : Results} {s : PState} (h : ParallelRunWith S (2 ^ m) R g env cfg res s)
    (honly : NothingElse cfg) :
    (s.results.equivalence = .probablyEquivalent ↔ Same (flags m n) S.qc1 S.ω1 S.qc2 S.ω2) ∧
    (s.results.equivalence = .notEquivalent ↔ ¬ Same (flags m n) S.qc1 S.ω1 S.qc2 S.ω2) := by
  rw [← reversible_agree_iff S hr1 hr2 hthr]
  exact parallel_exhaustive_simulation S ht h63 hg h honly

end QCEC.Props
