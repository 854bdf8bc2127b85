import Verif.Spec.DetectionStimuli
import Verif.Props.DetectionParallel
import Verif.Props.IndependentBlocks
/-!
# C92: random simulations with any kind of stimuli

What a run with random simulations answers, given the stimuli, and with which probability.
-/
namespace QCEC.Props
open QCEC QCEC.DD QCEC.Sem QCEC.Gen QCEC.ZX QCEC.Spec QCEC.Spec.ZX QCEC.Mgr QCEC.Prep QCEC.Par MeasureTheory

variable {m n : Nat} {R : Rng}

/-! ## What the run answers -/

theorem denotes_unique {cliff : (k seed : Nat) → Basis k → ℂ} {st : Stim} {x y : Basis n → ℂ} (hx : Denotes cliff st x)
    (hy : Denotes cliff st y) : x = y := by
  cases hx <;> cases hy <;> rfl

/-- An uninterrupted simulation on a generated stimulus. -/
theorem simulation_disagrees (S : Setting m n) {g g' : Generator R} {st : Stim} (hg : Generate g (checkerReq n m S.stateType) st g')
    {x : Basis n → ℂ} (hden : Denotes S.cliff st x) {prev c : Criterion} {fuel : Nat} {s : _}
    (hf : S.qc1.ops.length + S.qc2.ops.length + 2 ≤ fuel)
    (h : runTwo (exactVector n S.garbV) S.schS false (equalsVector S.V.ptrEq S.V.wEq S.V.realClose S.V.fidClose) (fun _ => false) prev
      S.qc1 S.qc2 x x fuel = .ok (c, s)) : c ≠ .noInformation ∧ (c ≠ .notEquivalent ↔ ¬ DisagreeOn S st) := by
  obtain ⟨hn, _⟩ := stimulus_state S.data hg S.cliff_normalised hden
  obtain ⟨a1, a2⟩ := simulation_agrees S hn hf h
  refine ⟨a1, a2.trans ⟨?_, ?_⟩⟩
  · rintro hA ⟨x', hden', hno⟩
    rw [denotes_unique hden' hden] at hno
    exact hno hA
  · intro hno
    by_contra hA
    exact hno ⟨x, hden, hA⟩

/-- The generator delivers the stimuli `T 0, T 1, …`. -/
def Delivers (S : Setting m n) (g : Generator R) (T : Nat → Stim) : Prop :=
  ∀ (k : Nat) (sts : List Stim) (g' : Generator R), History g (List.replicate k (.request (checkerReq n m S.stateType))) sts g' →
    ∀ (i : Nat) (st : Stim), sts[i]? = some st → st = T i

theorem simulates_stimuli (S : Setting m n) {env : Env} {K : Nat} {g : Generator R} {T : Nat → Stim} (hT : Delivers S g T)
    (h : SimulatesFrom S env K R g) :
    ∀ k < K, ∃ c, env.sim k = some c ∧ c ≠ .noInformation ∧ (c ≠ .notEquivalent ↔ ¬ DisagreeOn S (T k)) := by
  obtain ⟨g', sts, hh, hk⟩ := h
  intro k hkK
  obtain ⟨hl, hgen⟩ := history_length (g := g) hh
  have hst : sts[k]? = some sts[k] := List.getElem?_eq_getElem (hl ▸ hkK)
  obtain ⟨g1, g2, hg⟩ := hgen _ (List.mem_of_getElem? hst)
  obtain ⟨x, prev, c, fuel, s, hden, hfu, hr, hc⟩ := hk k _ hst
  obtain ⟨a1, a2⟩ := simulation_disagrees S hg hden hfu hr
  rw [hT _ _ _ hh k _ hst] at a2
  exact ⟨c, hc, a1, a2⟩

/-- **C92** (any checkers): `ProbablyEquivalent` means that the circuits agree on all `K` stimuli. -/
theorem probably_equivalent_stimuli (S : Setting m n) {K : Nat} {g : Generator R} {T : Nat → Stim} (hT : Delivers S g T) {env : Env}
    {s s' : State} (h : RunWith S K R g env s s')
    (hans : ∀ c, env.alternating = .returns c ∨ env.construction = .returns c → c ≠ .probablyEquivalent)
    (hv : s'.results.equivalence = .probablyEquivalent) : ∀ k < K, ¬ DisagreeOn S (T k) := by
  obtain ⟨fuel, hrun⟩ := h.returned
  have hans' := simulates_stimuli S hT h.stimuli
  obtain ⟨_, hp, _, hall⟩ := sequential_counters h.mode h.started h.performed hrun
  obtain ⟨_, _, hnc, hfull⟩ := probably_equivalent_meaning h.mode h.notime hrun hans hv
  have hK : s'.results.performedSimulations = K := by
    rcases hfull with hfull | ⟨e, he, hk, hni⟩
    · rw [hfull, h.sims]
    · obtain ⟨i, hi, hlt⟩ := filter_get he hk
      obtain ⟨c, hc, hn, _⟩ := hans' i (by rw [hp]; exact hlt)
      rw [hall i e hi] at hc
      cases hc
      exact absurd hni hn
  intro k hk
  rw [← hK] at hk
  obtain ⟨c, hc, _, hiff⟩ := hans' k hk
  have hk' := lt_of_lt_of_eq hk hp
  have hget := List.getElem?_eq_getElem hk'
  have hmem := List.mem_filter.mp (List.getElem_mem hk')
  have hv' := hall k _ hget
  rw [hc] at hv'
  injection hv' with hv'
  refine hiff.mp fun hne => (hnc _ hmem.1).1 ?_
  unfold Conclusive
  have hkind : (s'.log.filter fun e => decide (e.kind = .simulation))[k].kind = .simulation := by simpa using hmem.2
  rw [hkind, ← hv']
  exact hne

/-- **C92**: if nothing but simulations is configured the run reports `ProbablyEquivalent` exactly if the circuits agree on all `K` stimuli,
and `NotEquivalent` otherwise. -/
theorem stimuli_verdict (S : Setting m n) {K : Nat} {g : Generator R} {T : Nat → Stim} (hT : Delivers S g T) {env : Env} {s s' : State}
    (h : RunWith S K R g env s s') (honly : OnlySimulations s) :
    (s'.results.equivalence = .probablyEquivalent ↔ ∀ k < K, ¬ DisagreeOn S (T k)) ∧
    (s'.results.equivalence = .notEquivalent ↔ ¬ ∀ k < K, ¬ DisagreeOn S (T k)) := by
  obtain ⟨fuel, hrun⟩ := h.returned
  have hans := simulates_stimuli S hT h.stimuli
  obtain ⟨hx, hprov, _⟩ := sequential_verdict_explained h.mode hrun
  obtain ⟨_, hp, hle, hall⟩ := sequential_counters h.mode h.started h.performed hrun
  rw [h.sims] at hle
  have hkind : ∀ e ∈ s'.log, e.kind = .simulation := fun e he => honly.2 _ (hprov e he).2
  have hev : ∀ e ∈ s'.log, ∃ k < s'.results.performedSimulations, e.verdict ≠ .noInformation ∧
      (e.verdict ≠ .notEquivalent ↔ ¬ DisagreeOn S (T k)) := by
    intro e he
    obtain ⟨i, hi, hlt⟩ := filter_get he (hkind e he)
    obtain ⟨c, hc, hn, hiff⟩ := hans i (by rw [hp]; exact hlt)
    rw [hall i e hi] at hc
    cases hc
    exact ⟨i, by rw [hp]; exact hlt, hn, hiff⟩
  by_cases hne : ∃ e ∈ s'.log, e.verdict = .notEquivalent
  · obtain ⟨e, he, hv⟩ := hne
    obtain ⟨k, hk, _, hiff⟩ := hev e he
    have hno : ¬ ∀ k < K, ¬ DisagreeOn S (T k) := fun hA => (hiff.mpr (hA k (lt_of_lt_of_le hk hle))) hv
    have heq : s'.results.equivalence = .notEquivalent := by
      rw [hx.1 e he (by unfold Conclusive; rw [hkind e he]; exact hv), hv]
    rw [heq]
    exact ⟨⟨by simp, fun hA => absurd hA hno⟩, ⟨fun _ => hno, fun _ => rfl⟩⟩
  · have hne' : ∀ e ∈ s'.log, e.verdict ≠ .notEquivalent := fun e he hv => hne ⟨e, he, hv⟩
    have hfull : s'.results.performedSimulations = K := by
      rcases sequential_sims_complete h.mode honly.1 hrun with hf | ⟨e, he, _, hv | hv⟩ | ⟨hf, _⟩
      · rw [hf, h.sims]
      · exact absurd hv (hne' e he)
      · obtain ⟨k, _, hn, _⟩ := hev e he
        exact absurd hv hn
      · exact absurd hf h.notime
    have hA : ∀ k < K, ¬ DisagreeOn S (T k) := by
      intro k hk
      rw [← hfull] at hk
      obtain ⟨c, hc, _, hiff⟩ := hans k hk
      have hget := List.getElem?_eq_getElem (lt_of_lt_of_eq hk hp)
      have hv := hall k _ hget
      rw [hc] at hv
      injection hv with hv
      have hmem := List.mem_filter.mp (List.getElem_mem (lt_of_lt_of_eq hk hp))
      exact hiff.mp (by rw [hv]; exact hne' _ hmem.1)
    have hncon : ∀ e ∈ s'.log, ¬ Conclusive e := by
      intro e he hc
      unfold Conclusive at hc
      rw [hkind e he] at hc
      exact hne' e he hc
    have hK : 0 < K := by
      have hmode := h.mode
      have : s.cfg.anythingToExecute = true := by
        unfold Mgr.mode at hmode
        split at hmode <;> simp_all
      simp only [Configuration.anythingToExecute, Bool.or_eq_true_iff] at this
      rw [← h.sims]
      have e1 := honly.2 .alternating
      have e2 := honly.2 .construction
      have e3 := honly.2 .zx
      simp only [Enabled] at e1 e2 e3
      simp_all
    have heq : s'.results.equivalence = .probablyEquivalent := by
      rw [hx.2 hncon]
      unfold evidence
      rw [if_pos, if_neg]
      · rintro ⟨e, he, hk, _⟩
        rw [hkind e he] at hk
        cases hk
      · have hpos : 0 < (s'.log.filter fun e => e.kind = .simulation).length := by rw [← hp, hfull]; exact hK
        have hmem := List.mem_filter.mp (List.getElem_mem hpos)
        obtain ⟨_, _, hn, _⟩ := hev _ hmem.1
        exact ⟨_, hmem.1, by simpa using hmem.2, hn, hne' _ hmem.1⟩
    rw [heq]
    exact ⟨⟨fun _ => hA, fun _ => rfl⟩, ⟨by simp, fun hn => absurd hA hn⟩⟩

/-- What is known about the simulations of a parallel run. -/
theorem parallel_stimuli (S : Setting m n) {K : Nat} {g : Generator R} {T : Nat → Stim} (hT : Delivers S g T) {env : ParEnv}
    {cfg : Configuration} {res : Results} {s : PState} (h : ParallelRunWith S K R g env cfg res s) (hz : ZXAnswers (adjust cfg env)) :
    (∀ e ∈ s.log, e.kind = .simulation → e.verdict ≠ .noInformation ∧ ∃ k < K, (e.verdict ≠ .notEquivalent ↔ ¬ DisagreeOn S (T k))) ∧
    (s.results.performedSimulations = K →
      ∀ k < K, ∃ e ∈ s.log, e.kind = .simulation ∧ (e.verdict ≠ .notEquivalent ↔ ¬ DisagreeOn S (T k))) := by
  obtain ⟨σ, k, sts, g', hh, hst⟩ := h.stimuli
  obtain ⟨H, hH⟩ := stimulated (env := env) (cfg := cfg) (res := res) hst
  have hreach : Reachable env cfg res s := stimulated_steps hst
  obtain ⟨hp, hs, _, hle⟩ := parallel_counters hz (adjust_reachable hreach) h.started h.performed
  rw [h.sims] at hle
  have hans : ∀ (j : Nat) (c : Criterion), StimulusAnswer S sts j c → c ≠ .noInformation ∧ j < k ∧
      (c ≠ .notEquivalent ↔ ¬ DisagreeOn S (T j)) := by
    rintro j c ⟨st, x, prev, fuel, s', h1, hden, hfu, hr⟩
    obtain ⟨hl, hgen⟩ := history_length (g := g) hh
    have hj : j < k := by
      rw [← hl]
      exact (List.getElem?_eq_some_iff.mp h1).1
    obtain ⟨g1, g2, hg⟩ := hgen _ (List.mem_of_getElem? h1)
    obtain ⟨a1, a2⟩ := simulation_disagrees S hg hden hfu hr
    rw [hT _ _ _ hh j _ h1] at a2
    exact ⟨a1, hj, a2⟩
  have hlen := hH.handled.length_eq
  have hk : k ≤ s.results.startedSimulations := requested_le hH hs
  have hkK : k ≤ K := hk.trans hle
  have hlog : ∀ e ∈ s.log, e.kind = .simulation → ∃ j ∈ H, StimulusAnswer S sts j e.verdict := by
    intro e he hke
    obtain ⟨i, hi, hlt⟩ := filter_get he hke
    have hlt' : i < H.length := hlen ▸ hlt
    have := List.Forall₂.get hH.handled hlt hlt'
    refine ⟨H[i], List.getElem_mem hlt', ?_⟩
    have hie := (List.getElem?_eq_some_iff.mp hi).2
    simp only [List.get_eq_getElem] at this
    rw [hie] at this
    exact this
  refine ⟨?_, ?_⟩
  · intro e he hke
    obtain ⟨j, _, hj⟩ := hlog e he hke
    obtain ⟨h1, hjk, h2⟩ := hans j _ hj
    exact ⟨h1, j, lt_of_lt_of_le hjk hkK, h2⟩
  · intro hperf
    have hall : (s.log.filter fun e => decide (e.kind = .simulation) && !decide (e.verdict = .noInformation)) =
        s.log.filter fun e => decide (e.kind = .simulation) := by
      refine List.filter_congr fun e he => ?_
      by_cases hke : e.kind = .simulation
      · obtain ⟨j, _, hj⟩ := hlog e he hke
        simp [hke, (hans j _ hj).1]
      · simp [hke]
    rw [hall, hlen, hperf] at hp
    have hsub : H ⊆ List.range k := fun j hj => List.mem_range.mpr (hH.bound j hj)
    have hle' := (List.subperm_of_subset hH.nodup hsub)
    have h1 := hle'.length_le
    rw [List.length_range] at h1
    have hkeq : k = K := by omega
    intro i hi
    have hmem : i ∈ H := by
      have hperm := hle'.perm_of_length_le (by rw [List.length_range]; omega)
      exact hperm.mem_iff.mpr (List.mem_range.mpr (by omega))
    obtain ⟨a, ha, hia⟩ := List.getElem_of_mem hmem
    have hlt : a < (s.log.filter fun e => e.kind = .simulation).length := hlen ▸ ha
    have := List.Forall₂.get hH.handled hlt ha
    simp only [List.get_eq_getElem] at this
    rw [hia] at this
    have hm := List.mem_filter.mp (List.getElem_mem hlt)
    obtain ⟨_, _, h2⟩ := hans _ _ this
    exact ⟨_, hm.1, by simpa using hm.2, h2⟩

/-- **C92** (parallel, any checkers): `ProbablyEquivalent` means that the circuits agree on all `K` stimuli. -/
theorem parallel_probably_equivalent_stimuli (S : Setting m n) {K : Nat} {g : Generator R} {T : Nat → Stim} (hT : Delivers S g T)
    {env : ParEnv} {cfg : Configuration} {res : Results} {s : PState} (h : ParallelRunWith S K R g env cfg res s)
    (hans : ∀ k c, Enabled cfg k → k ≠ .simulation → env.may k c → Answer S false k c)
    (hv : s.results.equivalence = .probablyEquivalent) : ∀ k < K, ¬ DisagreeOn S (T k) := by
  have hz := adjust_zx_other S hans
  obtain ⟨h1, h2⟩ := parallel_stimuli S hT h hz
  obtain ⟨σ, k', sts, g', _, hst⟩ := h.stimuli
  have hreach : Reachable env cfg res s := stimulated_steps hst
  obtain ⟨hx, hprov, hlast⟩ := parallel_verdict_explained hz (adjust_reachable hreach) h.returned
  have hmay : ∀ e ∈ s.log, e.kind ≠ .simulation → Answer S false e.kind e.verdict := fun e he hk =>
    hans _ _ (hprov e he).2 hk ((adjust_may (hprov e he).2 _).mp (hprov e he).1)
  have hnc : ∀ e ∈ s.log, ¬ Conclusive e := by
    intro e he hc
    have := hx.1 e he hc
    rw [hv] at this
    obtain ⟨ke, ve⟩ := e
    simp only at this
    subst this
    cases ke with
    | simulation => simp [Conclusive] at hc
    | alternating => exact never_probably_equivalent S (Or.inl rfl) (hmay _ he (by simp))
    | construction => exact never_probably_equivalent S (Or.inr rfl) (hmay _ he (by simp))
    | zx => simp [Conclusive] at hc
  have hng : ∀ e ∈ s.log, ¬ GivesUp e := by
    intro e he hge
    have := hx.2.1 e he hge
    rw [hv] at this
    cases this
  have hev := hx.2.2 fun e he => ⟨hnc e he, hng e he⟩
  rw [hv] at hev
  have hns : ¬ ∃ e ∈ s.log, Suspects e := by
    intro hs
    unfold parEvidence at hev
    rw [if_pos hs] at hev
    split at hev <;> cases hev
  have hpass : ∃ e ∈ s.log, Passed e := by
    by_contra hno
    unfold parEvidence at hev
    rw [if_neg hns, if_neg hno] at hev
    cases hev
  have hperf := parallel_finished hz h hpass hnc hng
  intro k hk
  obtain ⟨e, he, hke, hiff⟩ := h2 hperf k hk
  refine hiff.mp fun hne => hnc e he ?_
  unfold Conclusive
  rw [hke]
  exact hne

/-- **C92** (parallel): the verdict of a run with nothing but simulations, in every schedule. -/
theorem parallel_stimuli_verdict (S : Setting m n) {K : Nat} {g : Generator R} {T : Nat → Stim} (hT : Delivers S g T)
    {env : ParEnv} {cfg : Configuration} {res : Results} {s : PState} (h : ParallelRunWith S K R g env cfg res s) (honly : NothingElse cfg) :
    (s.results.equivalence = .probablyEquivalent ↔ ∀ k < K, ¬ DisagreeOn S (T k)) ∧
    (s.results.equivalence = .notEquivalent ↔ ¬ ∀ k < K, ¬ DisagreeOn S (T k)) := by
  have hans : ∀ k c, Enabled cfg k → k ≠ .simulation → env.may k c → Answer S false k c :=
    fun k c hk hne _ => absurd (honly.2 k hk) hne
  have hz := adjust_zx_other S hans
  obtain ⟨h1, h2⟩ := parallel_stimuli S hT h hz
  have hreach : Reachable env cfg res s := by
    obtain ⟨σ, k', sts, g', _, hst⟩ := h.stimuli
    exact stimulated_steps hst
  obtain ⟨hx, hprov, _⟩ := parallel_verdict_explained hz (adjust_reachable hreach) h.returned
  have hkind : ∀ e ∈ s.log, e.kind = .simulation := fun e he => honly.2 _ (hprov e he).2
  by_cases hne : ∃ e ∈ s.log, e.verdict = .notEquivalent
  · obtain ⟨e, he, hv⟩ := hne
    have heq : s.results.equivalence = .notEquivalent := by
      rw [hx.1 e he (by unfold Conclusive; rw [hkind e he]; exact hv), hv]
    obtain ⟨_, k, hk, hi⟩ := h1 e he (hkind e he)
    have hno : ¬ ∀ k < K, ¬ DisagreeOn S (T k) := fun hA => (hi.mpr (hA k hk)) hv
    rw [heq]
    exact ⟨⟨by simp, fun hA => absurd hA hno⟩, ⟨fun _ => hno, fun _ => rfl⟩⟩
  · have hne' : ∀ e ∈ s.log, e.verdict ≠ .notEquivalent := fun e he hv => hne ⟨e, he, hv⟩
    have hnc : ∀ e ∈ s.log, ¬ Conclusive e := by
      intro e he hc
      unfold Conclusive at hc
      rw [hkind e he] at hc
      exact hne' e he hc
    have hng : ∀ e ∈ s.log, ¬ GivesUp e := fun e he hge => (h1 e he (hkind e he)).1 hge.2
    have hns : ¬ ∃ e ∈ s.log, Suspects e := by
      rintro ⟨e, he, hk, _⟩
      rw [hkind e he] at hk
      cases hk
    have hpass : ∃ e ∈ s.log, Passed e := by
      rcases parallel_stop_reason hz (adjust_reachable hreach) (returned_done hreach h.returned) with h' | h' | ⟨l, e, hl, _⟩
      · rw [h.notime] at h'; cases h'
      · exfalso
        have hzx := honly.2 .zx
        simp only [Enabled] at hzx
        revert h'
        unfold zxGivesUp dropSims
        cases hrz : cfg.execution.runZXChecker
        · split <;> simp [hrz]
        · exact absurd (hzx hrz) (by simp)
      · have he : e ∈ s.log := by rw [hl]; simp
        exact ⟨e, he, hkind e he, (h1 e he (hkind e he)).1, hne' e he⟩
    have hperf := parallel_finished hz h hpass hnc hng
    have heq : s.results.equivalence = .probablyEquivalent := by
      rw [hx.2.2 fun e he => ⟨hnc e he, hng e he⟩]
      unfold parEvidence
      rw [if_neg hns, if_pos hpass]
    have hA : ∀ k < K, ¬ DisagreeOn S (T k) := by
      intro k hk
      obtain ⟨e, he, _, hiff⟩ := h2 hperf k hk
      exact hiff.mp (hne' e he)
    rw [heq]
    exact ⟨⟨fun _ => hA, fun _ => rfl⟩, ⟨by simp, fun hn => absurd hA hn⟩⟩

end QCEC.Props
