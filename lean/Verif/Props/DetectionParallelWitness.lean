import Verif.Props.DetectionParallel
import Verif.Props.DetectionWitness
import Verif.Props.ParallelWitness
/-!
# C79, C91 in a parallel run: the hypotheses can be met
-/
namespace QCEC.Props
open QCEC QCEC.DD QCEC.Sem QCEC.Gen QCEC.ZX QCEC.Spec QCEC.Spec.ZX QCEC.Mgr QCEC.Prep QCEC.Par MeasureTheory

variable {m n : Nat} {R : Rng}

/-- No exception; a simulation may answer anything. -/
def calmEnv : ParEnv :=
  { may := fun k c => k = .simulation ∨ c = .noInformation, ctorMayThrow := fun _ => False, runMayThrow := fun _ => False,
    zxTransformable := true }

theorem calmEnv_zx : ZXAnswers calmEnv := by
  rintro c (h | h)
  · cases h
  · simp [h]

/-- An execution can be continued until it ends, as long as there are answers to the stimuli. -/
theorem stimulated_ends {answer : Nat → Criterion → Prop} {K : Nat} (hans : ∀ j < K, ∃ c, answer j c) {cfg : Configuration} {res : Results}
    (h1 : res.startedSimulations = 0) (h2 : res.performedSimulations = 0) (hK : cfg.simulation.maxSims = K) :
    ∀ (N : Nat) (s : PState) (σ : Nat → Nat) (k : Nat), measureOf s ≤ N →
    StimulatedSteps calmEnv answer (launch calmEnv.zxTransformable cfg res) s σ k →
    ∃ (s' : PState) (σ' : Nat → Nat) (k' : Nat), StimulatedSteps calmEnv answer (launch calmEnv.zxTransformable cfg res) s' σ' k' ∧
      ∀ s'', ¬ Step calmEnv s' s'' := by
  intro N
  induction N with
  | zero =>
    intro s σ k hN h
    refine ⟨s, σ, k, h, fun s'' hst => ?_⟩
    have := step_decreases (reachable_base (cfg := cfg) (res := res) (stimulated_steps h)) hst
    omega
  | succ N ih =>
    intro s σ k hN h
    by_cases hex : ∃ s', Step calmEnv s s'
    · obtain ⟨s', hst⟩ := hex
      have hb := reachable_base (cfg := cfg) (res := res) (stimulated_steps h)
      have hdec : ∀ s', Step calmEnv s s' → measureOf s' ≤ N := fun s' hst => by
        have := step_decreases hb hst
        omega
      by_cases hr : ∃ i, Requests s s' i
      · obtain ⟨i, hr⟩ := hr
        exact ih _ _ _ (hdec _ hst) (.request h hst hr)
      · by_cases ha : ∃ i c, Answers s s' i c
        · obtain ⟨i, c, x, hx, hk, hp, rfl⟩ := ha
          by_cases hd : s.done = true
          · exact ih _ _ _ (hdec _ hst) (.answered h hst ⟨x, hx, hk, hp, rfl⟩ fun h' => by rw [hd] at h'; cases h')
          · obtain ⟨H, hH⟩ := stimulated h
            obtain ⟨_, hs, _, hle⟩ := parallel_counters calmEnv_zx (stimulated_steps h) h1 h2
            have hlive : Live x := ⟨hk, (hb.slots x (List.mem_of_getElem? hx)).fresh (Or.inr (Or.inr hp)), by rw [hp]; simp, by rw [hp]; simp⟩
            have hlt := (hH.live i x hx hlive).1
            have hle' := requested_le hH hs
            obtain ⟨c', hc'⟩ := hans (σ i) (by omega)
            have hm : ∀ e, s.main ≠ .ended e := fun e he => ended_final he hst
            have hst' : Step calmEnv s (s.upd i fun y => { y with pc := .pushing, eq := c' }) :=
              .runReturns s i x c' hx hp (Or.inl hk) hm
            exact ih _ _ _ (hdec _ hst') (.answered h hst' ⟨x, hx, hk, hp, rfl⟩ fun _ => hc')
        · exact ih _ _ _ (hdec _ hst) (.other h hst (fun i hi => hr ⟨i, hi⟩) fun i c hic => ha ⟨i, c, hic⟩)
    · exact ⟨s, σ, k, h, fun s'' hst => hex ⟨s'', hst⟩⟩

/-- Only the stimuli requested matter. -/
theorem stimulated_requested {env : ParEnv} {answer : Nat → Criterion → Prop} {cfg : Configuration} {res : Results} {s : PState}
    {σ : Nat → Nat} {k : Nat} (h : StimulatedSteps env answer (launch env.zxTransformable cfg res) s σ k) : ∀ L, k ≤ L →
    StimulatedSteps env (fun j c => j < L ∧ answer j c) (launch env.zxTransformable cfg res) s σ k := by
  induction h with
  | refl => exact fun _ _ => .refl
  | request h hst hr ih => exact fun L hL => .request (ih L (by omega)) hst hr
  | answered h hst hr hc ih =>
    intro L hL
    refine .answered (ih L hL) hst hr fun hd => ⟨?_, hc hd⟩
    obtain ⟨x, hx, hk, hp, _⟩ := hr
    obtain ⟨H, hH⟩ := stimulated h
    have hb := reachable_base (cfg := cfg) (res := res) (stimulated_steps h)
    have := (hH.live _ x hx ⟨hk, (hb.slots x (List.mem_of_getElem? hx)).fresh (Or.inr (Or.inr hp)), by rw [hp]; simp, by rw [hp]; simp⟩).1
    omega
  | other h hst h1 h2 ih => exact fun L hL => .other (ih L hL) hst h1 h2

theorem stimulated_mono {env : ParEnv} {answer answer' : Nat → Criterion → Prop} (hle : ∀ j c, answer j c → answer' j c) {s0 s : PState}
    {σ : Nat → Nat} {k : Nat} (h : StimulatedSteps env answer s0 s σ k) : StimulatedSteps env answer' s0 s σ k := by
  induction h with
  | refl => exact .refl
  | request h hst hr ih => exact .request ih hst hr
  | answered h hst hr hc ih => exact .answered ih hst hr fun hd => hle _ _ (hc hd)
  | other h hst h1 h2 ih => exact .other ih hst h1 h2

/-- `K` simulations in `T` threads and nothing else. -/
abbrev manySims (K T : Nat) : Configuration := parCfg true false false false K T 0

/-- Whatever the stimuli are, there are answers of the simulation checkers to them, with which a parallel run returns. -/
theorem parallel_simulation_run_exists (S : Setting m n) {K T : Nat} (hK : 0 < K) (hT : 1 < T)
    {g g' : Generator R} {sts : List Stim} (hh : History g (List.replicate K (.request (checkerReq n m S.stateType))) sts g') :
    ∃ s, ParallelRunWith S K R g calmEnv (manySims K T) {} s := by
  obtain ⟨hs⟩ := S.confS
  have hone : ∀ j < K, ∃ c : Criterion, StimulusAnswer S sts j c := by
    intro j hj
    obtain ⟨hl, hgen⟩ := history_length (g := g) hh
    have hst : sts[j]? = some sts[j] := List.getElem?_eq_getElem (hl ▸ hj)
    obtain ⟨g1, g2, hg⟩ := hgen _ (List.mem_of_getElem? hst)
    obtain ⟨x, hden⟩ := denotes_exists S.data hg S.cliff
    obtain ⟨s, hr, _, _⟩ := simulation_true_output S.garbV S.qc1 S.qc2 S.ω1 S.ω2 S.wf1 S.wf2 S.schS hs
      (equalsVector S.V.ptrEq S.V.wEq S.V.realClose S.V.fidClose) .noInformation x
    exact ⟨_, _, _, _, _, s, hst, hden, Nat.le_refl _, hr⟩
  obtain ⟨s, σ, k, hst, hend⟩ := stimulated_ends (cfg := manySims K T) (res := {}) hone rfl rfl rfl _ _ _ _ (Nat.le_refl _) .refl
  have hreach : Reachable calmEnv (manySims K T) {} s := stimulated_steps hst
  have hp : ParCfg (manySims K T) := ⟨by simp [parCfg, Configuration.anythingToExecute, hK], hT⟩
  obtain ⟨e, he⟩ := parallel_terminates_partial hp calmEnv_zx (fun k => ⟨.noInformation, Or.inr rfl⟩) rfl rfl hreach hend
    (Or.inr (Or.inr (Or.inr (Or.inl rfl))))
  obtain ⟨n1, n2, _⟩ := parallel_no_crash_partial hreach (by
    have hl : definitiveKinds calmEnv.zxTransformable (manySims K T) = [] := by
      unfold definitiveKinds launchCfg dropZX dropSims zxGivesUp
      by_cases hK0 : K = 0
      · omega
      · simp [parCfg, hK0, calmEnv]
    rw [hl]
    exact Nat.zero_le _) (fun _ h => h)
  have hret : s.main = .ended .returned := by
    cases e with
    | returned => exact he
    | threw =>
      obtain ⟨_, _, _, h' | h'⟩ := (parallel_exceptions hreach).1 he
      · exact h'.elim
      · exact h'.elim
    | terminated => exact absurd he n2
    | undefinedBehaviour => exact absurd he n1
  obtain ⟨H, hH⟩ := stimulated hst
  obtain ⟨_, hs', _, hle⟩ := parallel_counters calmEnv_zx hreach rfl rfl
  have hkK : k ≤ K := (requested_le hH hs').trans hle
  obtain ⟨g'', htake⟩ := history_take k hkK hh
  refine ⟨s, rfl, rfl, rfl, hret, ?_, σ, k, sts.take k, g'', htake, ?_⟩
  · cases hto : s.timedOut with
    | false => rfl
    | true =>
      have h1 := ((reachable_vinv calmEnv_zx.never hreach).late hto).2
      rw [(reachable_base hreach).conf, (launch_flags _ _).2.2] at h1
      simp [parCfg] at h1
  · refine stimulated_mono ?_ (stimulated_requested hst k (Nat.le_refl _))
    rintro j c ⟨hj, st, x, prev, fuel, s', h1, h2⟩
    exact ⟨st, x, prev, fuel, s', by rw [List.getElem?_take_of_lt hj]; exact h1, h2⟩

theorem manySims_only (K T : Nat) : NothingElse (manySims K T) := by
  refine ⟨rfl, fun k hk => ?_⟩
  cases k
  · rfl
  · cases hk
  · cases hk
  · cases hk

/-- **C91** (parallel) is not vacuous: for every two circuits and with every idealised random source there are almost surely runs as in
`parallel_detection_probability`, with any number of threads. -/
theorem parallel_runs_exist [MeasurableSpace R.σ] {μ : Measure R.σ} (S : Setting m n) (ht : S.stateType = .computationalBasis) (h63 : m ≤ 63)
    (hμ : IdealSource R μ m) {K T : Nat} (h0 : 0 < K) (hT : 1 < T) (hK : K ≤ 2 ^ m) (seed : Nat) :
    ∃ s : R.σ → PState, ∀ᵐ w ∂μ, ParallelRunWith S K R ⟨seed, w, []⟩ calmEnv (manySims K T) {} (s w) := by
  classical
  have hex : ∀ w : R.σ, ∃ s : PState,
      (∃ (sts : List Stim) (g' : Generator R),
        History ⟨seed, w, []⟩ (List.replicate K (.request (checkerReq n m .computationalBasis))) sts g') →
      ParallelRunWith S K R ⟨seed, w, []⟩ calmEnv (manySims K T) {} s := by
    intro w
    by_cases h : ∃ (sts : List Stim) (g' : Generator R),
        History ⟨seed, w, []⟩ (List.replicate K (.request (checkerReq n m .computationalBasis))) sts g'
    · obtain ⟨sts, g', hh⟩ := h
      obtain ⟨s, hs⟩ := parallel_simulation_run_exists S h0 hT (by rw [ht]; exact hh)
      exact ⟨s, fun _ => hs⟩
    · exact ⟨launch true (manySims K T) {}, fun h' => absurd h' h⟩
  choose s hs using hex
  refine ⟨s, ?_⟩
  filter_upwards [requests_return_ae S.data h63 hμ hK seed] with w hw
  exact hs w hw

/-- **C91** (parallel): two random simulations in two threads miss a SWAP gate with probability `1/6`. -/
theorem parallel_swap_missed_rarely : ∃ s : (numberTape 2).σ → PState,
    (∀ᵐ w ∂tapeMeasure 2, ParallelRunWith swapSetting 2 (numberTape 2) ⟨0, w, []⟩ calmEnv (manySims 2 2) {} (s w)) ∧
    tapeMeasure 2 {w | (s w).results.equivalence = .probablyEquivalent} = 1 / 6 ∧
    tapeMeasure 2 {w | (s w).results.equivalence = .notEquivalent} = 1 - 1 / 6 := by
  obtain ⟨s, hrun⟩ := parallel_runs_exist swapSetting rfl (by decide) (numberTape_ideal 2) (K := 2) (T := 2) (by decide) (by decide)
    (by decide) 0
  have h := parallel_detection_probability swapSetting rfl (by decide) (numberTape_ideal 2) (K := 2) (by decide) 0 (fun _ => calmEnv)
    (fun _ => manySims 2 2) (fun _ => {}) s hrun fun _ => manySims_only 2 2
  rw [swap_disagreements] at h
  have hq : (((2 ^ 2 - 2 : Nat).descFactorial 2 : Nat) : ENNReal) / (((2 ^ 2 : Nat).descFactorial 2 : Nat) : ENNReal) = 1 / 6 := by
    have h1 : (2 ^ 2 - 2 : Nat).descFactorial 2 = 2 := by decide
    have h2 : (2 ^ 2 : Nat).descFactorial 2 = 12 := by decide
    rw [h1, h2]
    rw [ENNReal.div_eq_div_iff (by norm_num) (by norm_num) (by norm_num) (by norm_num)]
    norm_num
  rw [hq] at h
  exact ⟨s, hrun, h.1, h.2⟩

/-- **C79** (parallel): such runs over all classical inputs exist and decide. -/
theorem parallel_exhaustive_decided (S : Setting m n) (ht : S.stateType = .computationalBasis) (h63 : m ≤ 63) {T : Nat} (hT : 1 < T) :
    ∃ s, ParallelRunWith S (2 ^ m) counter (Generator.new counter 1 []) calmEnv (manySims (2 ^ m) T) {} s ∧
      (s.results.equivalence = .probablyEquivalent ↔ AllInputsAgree S) ∧ (s.results.equivalence = .notEquivalent ↔ ¬ AllInputsAgree S) := by
  obtain ⟨sts, g', hh⟩ := full_history S.data h63 (2 ^ m) (Nat.le_refl _)
  obtain ⟨s, hs⟩ := parallel_simulation_run_exists S (Nat.two_pow_pos m) hT (by rw [ht]; exact hh)
  exact ⟨s, hs, parallel_exhaustive_simulation S ht h63 rfl hs (manySims_only _ _)⟩

end QCEC.Props
