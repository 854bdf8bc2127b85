import Verif.Props.SequentialEnd
import Verif.Lemmas.ParallelVerdict
import Verif.Lemmas.ParallelCount
import Verif.Lemmas.ParallelHang
/-!
# Stored counterexamples (C57), choice of the flow (C58) and checker reports (C59)
-/
namespace QCEC.Props
open QCEC QCEC.Mgr QCEC.Spec

/-! ## C57, sequential -/

/-- The stored vectors and the configuration are the same. -/
def SameCex (s s' : State) : Prop :=
  s'.results.cexInput = s.results.cexInput ∧ s'.results.cexOutput = s.results.cexOutput ∧ s'.cfg = s.cfg

theorem SameCex.trans {a b c : State} (h : SameCex a b) (g : SameCex b c) : SameCex a c :=
  ⟨g.1.trans h.1, g.2.1.trans h.2.1, g.2.2.trans h.2.2⟩

theorem definitiveStage_cex (env : Env) (kind : Kind) (enabled : Bool) (o : Outcome) (s : State) :
    (definitiveStage env kind enabled o s).Holds (SameCex s) := by
  unfold definitiveStage
  split
  · exact ⟨rfl, rfl, rfl⟩
  · split
    · exact ⟨rfl, rfl, rfl⟩
    · cases o with
      | ctorThrows => exact ⟨rfl, rfl, rfl⟩
      | runThrows => simp only; split <;> exact ⟨rfl, rfl, rfl⟩
      | returns r =>
        simp only
        split
        · exact ⟨rfl, rfl, rfl⟩
        · split <;> exact ⟨rfl, rfl, rfl⟩

theorem zxStage_cex (env : Env) (s : State) : (zxStage env s).Holds (SameCex s) := by
  unfold zxStage
  split
  · exact ⟨rfl, rfl, rfl⟩
  · split
    · exact ⟨rfl, rfl, rfl⟩
    · simp only
      split
      · split
        · trivial
        · split <;> exact ⟨rfl, rfl, rfl⟩
        · split <;> exact ⟨rfl, rfl, rfl⟩
      · split <;> exact ⟨rfl, rfl, rfl⟩

theorem stages_cex (env : Env) (s : State) : (stages env s).Holds (SameCex s) := by
  unfold stages
  refine Ending.Holds.andThen (P := SameCex s) ?_ ?_ (fun _ h => h)
  · refine Ending.Holds.andThen (P := SameCex s) (definitiveStage_cex _ _ _ _ _) ?_ (fun _ h => h)
    intro s1 h1
    exact (definitiveStage_cex _ _ _ _ _).imp fun _ h => h1.trans h
  · intro s1 h1
    exact (zxStage_cex _ _).imp fun _ h => h1.trans h

/-- The state in which the loop ends. -/
def simEndState : SimRes → Option State
  | .finished s => some s
  | .aborted s => some s
  | .threw s => some s
  | .diverged => none

theorem simLoop_cex (env : Env) : ∀ fuel k s s', simEndState (simLoop env fuel k s) = some s' → SameCex s s' := by
  intro fuel
  induction fuel with
  | zero => intro k s s' h; simp [simLoop, simEndState] at h
  | succ n ih =>
    intro k s s' h
    unfold simLoop at h
    split at h
    · simp only [simEndState, Option.some.injEq] at h; subst h; exact ⟨rfl, rfl, rfl⟩
    · split at h
      · simp only [simEndState, Option.some.injEq] at h; subst h; exact ⟨rfl, rfl, rfl⟩
      · split at h
        · simp only [simEndState, Option.some.injEq] at h; subst h; exact ⟨rfl, rfl, rfl⟩
        · simp only at h
          split at h
          · simp only [simEndState, Option.some.injEq] at h; subst h; exact ⟨rfl, rfl, rfl⟩
          · split at h
            · simp only [simEndState, Option.some.injEq] at h; subst h; exact ⟨rfl, rfl, rfl⟩
            · have h2 := ih _ _ _ h
              exact SameCex.trans ⟨rfl, rfl, rfl⟩ h2

/-- What a run that starts in `s` leaves behind, depending on whether a simulation found a counterexample. -/
def CexSpec (s s' : State) : Prop :=
  (∀ i, s'.log[i]? = some ⟨.simulation, .notEquivalent⟩ →
    s'.results.cexInput = (if s.cfg.simulation.storeCEXinput = true then some i else s.results.cexInput) ∧
    s'.results.cexOutput = (if s.cfg.simulation.storeCEXoutput = true then some i else s.results.cexOutput)) ∧
  ((¬ ∃ e ∈ s'.log, e.kind = .simulation ∧ e.verdict = .notEquivalent) →
    s'.results.cexInput = s.results.cexInput ∧ s'.results.cexOutput = s.results.cexOutput)

theorem checkSequential_cex (env : Env) (fuel : Nat) (s s' : State) (hinv : Inv env 0 s) (hl : s.log = [])
    (hd : s.done = false) (h : checkSequential env fuel s = .returned s') : CexSpec s s' := by
  have hlog : SimLog env s.results.startedSimulations s.results.performedSimulations s :=
    ⟨by simp [hl], by simp [hl], by simp [hl], by simp [hl]⟩
  -- a state whose log has no counterexample
  have plain : ∀ x : State, (∀ e ∈ x.log, ¬ (e.kind = .simulation ∧ e.verdict = .notEquivalent)) → SameCex s x → CexSpec s x := by
    intro x hx hk
    refine ⟨fun i hi => ?_, fun _ => ⟨hk.1, hk.2.1⟩⟩
    exact absurd ⟨rfl, rfl⟩ (hx _ (List.mem_of_getElem? hi))
  have sims_stage : ∀ x : State, Inv env 0 x → stages env x = .returned s' →
      Inv env 3 s' ∧ Keeps x s' ∧ SameCex x s' := by
    intro x hi hs
    have h1 := stages_inv env x hi
    have h2 := stages_cex env x
    rw [hs] at h1 h2
    exact ⟨h1.1, h1.2, h2⟩
  have fin : ∀ e : Ending, (match e with | .threw y => leave y (.threw y) | e => e) = .returned s' → e = .returned s' := by
    intro e he
    cases e with
    | threw y => simp only [leave] at he; split at he <;> simp at he
    | returned y => exact he
    | terminated => exact he
    | diverged => exact he
  unfold checkSequential at h
  simp only at h
  split at h
  · rename_i hen
    split at h
    · unfold leave at h; split at h <;> simp at h
    · have hloop := simLoop_inv env s.cfg s.results.startedSimulations s.results.performedSimulations hen fuel 0
        { s with checkers := s.checkers ++ [.simulation] } (by simp [hl]) rfl
        ⟨hlog.only, hlog.each, hlog.performed, hlog.started⟩
        (hinv.congr rfl rfl rfl (fun h => h) (Or.inr (by simp [hl]))) (fun h => h) hd (by simp)
      have hcex := simLoop_cex env fuel 0 { s with checkers := s.checkers ++ [.simulation] }
      revert hloop hcex h
      cases simLoop env fuel 0 { s with checkers := s.checkers ++ [.simulation] } with
      | diverged => intro h _ _; simp at h
      | threw x => intro h _ _; simp only [leave] at h; split at h <;> simp at h
      | aborted x =>
        rintro h ⟨h0, hi0, _⟩ hcex
        have hx : x = s' := by
          simp only [leave] at h
          split at h
          · simp at h
          · simpa using h
        subst hx
        have hsame : SameCex s x := hcex x rfl
        refine plain x ?_ hsame
        rintro e he ⟨hk, hv⟩
        have hstop := hi0.stop ⟨e, he, by unfold Conclusive; rw [hk]; exact hv⟩
        rw [h0.notDone] at hstop
        exact absurd hstop (by simp)
      | finished x =>
        rintro h ⟨h0, _⟩ hcex
        have hsame : SameCex s x := hcex x rfl
        obtain ⟨g1, g2, g3, g4, g5, g6, g7⟩ := afterSims_inv h0
        obtain ⟨hi3, hk, hst⟩ := sims_stage _ g1 (fin _ h)
        have hsims : sims s'.log = x.log := by
          show List.filter _ _ = _
          rw [hk.sims, g3]; exact sims_of_only h0.log.only
        by_cases hne : x.results.equivalence = .notEquivalent
        · -- refuted: the vectors are stored
          have hex : ∃ e ∈ x.log, e.kind = .simulation ∧ e.verdict = .notEquivalent := by
            apply Classical.byContradiction
            intro hno
            have hnc : ∀ e ∈ x.log, ¬ Conclusive e := by
              intro e he hc
              apply hno
              have hk := h0.log.only e he
              refine ⟨e, he, hk, ?_⟩
              unfold Conclusive at hc
              rw [hk] at hc
              exact hc
            have := h0.inv.verdict.2 hnc
            rw [show ({ x with done := x.done || decide (x.results.equivalence = .notEquivalent) } : State).results.equivalence
              = .notEquivalent from hne] at this
            exact evidence_ne_notEquivalent _ this.symm
          refine ⟨?_, ?_⟩
          · intro i hi
            have hlt : i < s'.log.length := (List.getElem?_eq_some_iff.mp hi).1
            have hget : s'.log[i] = ⟨.simulation, .notEquivalent⟩ := (List.getElem?_eq_some_iff.mp hi).2
            have hlast : i + 1 = s'.log.length := by
              apply Classical.byContradiction
              intro hn
              have := List.pairwise_iff_getElem.mp hi3.order i (i + 1) hlt (by omega) (by omega)
              rw [hget] at this
              exact this.1 rfl
            have hall : ∀ e ∈ s'.log, e.kind = .simulation := by
              intro e he
              obtain ⟨j, hj, rfl⟩ := List.mem_iff_getElem.mp he
              rcases Nat.lt_or_ge j i with hji | hji
              · have := (List.pairwise_iff_getElem.mp hi3.order j i hj hlt hji).2
                rw [hget] at this
                rcases this with h1 | h1
                · simp [rank] at h1
                · exact h1.1
              · have : j = i := by omega
                subst this
                rw [hget]
            have hxl : x.log = s'.log := by rw [← hsims]; exact sims_of_only hall
            have hls : x.lastSim = i := by
              show (sims x.log).length - 1 = i
              rw [sims_of_only h0.log.only, hxl]; omega
            have ha : afterSims x = x.storeCex.simsOnlyDone := by unfold afterSims; rw [if_pos hne]
            obtain ⟨hs1, hs2, _⟩ := hst
            rw [ha] at hs1 hs2
            have hc : x.cfg = s.cfg := hsame.2.2
            rw [hs1, hs2]
            simp only [State.simsOnlyDone, State.storeCex, hls, hc]
            rw [hsame.1, hsame.2.1]
            exact ⟨rfl, rfl⟩
          · intro hno
            obtain ⟨e, he, hh⟩ := hex
            exact absurd ⟨e, by rw [← hsims] at he; exact (List.mem_filter.mp he).1, hh⟩ hno
        · have hno : ∀ e ∈ s'.log, ¬ (e.kind = .simulation ∧ e.verdict = .notEquivalent) := by
            rintro e he ⟨hke, hve⟩
            have hm : e ∈ x.log := by
              rw [← hsims]
              exact List.mem_filter.mpr ⟨he, by simpa using hke⟩
            have := h0.inv.verdict.1 e hm (by unfold Conclusive; rw [hke]; exact hve)
            exact hne (by rw [hve] at this; exact this)
          refine plain s' hno ?_
          have ha : SameCex x (afterSims x) := by
            unfold afterSims; rw [if_neg hne]; exact ⟨rfl, rfl, rfl⟩
          exact (hsame.trans ha).trans hst
  · rename_i hen
    have hs := fin _ h
    obtain ⟨hi3, hk, hst⟩ := sims_stage s hinv hs
    refine plain s' ?_ hst
    rintro e he ⟨hke, hve⟩
    have := (hi3.prov e he).2
    rw [hke, hst.2.2] at this
    exact hen this

theorem sequential_checked {env : Env} {fuel : Nat} {s s' : State} (hm : mode env s.cfg = .sequential)
    (h : run env fuel s = some (.returned s')) :
    ∃ t, checkSequential env fuel s.begin = .returned t ∧ SeqReturned env s.begin t ∧ s' = t.report := by
  have hany : s.begin.cfg.anythingToExecute = true := by
    have hm' : mode env s.begin.cfg = .sequential := hm
    unfold mode at hm'
    split at hm' <;> simp_all
  have hp := checkSequential_post env fuel s.begin (begin_inv env s) rfl rfl hany
  rw [run_sequential hm, Option.some.injEq] at h
  obtain ⟨t, h1, h2⟩ := andThen_returned h
  rw [h1] at hp
  exact ⟨t, h1, hp, by simpa using h2.symm⟩

/-- **C57** (sequential): if the `i`-th simulation found a counterexample, then the vectors of exactly that simulation are stored,
each of the two according to its option; otherwise nothing is stored (values of an earlier run are kept). -/
theorem sequential_counterexample {env : Env} {fuel : Nat} {s s' : State} (hm : mode env s.cfg = .sequential)
    (h : run env fuel s = some (.returned s')) :
    (∀ i, s'.log[i]? = some ⟨.simulation, .notEquivalent⟩ → env.sim i = some .notEquivalent ∧
      s'.results.cexInput = (if s.cfg.simulation.storeCEXinput = true then some i else s.results.cexInput) ∧
      s'.results.cexOutput = (if s.cfg.simulation.storeCEXoutput = true then some i else s.results.cexOutput)) ∧
    ((¬ ∃ e ∈ s'.log, e.kind = .simulation ∧ e.verdict = .notEquivalent) →
      s'.results.cexInput = s.results.cexInput ∧ s'.results.cexOutput = s.results.cexOutput) := by
  obtain ⟨t, hck, ht, rfl⟩ := sequential_checked hm h
  have hc := checkSequential_cex env fuel s.begin t (begin_inv env s) rfl rfl hck
  refine ⟨fun i hi => ⟨?_, hc.1 i hi⟩, hc.2⟩
  -- simulations come first in the log
  have hi' : t.log[i]? = some ⟨.simulation, .notEquivalent⟩ := hi
  have hlt : i < t.log.length := (List.getElem?_eq_some_iff.mp hi').1
  have hget : t.log[i] = ⟨.simulation, .notEquivalent⟩ := (List.getElem?_eq_some_iff.mp hi').2
  have hlast : i + 1 = t.log.length := by
    apply Classical.byContradiction
    intro hn
    have := List.pairwise_iff_getElem.mp ht.inv.order i (i + 1) hlt (by omega) (by omega)
    rw [hget] at this
    exact this.1 rfl
  have hall : ∀ e ∈ t.log, e.kind = .simulation := by
    intro e he
    obtain ⟨j, hj, rfl⟩ := List.mem_iff_getElem.mp he
    rcases Nat.lt_or_ge j i with hji | hji
    · have := (List.pairwise_iff_getElem.mp ht.inv.order j i hj hlt hji).2
      rw [hget] at this
      rcases this with h1 | h1
      · simp [rank] at h1
      · exact h1.1
    · have : j = i := by omega
      subst this
      rw [hget]
  have he := ht.each i ⟨.simulation, .notEquivalent⟩ (by rw [sims_of_only hall]; exact hi')
  exact he

/-! ## C57, parallel -/

section
open QCEC.Par

theorem handleZX_cex (cfg : Configuration) (r : Results) (c : Criterion) :
    (handleZX cfg r c).1.cexInput = r.cexInput ∧ (handleZX cfg r c).1.cexOutput = r.cexOutput := by
  unfold handleZX
  repeat' split
  all_goals exact ⟨rfl, rfl⟩

theorem handleSim_cex (cfg : Configuration) (r : Results) :
    (handleSim cfg r).1.cexInput = r.cexInput ∧ (handleSim cfg r).1.cexOutput = r.cexOutput := by
  unfold handleSim
  repeat' split
  all_goals exact ⟨rfl, rfl⟩

theorem handle_cex_other (cfg : Configuration) (r : Results) (k : Kind) (c : Criterion)
    (h : ¬ (k = .simulation ∧ c = .notEquivalent)) :
    (handle cfg r k c).1.cexInput = r.cexInput ∧ (handle cfg r k c).1.cexOutput = r.cexOutput := by
  unfold handle
  split
  · split <;> exact ⟨rfl, rfl⟩
  · split
    · rename_i hc
      rw [if_neg (fun hk => h ⟨hk, hc⟩)]
      exact ⟨rfl, rfl⟩
    · cases k
      · exact handleSim_cex cfg r
      · exact ⟨rfl, rfl⟩
      · exact ⟨rfl, rfl⟩
      · exact handleZX_cex cfg r c

theorem handle_cex_sim (cfg : Configuration) (r : Results) :
    (handle cfg r .simulation .notEquivalent).2 = .stop ∧
    (handle cfg r .simulation .notEquivalent).1.cexInput =
      (if cfg.simulation.storeCEXinput = true then some r.performedSimulations else r.cexInput) ∧
    (handle cfg r .simulation .notEquivalent).1.cexOutput =
      (if cfg.simulation.storeCEXoutput = true then some r.performedSimulations else r.cexOutput) :=
  ⟨rfl, rfl, rfl⟩

/-- Number of simulations with a verdict among the completions. -/
def simsDecided (log : List Event) : Nat :=
  (log.filter fun e => decide (e.kind = .simulation) && !decide (e.verdict = .noInformation)).length

/-- **C57** (parallel): whatever the interleaving, if a simulation found a counterexample, it is the last completion that was
handled and its own vectors are stored (identified by the number of simulations handled before it), each of the two according to
its option; otherwise nothing is stored. -/
theorem parallel_counterexample {env : ParEnv} {cfg : Configuration} {res : Results} {s : PState} (h : Reachable env cfg res s) :
    ((∃ e ∈ s.log, e.kind = .simulation ∧ e.verdict = .notEquivalent) →
      ∃ l, s.log = l ++ [⟨.simulation, .notEquivalent⟩] ∧ s.done = true ∧
        s.results.cexInput = (if cfg.simulation.storeCEXinput = true then some (res.performedSimulations + simsDecided l)
          else res.cexInput) ∧
        s.results.cexOutput = (if cfg.simulation.storeCEXoutput = true then some (res.performedSimulations + simsDecided l)
          else res.cexOutput)) ∧
    ((¬ ∃ e ∈ s.log, e.kind = .simulation ∧ e.verdict = .notEquivalent) →
      s.results.cexInput = res.cexInput ∧ s.results.cexOutput = res.cexOutput) := by
  have hcount : ∀ {s : PState}, Reachable env cfg res s →
      s.results.performedSimulations = res.performedSimulations + simsDecided s.log := by
    intro s hs
    exact (reachable_cinv hs).performed
  have key : Reachable env cfg res s ∧
      (((∃ e ∈ s.log, e.kind = .simulation ∧ e.verdict = .notEquivalent) →
      ∃ l, s.log = l ++ [⟨.simulation, .notEquivalent⟩] ∧ s.done = true ∧
        s.results.cexInput = (if cfg.simulation.storeCEXinput = true then some (res.performedSimulations + simsDecided l)
          else res.cexInput) ∧
        s.results.cexOutput = (if cfg.simulation.storeCEXoutput = true then some (res.performedSimulations + simsDecided l)
          else res.cexOutput)) ∧
      ((¬ ∃ e ∈ s.log, e.kind = .simulation ∧ e.verdict = .notEquivalent) →
        s.results.cexInput = res.cexInput ∧ s.results.cexOutput = res.cexOutput)) := by
    unfold Reachable at h
    induction h with
    | refl => exact ⟨Steps.refl _, by simp [launch], fun _ => ⟨rfl, rfl⟩⟩
    | @tail b c h1 hst ih =>
      have hb : Base env cfg b := reachable_base h1
      obtain ⟨hr, ih1, ih2⟩ := ih
      refine ⟨Steps.tail h1 hst, ?_⟩
      rcases step_effect hst with ⟨e1, e2, e3, e4⟩ | ⟨i, x, q, hm, hq, hx, hf, rfl⟩
      · rw [e1, e2]
        refine ⟨fun hex => ?_, ih2⟩
        obtain ⟨l, hl, hd, g⟩ := ih1 hex
        refine ⟨l, hl, ?_, g⟩
        rcases e4 with ⟨e4, _⟩ | ⟨_, e4, _⟩
        · rw [e4]; exact hd
        · exact e4
      · have hdone := hb.ctl.wait hm
        have hno : ¬ ∃ e ∈ b.log, e.kind = .simulation ∧ e.verdict = .notEquivalent := by
          intro hex
          obtain ⟨_, _, hd, _⟩ := ih1 hex
          rw [hdone] at hd; simp at hd
        obtain ⟨hi, ho⟩ := ih2 hno
        have hcfg : b.cfg.simulation = cfg.simulation := by rw [hb.conf]; exact launchCfg_maxSims _ _
        by_cases hk : x.kind = .simulation ∧ x.eq = .notEquivalent
        · obtain ⟨hk1, hk2⟩ := hk
          obtain ⟨h2, h3, h4⟩ := handle_cex_sim b.cfg b.results
          refine ⟨fun _ => ⟨b.log, ?_, ?_, ?_, ?_⟩, fun hn => absurd ?_ hn⟩
          · show b.log ++ [⟨x.kind, x.eq⟩] = _
            rw [hk1, hk2]
          · show decide ((handle b.cfg b.results x.kind x.eq).2 = .stop) = true
            rw [hk1, hk2, h2]; rfl
          · show (handle b.cfg b.results x.kind x.eq).1.cexInput = _
            rw [hk1, hk2, h3, hcfg, hcount hr, hi]
          · show (handle b.cfg b.results x.kind x.eq).1.cexOutput = _
            rw [hk1, hk2, h4, hcfg, hcount hr, ho]
          · exact ⟨⟨x.kind, x.eq⟩, by simp [PState.popped], hk1, hk2⟩
        · obtain ⟨h3, h4⟩ := handle_cex_other b.cfg b.results x.kind x.eq hk
          refine ⟨?_, fun _ => ⟨?_, ?_⟩⟩
          · rintro ⟨e, he, hh⟩
            rcases List.mem_append.mp (show e ∈ b.log ++ [⟨x.kind, x.eq⟩] from he) with he | he
            · exact absurd ⟨e, he, hh⟩ hno
            · rw [List.mem_singleton.mp he] at hh
              exact absurd hh hk
          · show (handle b.cfg b.results x.kind x.eq).1.cexInput = _
            rw [h3, hi]
          · show (handle b.cfg b.results x.kind x.eq).1.cexOutput = _
            rw [h4, ho]
  exact key.2

end

/-! ## C58 -/

theorem two_enabled_iff (cfg : Configuration) : (∃ k k', k ≠ k' ∧ Enabled cfg k ∧ Enabled cfg k') ↔
    (cfg.execution.runSimulationChecker && cfg.execution.runAlternatingChecker ||
     cfg.execution.runSimulationChecker && cfg.execution.runConstructionChecker ||
     cfg.execution.runSimulationChecker && cfg.execution.runZXChecker ||
     cfg.execution.runAlternatingChecker && cfg.execution.runConstructionChecker ||
     cfg.execution.runAlternatingChecker && cfg.execution.runZXChecker ||
     cfg.execution.runConstructionChecker && cfg.execution.runZXChecker) = true := by
  constructor
  · rintro ⟨k, k', hne, h1, h2⟩
    cases k <;> cases k' <;> simp_all [Enabled]
  · intro h
    simp only [Bool.or_eq_true, Bool.and_eq_true] at h
    rcases h with ((((⟨h1, h2⟩ | ⟨h1, h2⟩) | ⟨h1, h2⟩) | ⟨h1, h2⟩) | ⟨h1, h2⟩) | ⟨h1, h2⟩
    · exact ⟨.simulation, .alternating, by simp, h1, h2⟩
    · exact ⟨.simulation, .construction, by simp, h1, h2⟩
    · exact ⟨.simulation, .zx, by simp, h1, h2⟩
    · exact ⟨.alternating, .construction, by simp, h1, h2⟩
    · exact ⟨.alternating, .zx, by simp, h1, h2⟩
    · exact ⟨.construction, .zx, by simp, h1, h2⟩

/-- **C58**: `run()` uses the parallel flow exactly if parallel execution is on, at least two threads may be used, there is something to
execute, the circuits are not both empty and have no free parameters, and more than one check is due: at least two different
checkers, or at least two simulations. -/
theorem parallel_mode_iff (env : Env) (cfg : Configuration) :
    mode env cfg = .parallel ↔
      cfg.execution.parallel = true ∧ 2 ≤ cfg.execution.nthreads ∧ env.bothEmpty = false ∧ env.variableFree = true ∧
      ((∃ k k', k ≠ k' ∧ Enabled cfg k ∧ Enabled cfg k') ∨
        (Enabled cfg .simulation ∧ 2 ≤ cfg.simulation.maxSims)) := by
  rw [two_enabled_iff]
  simp only [Enabled]
  rcases cfg with ⟨⟨_, par, nt, _, rc, rs, ra, rz⟩, _, _, _, ⟨_, ms, _, _, _, _⟩, _⟩
  unfold mode Configuration.anythingToExecute Configuration.onlySingleTask
  have hnt : nt ≤ 1 ↔ ¬ 2 ≤ nt := by omega
  have hms : ms = 0 ∨ ms = 1 ∨ 2 ≤ ms := by omega
  have hm2 : 2 ≤ ms → ms ≠ 1 ∧ ms ≠ 0 ∧ 0 < ms := by omega
  rcases hms with h1 | h1 | h1 <;> by_cases hn : 2 ≤ nt <;> cases env.bothEmpty <;> cases env.variableFree <;> cases par <;>
    cases rs <;> cases ra <;> cases rc <;> cases rz <;> simp_all

/-- **C58**: the symbolic flow is used exactly for circuits with free parameters, the sequential one in all other cases. -/
theorem mode_complete (env : Env) (cfg : Configuration) :
    (mode env cfg = .nothing ↔ cfg.anythingToExecute = false) ∧
    (mode env cfg = .empty ↔ cfg.anythingToExecute = true ∧ env.bothEmpty = true) ∧
    (mode env cfg = .symbolic ↔ cfg.anythingToExecute = true ∧ env.bothEmpty = false ∧ env.variableFree = false) ∧
    (mode env cfg = .sequential ↔ cfg.anythingToExecute = true ∧ env.bothEmpty = false ∧ env.variableFree = true ∧
      mode env cfg ≠ .parallel) := by
  unfold mode
  cases cfg.anythingToExecute <;> cases env.bothEmpty <;> cases env.variableFree <;>
    simp only [Bool.not_false, Bool.not_true, Bool.false_eq_true, if_true, if_false] <;> (repeat' split) <;> simp_all

/-- **C58**: without anything to execute `run()` returns at once with no information, whatever an earlier run has found; no checker runs or
reports. -/
theorem nothing_run (env : Env) (fuel : Nat) (s : State) (h : s.cfg.anythingToExecute = false) :
    ∃ r, run env fuel s = some (.returned r) ∧ r.results.equivalence = .noInformation ∧ r.done = false ∧ r.log = [] ∧
      r.results.checkerResults = s.results.checkerResults ∧ r.results.startedSimulations = s.results.startedSimulations ∧
      r.results.performedSimulations = s.results.performedSimulations := by
  have hm : mode env s.begin.cfg = .nothing := (mode_complete env s.begin.cfg).1.2 h
  refine ⟨s.begin, ?_, rfl, rfl, rfl, rfl, rfl, rfl⟩
  unfold run
  simp only [hm]

end QCEC.Props
