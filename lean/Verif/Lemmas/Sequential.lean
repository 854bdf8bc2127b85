import Verif.Spec.Verdict
/-!
# Invariant of the sequential flow
-/
namespace QCEC.Mgr
open QCEC QCEC.Spec

theorem evidence_nil : evidence [] = .noInformation := by
  unfold evidence
  simp

/-- Everything that is true of the completed runs and the stored verdict at any point of the sequential flow, after stage `r`. -/
structure Inv (env : Env) (r : Nat) (s : State) : Prop where
  prov : ∀ e ∈ s.log, FromEnv env e ∧ Enabled s.cfg e.kind
  order : s.log.Pairwise fun a b => ¬ Conclusive a ∧ (rank a.kind < rank b.kind ∨ a.kind = .simulation ∧ b.kind = .simulation)
  upto : ∀ e ∈ s.log, rank e.kind ≤ r
  verdict : Explained s.log s.results.equivalence
  stop : (∃ e ∈ s.log, Conclusive e) → s.done = true
  last : ∀ e ∈ s.log, Conclusive e → s.checkers.getLast? = some e.kind

theorem Inv.mono {env r r' s} (h : Inv env r s) (hr : r ≤ r') : Inv env r' s :=
  ⟨h.prov, h.order, fun e he => Nat.le_trans (h.upto e he) hr, h.verdict, h.stop, h.last⟩

theorem Inv.congr {env r s s'} (h : Inv env r s) (h1 : s'.log = s.log) (h2 : s'.cfg = s.cfg)
    (h3 : s'.results.equivalence = s.results.equivalence) (h4 : s.done = true → s'.done = true)
    (h5 : s'.checkers = s.checkers ∨ ∀ e ∈ s.log, ¬ Conclusive e) : Inv env r s' :=
  ⟨by rw [h1, h2]; exact h.prov, by rw [h1]; exact h.order, by rw [h1]; exact h.upto, by rw [h1, h3]; exact h.verdict,
    fun e => h4 (h.stop (by rw [h1] at e; exact e)), by
      rw [h1]
      intro e he hc
      rcases h5 with h5 | h5
      · rw [h5]; exact h.last e he hc
      · exact absurd hc (h5 e he)⟩

theorem Inv.none_conclusive {env r s} (h : Inv env r s) (hd : s.done = false) : ∀ e ∈ s.log, ¬ Conclusive e := by
  intro e he hc
  have := h.stop ⟨e, he, hc⟩
  rw [hd] at this
  exact absurd this (by simp)

/-- Adding a completed run. -/
theorem Inv.append {env r s} (h : Inv env r s) (hn : ∀ e ∈ s.log, ¬ Conclusive e) (ev : Event) (s' : State)
    (hlog : s'.log = s.log ++ [ev]) (hcfg : s'.cfg = s.cfg) (hp : FromEnv env ev) (he : Enabled s.cfg ev.kind)
    (hr : r < rank ev.kind ∨ ev.kind = .simulation ∧ ∀ e ∈ s.log, e.kind = .simulation)
    (hc : Conclusive ev → s'.results.equivalence = ev.verdict ∧ s'.done = true ∧ s'.checkers.getLast? = some ev.kind)
    (hv : ¬ Conclusive ev → s'.results.equivalence = evidence (s.log ++ [ev])) :
    Inv env (max r (rank ev.kind)) s' := by
  refine ⟨?_, ?_, ?_, ⟨?_, ?_⟩, ?_, ?_⟩
  · intro e hm
    rw [hlog] at hm
    rw [hcfg]
    rcases List.mem_append.mp hm with hm | hm
    · exact h.prov e hm
    · rw [List.mem_singleton.mp hm]; exact ⟨hp, he⟩
  · rw [hlog, List.pairwise_append]
    refine ⟨h.order, List.pairwise_singleton _ _, ?_⟩
    intro a ha b hb
    rw [List.mem_singleton.mp hb]
    refine ⟨hn a ha, ?_⟩
    rcases hr with hr | ⟨hr, hs⟩
    · exact Or.inl (Nat.lt_of_le_of_lt (h.upto a ha) hr)
    · exact Or.inr ⟨hs a ha, hr⟩
  · intro e hm
    rw [hlog] at hm
    rcases List.mem_append.mp hm with hm | hm
    · exact Nat.le_trans (h.upto e hm) (Nat.le_max_left _ _)
    · rw [List.mem_singleton.mp hm]; exact Nat.le_max_right _ _
  · intro e hm hce
    rw [hlog] at hm
    rcases List.mem_append.mp hm with hm | hm
    · exact absurd hce (hn e hm)
    · rw [List.mem_singleton.mp hm] at hce ⊢; exact (hc hce).1
  · intro hall
    rw [hlog]
    exact hv (hall ev (by rw [hlog]; simp))
  · rintro ⟨e, hm, hce⟩
    rw [hlog] at hm
    rcases List.mem_append.mp hm with hm | hm
    · exact absurd hce (hn e hm)
    · rw [List.mem_singleton.mp hm] at hce; exact (hc hce).2.1
  · intro e hm hce
    rw [hlog] at hm
    rcases List.mem_append.mp hm with hm | hm
    · exact absurd hce (hn e hm)
    · rw [List.mem_singleton.mp hm] at hce ⊢; exact (hc hce).2.2

theorem begin_inv (env : Env) (s : State) : Inv env 0 s.begin :=
  ⟨by simp [State.begin], by simp [State.begin], by simp [State.begin],
    ⟨by simp [State.begin], by intro _; simp [State.begin, evidence_nil]⟩, by simp [State.begin], by simp [State.begin]⟩

/-! ## Evidence -/

theorem evidence_append_other (log : List Event) (ev : Event) (h1 : ¬ Passed ev) (h2 : ¬ Suspects ev) :
    evidence (log ++ [ev]) = evidence log := by
  unfold evidence
  have e1 : (∃ e ∈ log ++ [ev], Passed e) ↔ ∃ e ∈ log, Passed e := by
    constructor
    · rintro ⟨e, hm, hp⟩
      rcases List.mem_append.mp hm with hm | hm
      · exact ⟨e, hm, hp⟩
      · rw [List.mem_singleton.mp hm] at hp; exact absurd hp h1
    · rintro ⟨e, hm, hp⟩; exact ⟨e, List.mem_append_left _ hm, hp⟩
  have e2 : (∃ e ∈ log ++ [ev], Suspects e) ↔ ∃ e ∈ log, Suspects e := by
    constructor
    · rintro ⟨e, hm, hp⟩
      rcases List.mem_append.mp hm with hm | hm
      · exact ⟨e, hm, hp⟩
      · rw [List.mem_singleton.mp hm] at hp; exact absurd hp h2
    · rintro ⟨e, hm, hp⟩; exact ⟨e, List.mem_append_left _ hm, hp⟩
  by_cases a : ∃ e ∈ log, Passed e <;> by_cases b : ∃ e ∈ log, Suspects e
  · rw [if_pos (e1.mpr a), if_pos (e2.mpr b), if_pos a, if_pos b]
  · rw [if_pos (e1.mpr a), if_neg (fun h => b (e2.mp h)), if_pos a, if_neg b]
  · rw [if_neg (fun h => a (e1.mp h)), if_pos (e2.mpr b), if_neg a, if_pos b]
  · rw [if_neg (fun h => a (e1.mp h)), if_neg (fun h => b (e2.mp h)), if_neg a, if_neg b]

theorem evidence_passed (log : List Event) (ev : Event) (h : Passed ev) (hn : ∀ e ∈ log, ¬ Suspects e) :
    evidence (log ++ [ev]) = .probablyEquivalent := by
  unfold evidence
  rw [if_pos ⟨ev, by simp, h⟩, if_neg]
  rintro ⟨e, hm, hp⟩
  rcases List.mem_append.mp hm with hm | hm
  · exact hn e hm hp
  · rw [List.mem_singleton.mp hm] at hp
    exact absurd (h.1.symm.trans hp.1) (by simp)

open Classical in
theorem evidence_suspects (log : List Event) (ev : Event) (h : Suspects ev) :
    evidence (log ++ [ev]) = if evidence log = .probablyEquivalent then .noInformation
      else if ∃ e ∈ log, Passed e then .noInformation else .probablyNotEquivalent := by
  have hnp : ¬ Passed ev := fun hp => absurd (h.1.symm.trans hp.1) (by simp)
  have e1 : (∃ e ∈ log ++ [ev], Passed e) ↔ ∃ e ∈ log, Passed e := by
    constructor
    · rintro ⟨e, hm, hp⟩
      rcases List.mem_append.mp hm with hm | hm
      · exact ⟨e, hm, hp⟩
      · rw [List.mem_singleton.mp hm] at hp; exact absurd hp hnp
    · rintro ⟨e, hm, hp⟩; exact ⟨e, List.mem_append_left _ hm, hp⟩
  have e2 : ∃ e ∈ log ++ [ev], Suspects e := ⟨ev, by simp, h⟩
  by_cases a : ∃ e ∈ log, Passed e
  · rw [if_pos a]
    unfold evidence
    rw [if_pos (e1.mpr a), if_pos e2, ite_self]
  · rw [if_neg a]
    unfold evidence
    rw [if_neg (fun h => a (e1.mp h)), if_pos e2, if_neg a]
    by_cases b : ∃ e ∈ log, Suspects e
    · rw [if_pos b, if_neg (by simp)]
    · rw [if_neg b, if_neg (by simp)]

/-! ## The stages preserve the invariant -/

/-- What the stages leave unchanged. -/
structure Keeps (s s' : State) : Prop where
  cfg : s'.cfg = s.cfg
  started : s'.results.startedSimulations = s.results.startedSimulations
  performed : s'.results.performedSimulations = s.results.performedSimulations
  sims : s'.log.filter (fun e => e.kind = .simulation) = s.log.filter (fun e => e.kind = .simulation)
  clock : s.clock ≤ s'.clock

theorem Keeps.refl (s : State) : Keeps s s := ⟨rfl, rfl, rfl, rfl, Nat.le_refl _⟩

theorem Keeps.trans {a b c : State} (h : Keeps a b) (g : Keeps b c) : Keeps a c :=
  ⟨g.cfg.trans h.cfg, g.started.trans h.started, g.performed.trans h.performed, g.sims.trans h.sims,
    Nat.le_trans h.clock g.clock⟩

/-- Property of the state with which a stage ends. -/
def Ending.Holds (P : State → Prop) : Ending → Prop
  | .returned s => P s
  | .threw s => P s
  | _ => True

/-- The clock only advances. -/
local macro "tick" : tactic => `(tactic| (simp [State.setEq, State.record, State.tick]; try omega))

theorem definitiveStage_inv (env : Env) (kind : Kind) (hk : kind = .alternating ∨ kind = .construction) (o : Outcome)
    (ho : ∀ c, o = .returns c → FromEnv env ⟨kind, c⟩) (enabled : Bool) (s : State)
    (hen : enabled = true → Enabled s.cfg kind) (h : Inv env (rank kind - 1) s) :
    (definitiveStage env kind enabled o s).Holds fun s' => Inv env (rank kind) s' ∧ Keeps s s' := by
  unfold definitiveStage
  have hmono := h.mono (Nat.sub_le (rank kind) 1)
  split
  · exact ⟨hmono, Keeps.refl s⟩
  · rename_i hen'
    split
    · exact ⟨hmono.congr rfl rfl rfl (fun h => h) (by first | exact Or.inl rfl | exact Or.inr hn), ⟨rfl, rfl, rfl, rfl, by tick⟩⟩
    · rename_i hd
      have hd' : s.done = false := by
        simp only [State.isDone, Bool.or_eq_true, not_or, Bool.not_eq_true] at hd
        exact hd.1
      have hn := h.none_conclusive hd'
      cases o with
      | ctorThrows => exact ⟨hmono.congr rfl rfl rfl (fun h => h) (by first | exact Or.inl rfl | exact Or.inr hn), ⟨rfl, rfl, rfl, rfl, by tick⟩⟩
      | runThrows =>
        simp only
        split <;> exact ⟨hmono.congr rfl rfl rfl (fun h => h) (by first | exact Or.inl rfl | exact Or.inr hn), ⟨rfl, rfl, rfl, rfl, by tick⟩⟩
      | returns r =>
        simp only
        split
        · exact ⟨hmono.congr rfl rfl rfl (fun h => h) (by first | exact Or.inl rfl | exact Or.inr hn), ⟨rfl, rfl, rfl, rfl, by tick⟩⟩
        · have hmax : max (rank kind - 1) (rank kind) = rank kind := by omega
          have hks : kind ≠ .simulation := by rcases hk with rfl | rfl <;> simp
          have hkz : kind ≠ .zx := by rcases hk with rfl | rfl <;> simp
          have hconc : Conclusive ⟨kind, r⟩ ↔ r ≠ .noInformation := by rcases hk with rfl | rfl <;> rfl
          have hen2 : Enabled s.cfg kind := hen (by simpa using hen')
          have hrank : rank kind - 1 < rank kind := by rcases hk with rfl | rfl <;> simp [rank]
          have hk2 : ∀ s' : State, s'.log = s.log ++ [⟨kind, r⟩] → s'.log.filter (fun e => e.kind = .simulation) =
              s.log.filter (fun e => e.kind = .simulation) := by
            intro s' hs'
            rw [hs', List.filter_append]
            simp [hks]
          split
          · rename_i hr
            refine ⟨?_, ⟨rfl, rfl, rfl, hk2 _ rfl, by tick⟩⟩
            rw [← hmax]
            exact h.append hn ⟨kind, r⟩ _ rfl rfl (ho r rfl) hen2 (Or.inl hrank) (fun _ => ⟨rfl, rfl, by simp [State.setEq, State.record, State.tick]⟩)
              (fun hc => absurd (hconc.mpr hr) hc)
          · rename_i hr
            refine ⟨?_, ⟨rfl, rfl, rfl, hk2 _ rfl, by tick⟩⟩
            rw [← hmax]
            refine h.append hn ⟨kind, r⟩ _ rfl rfl (ho r rfl) hen2 (Or.inl hrank) (fun hc => absurd (hconc.mp hc) hr) ?_
            intro _
            rw [evidence_append_other _ _ (fun hp => hks hp.1) (fun hp => hkz hp.1)]
            exact h.verdict.2 hn

theorem no_passed_of_evidence {log : List Event} (hs : ∀ e ∈ log, ¬ Suspects e) (h : evidence log ≠ .probablyEquivalent) :
    ¬ ∃ e ∈ log, Passed e := by
  intro hp
  apply h
  unfold evidence
  rw [if_pos hp, if_neg]
  rintro ⟨e, hm, he⟩
  exact hs e hm he

theorem zxStage_inv (env : Env) (s : State) (h : Inv env 2 s) :
    (zxStage env s).Holds fun s' => Inv env 3 s' ∧ Keeps s s' := by
  unfold zxStage
  have hmono : Inv env 3 s := h.mono (by omega)
  have hsus : ∀ e ∈ s.log, ¬ Suspects e := by
    intro e he hs
    have := h.upto e he
    rw [hs.1] at this
    simp [rank] at this
  split
  · exact ⟨hmono, Keeps.refl s⟩
  · rename_i hen
    split
    · exact ⟨hmono.congr rfl rfl rfl (fun h => h) (by first | exact Or.inl rfl | exact Or.inr hn), ⟨rfl, rfl, rfl, rfl, by tick⟩⟩
    · rename_i hd
      have hd' : s.done = false := by
        simp only [State.isDone, Bool.or_eq_true, not_or, Bool.not_eq_true] at hd
        exact hd.1
      have hn := h.none_conclusive hd'
      simp only
      split
      · split
        · trivial
        · split <;> exact ⟨hmono.congr rfl rfl rfl (fun h => h) (by first | exact Or.inl rfl | exact Or.inr hn), ⟨rfl, rfl, rfl, rfl, by tick⟩⟩
        · rename_i r hzx
          split
          · exact ⟨hmono.congr rfl rfl rfl (fun h => h) (by first | exact Or.inl rfl | exact Or.inr hn), ⟨rfl, rfl, rfl, rfl, by tick⟩⟩
          · refine ⟨?_, ⟨rfl, rfl, rfl, ?_, by tick⟩⟩
            · have hp : FromEnv env ⟨.zx, r⟩ := hzx
              have he : Enabled s.cfg .zx := by simpa [Enabled] using hen
              refine h.append hn ⟨.zx, r⟩ _ rfl rfl hp he (Or.inl (by simp [rank])) ?_ ?_
              · intro hc
                refine ⟨?_, rfl, by simp [State.setEq, State.record, State.tick]⟩
                show combineZX _ r = r
                exact if_pos hc
              · intro hc
                show combineZX s.results.equivalence r = _
                unfold combineZX
                have hc' : ¬ (r = .equivalent ∨ r = .equivalentUpToGlobalPhase) := hc
                rw [if_neg hc', h.verdict.2 hn]
                by_cases hr : r = .probablyNotEquivalent
                · rw [if_pos hr, evidence_suspects _ _ ⟨rfl, hr⟩]
                  by_cases hev : evidence s.log = .probablyEquivalent
                  · rw [if_pos hev, if_pos hev]
                  · rw [if_neg hev, if_neg hev, if_neg (no_passed_of_evidence hsus hev), hr]
                · rw [if_neg hr]
                  exact (evidence_append_other _ _ (fun hp => absurd hp.1 (by simp)) (fun hp => hr hp.2)).symm
            · show List.filter _ (s.log ++ [_]) = _
              rw [List.filter_append]
              simp
      · split
        · rename_i hor
          refine ⟨?_, ⟨rfl, rfl, rfl, rfl, by tick⟩⟩
          -- only the ZX checker is configured: nothing has been run before
          have hl : s.log = [] := by
            apply List.eq_nil_iff_forall_not_mem.mpr
            intro e he
            have h1 := (h.prov e he).2
            have h2 := h.upto e he
            simp only [Configuration.onlyZXCheckerConfigured, State.tick, Bool.and_eq_true, Bool.not_eq_true'] at hor
            cases hk : e.kind <;> rw [hk] at h1 h2 <;> simp only [Enabled, rank] at h1 h2
            · rw [hor.1.1.2] at h1; simp at h1
            · rw [hor.1.2] at h1; simp at h1
            · rw [hor.1.1.1] at h1; simp at h1
            · omega
          refine ⟨?_, ?_, ?_, ⟨?_, ?_⟩, ?_, ?_⟩ <;> simp [State.setEq, State.tick, hl, evidence_nil]
        · exact ⟨hmono.congr rfl rfl rfl (fun h => h) (by first | exact Or.inl rfl | exact Or.inr hn), ⟨rfl, rfl, rfl, rfl, by tick⟩⟩

theorem Ending.Holds.andThen {P Q : State → Prop} {e : Ending} {f : State → Ending} (h : e.Holds P)
    (hf : ∀ s, P s → (f s).Holds Q) (hPQ : ∀ s, P s → Q s) : (e.andThen f).Holds Q := by
  cases e with
  | returned s => exact hf s h
  | threw s => exact hPQ s h
  | terminated => trivial
  | diverged => trivial

theorem Ending.Holds.imp {P Q : State → Prop} {e : Ending} (h : e.Holds P) (hPQ : ∀ s, P s → Q s) : e.Holds Q := by
  cases e with
  | returned s => exact hPQ s h
  | threw s => exact hPQ s h
  | terminated => trivial
  | diverged => trivial

theorem stages_inv (env : Env) (s : State) (h : Inv env 0 s) :
    (stages env s).Holds fun s' => Inv env 3 s' ∧ Keeps s s' := by
  unfold stages
  refine Ending.Holds.andThen (P := fun s' => Inv env 2 s' ∧ Keeps s s') ?_ ?_ (fun s' h => ⟨h.1.mono (by omega), h.2⟩)
  · refine Ending.Holds.andThen (P := fun s' => Inv env 1 s' ∧ Keeps s s') ?_ ?_ (fun s' h => ⟨h.1.mono (by omega), h.2⟩)
    · exact definitiveStage_inv env .alternating (Or.inl rfl) env.alternating (fun c hc => hc) _ s (fun h => h) h
    · intro s1 h1
      exact (definitiveStage_inv env .construction (Or.inr rfl) env.construction (fun c hc => hc) _ s1 (fun h => h) h1.1).imp
        fun s2 h2 => ⟨h2.1, h1.2.trans h2.2⟩
  · intro s1 h1
    exact (zxStage_inv env s1 h1.1).imp fun s2 h2 => ⟨h2.1, h1.2.trans h2.2⟩

/-! ## The simulation loop -/

/-- The simulation events of a log agree with the environment, in order. -/
structure SimLog (env : Env) (a b : Nat) (s : State) : Prop where
  only : ∀ e ∈ s.log, e.kind = .simulation
  each : ∀ i e, s.log[i]? = some e → env.sim i = some e.verdict
  performed : s.results.performedSimulations = b + s.log.length
  started : s.results.startedSimulations = a + s.log.length

/-- State after one completed simulation: counters and log. -/
theorem simLog_step {env : Env} {a b : Nat} {s : State} (h : SimLog env a b s) {r : Criterion}
    (hr : env.sim s.log.length = some r) : SimLog env a b (s.tick.simStarted.simPerformed r) := by
  refine ⟨?_, ?_, ?_, ?_⟩
  · intro e he
    rcases List.mem_append.mp he with he | he
    · exact h.only e he
    · rw [List.mem_singleton.mp he]
  · intro i e hi
    change (s.log ++ [⟨.simulation, r⟩])[i]? = some e at hi
    by_cases hl : i < s.log.length
    · rw [List.getElem?_append_left hl] at hi; exact h.each i e hi
    · rw [List.getElem?_append_right (by omega)] at hi
      have h0 : i - s.log.length = 0 := by
        rcases Nat.eq_zero_or_pos (i - s.log.length) with h0 | hpos
        · exact h0
        · rw [List.getElem?_eq_none (by simp; omega)] at hi
          simp at hi
      have : i = s.log.length := by omega
      subst this
      simp at hi
      rw [hr, ← hi]
  · show s.results.performedSimulations + 1 = b + (s.log ++ [_]).length
    rw [h.performed, List.length_append]; rfl
  · show s.results.startedSimulations + 1 = a + (s.log ++ [_]).length
    rw [h.started, List.length_append]; rfl

/-- What holds of the states in which the simulation loop ends. -/
structure SimEnd (env : Env) (cfg : Configuration) (a b : Nat) (s : State) : Prop where
  conf : s.cfg = cfg
  log : SimLog env a b s
  inv : Inv env 0 { s with done := s.done || decide (s.results.equivalence = .notEquivalent) }
  bound : b ≤ cfg.simulation.maxSims → s.results.performedSimulations ≤ cfg.simulation.maxSims
  notDone : s.done = false
  top : s.checkers.getLast? = some .simulation

/-- The loop ended regularly: it is finished, has a counterexample, or the timeout has passed. -/
def SimReason (env : Env) (s : State) : Prop :=
  s.simulationsFinished = true ∨ s.results.equivalence = .notEquivalent ∨ (s.timeoutSet = true ∧ env.fired s.clock = true)

/-- Property of the result of the loop. -/
def SimRes.Holds (env : Env) (cfg : Configuration) (a b : Nat) : SimRes → Prop
  | .finished s => SimEnd env cfg a b s ∧ SimReason env s
  | .aborted s => SimEnd env cfg a b s ∧ Inv env 0 s ∧ (∃ e ∈ s.log, e.verdict = .noInformation)
  | .threw s => ∃ s0, SimEnd env cfg a b s0 ∧ Inv env 0 s0 ∧ s = s0.tick.simStarted ∧ env.sim s0.log.length = none
  | .diverged => True

theorem simLoop_inv (env : Env) (cfg : Configuration) (a b : Nat) (hen : cfg.execution.runSimulationChecker = true) :
    ∀ fuel k s, k = s.log.length → s.cfg = cfg → SimLog env a b s → Inv env 0 s →
      (b ≤ cfg.simulation.maxSims → s.results.performedSimulations ≤ cfg.simulation.maxSims) → s.done = false →
      s.checkers.getLast? = some .simulation → (simLoop env fuel k s).Holds env cfg a b := by
  intro fuel
  induction fuel with
  | zero => intros; trivial
  | succ n ih =>
    intro k s hk hcfg hlog hinv hb hd htop
    have hnc := hinv.none_conclusive hd
    have hsus : ∀ e ∈ s.log, ¬ Suspects e := fun e he hs => by
      have := hlog.only e he; rw [hs.1] at this; simp at this
    have hend : SimEnd env cfg a b s := ⟨hcfg, hlog, by
      refine hinv.congr rfl rfl rfl ?_ (Or.inl rfl)
      intro h; rw [hd] at h; simp at h, hb, hd, htop⟩
    unfold simLoop
    split
    · rename_i hf
      exact ⟨hend, Or.inl hf⟩
    · rename_i hnf
      split
      · rename_i hdone
        have hf : s.timeoutSet = true ∧ env.fired s.clock = true := by
          simpa [State.isDone, hd] using hdone
        refine ⟨⟨hcfg, ⟨hlog.only, hlog.each, hlog.performed, hlog.started⟩, ?_, hb, hd, htop⟩, Or.inr (Or.inr ⟨hf.1, ?_⟩)⟩
        · refine hinv.congr rfl rfl rfl ?_ (Or.inl rfl)
          intro h; rw [hd] at h; simp at h
        · exact env.fired_mono s.clock (s.clock + 1) (by omega) hf.2
      · split
        · rename_i hnone
          exact ⟨s, hend, hinv, rfl, by rw [← hk]; exact hnone⟩
        · rename_i r hr
          have hr' : env.sim s.log.length = some r := by rw [← hk]; exact hr
          have hstep := simLog_step hlog hr'
          have hbb : b ≤ cfg.simulation.maxSims → s.results.performedSimulations + 1 ≤ cfg.simulation.maxSims := by
            intro h
            have h1 := hb h
            have h2 : s.results.performedSimulations ≠ cfg.simulation.maxSims := by
              rw [← hcfg]
              simpa [State.simulationsFinished] using hnf
            omega
          have hfrom : FromEnv env ⟨.simulation, r⟩ := ⟨k, hr⟩
          have henb : Enabled s.cfg .simulation := by rw [hcfg]; exact hen
          -- the invariant with the new event
          have hadd : ∀ s' : State, s'.log = s.log ++ [⟨.simulation, r⟩] → s'.cfg = s.cfg →
              (r = .notEquivalent → s'.results.equivalence = r ∧ s'.done = true ∧
                s'.checkers.getLast? = some .simulation) →
              (r ≠ .notEquivalent → s'.results.equivalence = evidence (s.log ++ [⟨.simulation, r⟩])) → Inv env 0 s' := by
            intro s' h1 h2 h3 h4
            exact hinv.append hnc ⟨.simulation, r⟩ s' h1 h2 hfrom henb (Or.inr ⟨rfl, hlog.only⟩) h3 h4
          simp only
          split
          · rename_i hni
            have hnew : Inv env 0 (s.tick.simStarted.simPerformed r) := by
              refine hadd _ rfl rfl ?_ ?_
              · intro h; rw [hni] at h; simp at h
              · intro _
                show s.results.equivalence = _
                rw [evidence_append_other _ _ (fun hp => hp.2.1 hni) (fun hp => absurd hp.1 (by simp))]
                exact hinv.verdict.2 hnc
            refine ⟨⟨hcfg, hstep, ?_, hbb, hd, htop⟩, hnew, ⟨⟨.simulation, r⟩, by simp [State.simPerformed], hni⟩⟩
            refine hnew.congr rfl rfl rfl ?_ (Or.inl rfl)
            intro h
            have : (s.tick.simStarted.simPerformed r).done = false := hd
            rw [this] at h; simp at h
          · rename_i hni
            split
            · rename_i hne
              refine ⟨⟨hcfg, ⟨hstep.only, hstep.each, hstep.performed, hstep.started⟩, ?_, hbb, hd, htop⟩, Or.inr (Or.inl rfl)⟩
              refine hadd _ rfl rfl ?_ ?_
              · intro _; exact ⟨hne.symm, by simp [State.setEq], htop⟩
              · intro h; exact absurd hne h
            · rename_i hne
              refine ih (k + 1) _ ?_ hcfg ⟨hstep.only, hstep.each, hstep.performed, hstep.started⟩ ?_ hbb hd htop
              · show k + 1 = (s.log ++ [_]).length
                rw [List.length_append, hk]; rfl
              · refine hadd _ rfl rfl ?_ ?_
                · intro h; exact absurd h hne
                · intro _
                  exact (evidence_passed _ _ ⟨rfl, hni, hne⟩ hsus).symm

/-- With enough fuel the loop ends, provided that the number of performed simulations does not exceed the maximum. -/
theorem simLoop_ends (env : Env) : ∀ fuel k (s : State), s.results.performedSimulations ≤ s.cfg.simulation.maxSims →
    s.cfg.simulation.maxSims - s.results.performedSimulations < fuel → simLoop env fuel k s ≠ .diverged := by
  intro fuel
  induction fuel with
  | zero => intro k s _ h; omega
  | succ n ih =>
    intro k s h1 h2
    unfold simLoop
    split
    · simp
    · rename_i hnf
      have hne : s.results.performedSimulations ≠ s.cfg.simulation.maxSims := by
        simpa [State.simulationsFinished] using hnf
      split
      · simp
      · split
        · simp
        · rename_i r hr
          simp only
          split
          · simp
          · split
            · simp
            · apply ih
              · show s.results.performedSimulations + 1 ≤ s.cfg.simulation.maxSims
                omega
              · show s.cfg.simulation.maxSims - (s.results.performedSimulations + 1) < n
                omega

theorem afterSims_inv {env : Env} {cfg : Configuration} {a b : Nat} {s : State} (h : SimEnd env cfg a b s) :
    Inv env 0 (afterSims s) ∧ (afterSims s).cfg = cfg ∧ (afterSims s).log = s.log ∧
    (afterSims s).results.startedSimulations = s.results.startedSimulations ∧
    (afterSims s).results.performedSimulations = s.results.performedSimulations ∧
    (afterSims s).results.equivalence = s.results.equivalence ∧ (afterSims s).clock = s.clock := by
  have key : ∀ x : State, x.log = s.log → x.cfg = s.cfg → x.results.equivalence = s.results.equivalence → x.checkers = s.checkers →
      (s.results.equivalence = .notEquivalent → x.done = true) → Inv env 0 x := by
    intro x h1 h2 h3 h5 h4
    refine h.inv.congr h1 h2 h3 ?_ (Or.inl h5)
    intro hd
    have hn := h.notDone
    simp only [hn, Bool.false_or, decide_eq_true_eq] at hd
    exact h4 hd
  unfold afterSims
  by_cases hne : s.results.equivalence = .notEquivalent
  · rw [if_pos hne]
    exact ⟨key _ rfl rfl rfl rfl (fun _ => rfl), h.conf, rfl, rfl, rfl, rfl, rfl⟩
  · rw [if_neg hne]
    exact ⟨key _ rfl rfl rfl rfl (fun h => absurd h hne), h.conf, rfl, rfl, rfl, rfl, rfl⟩

/-! ## Completeness: without a timeout no enabled checker is skipped -/

/-- Every enabled checker of rank `1 … r` has an event (the ZX checker only if the circuits are supported). -/
def Covered (env : Env) (r : Nat) (s : State) : Prop :=
  ∀ k, 1 ≤ rank k → rank k ≤ r → Enabled s.cfg k → (k = .zx → env.zxTransformable = true) → ∃ e ∈ s.log, e.kind = k

/-- Why a state is done. -/
def Finished (s : State) : Prop := (∃ e ∈ s.log, Conclusive e) ∨ ∀ k, Enabled s.cfg k → k = .simulation

theorem isDone_of_no_timeout {env : Env} {s : State} (h : s.timeoutSet = false) : s.isDone env = s.done := by
  simp [State.isDone, h]

theorem definitiveStage_covers (env : Env) (kind : Kind) (hk : kind = .alternating ∨ kind = .construction) (o : Outcome)
    (enabled : Bool) (s s' : State) (hen : Enabled s.cfg kind → enabled = true) (ht : s.timeoutSet = false)
    (hc : s.done = false → Covered env (rank kind - 1) s) (hf : s.done = true → Finished s)
    (h : definitiveStage env kind enabled o s = .returned s') :
    (s'.done = false → Covered env (rank kind) s') ∧ (s'.done = true → Finished s') ∧ s'.timeoutSet = false := by
  have step : ∀ x : State, x.cfg = s.cfg → (∀ e ∈ s.log, e ∈ x.log) → s.done = false →
      (Enabled s.cfg kind → ∃ e ∈ x.log, e.kind = kind) → Covered env (rank kind) x := by
    intro x h1 h2 h3 h4 k hk1 hk2 hk3 hk4
    rw [h1] at hk3
    by_cases hkk : k = kind
    · subst hkk; exact h4 hk3
    · have : rank k ≤ rank kind - 1 := by
        rcases hk with rfl | rfl <;> cases k <;> simp_all [rank]
      obtain ⟨e, he, hke⟩ := hc h3 k hk1 this hk3 hk4
      exact ⟨e, h2 e he, hke⟩
  unfold definitiveStage at h
  split at h
  · rename_i hne
    cases h
    refine ⟨fun hd => step _ rfl (fun _ h => h) hd (fun he => ?_), hf, ht⟩
    rw [hen he] at hne; simp at hne
  · rw [isDone_of_no_timeout ht] at h
    split at h
    · rename_i hd
      cases h
      exact ⟨fun hd' => by simp [State.tick, hd] at hd', hf, ht⟩
    · rename_i hd
      have hd' : s.done = false := by simpa using hd
      cases o with
      | ctorThrows => simp at h
      | runThrows =>
        simp only [isDone_of_no_timeout (s := { s.tick with checkers := _ }) ht] at h
        rw [if_neg (by simpa [State.tick] using hd)] at h
        simp at h
      | returns r =>
        simp only [isDone_of_no_timeout (s := { s.tick with checkers := _ }) ht] at h
        rw [if_neg (by simpa [State.tick] using hd)] at h
        split at h
        · rename_i hr
          cases h
          refine ⟨fun hx => by simp at hx, fun _ => Or.inl ⟨⟨kind, r⟩, by simp [State.setEq, State.record], ?_⟩, ht⟩
          rcases hk with rfl | rfl <;> exact hr
        · cases h
          refine ⟨fun _ => step _ rfl (fun e he => by simp [State.record, State.tick, he]) hd'
            (fun _ => ⟨⟨kind, r⟩, by simp [State.record], rfl⟩), fun hx => ?_, ht⟩
          simp [State.record, State.tick, hd'] at hx

theorem zxStage_covers (env : Env) (s s' : State) (ht : s.timeoutSet = false)
    (hc : s.done = false → Covered env 2 s) (hf : s.done = true → Finished s)
    (h : zxStage env s = .returned s') : Covered env 3 s' ∨ Finished s' := by
  have step : ∀ x : State, x.cfg = s.cfg → (∀ e ∈ s.log, e ∈ x.log) → s.done = false →
      (Enabled s.cfg .zx → env.zxTransformable = true → ∃ e ∈ x.log, e.kind = .zx) → Covered env 3 x := by
    intro x h1 h2 h3 h4 k hk1 hk2 hk3 hk4
    rw [h1] at hk3
    by_cases hkk : k = .zx
    · subst hkk; exact h4 hk3 (hk4 rfl)
    · have : rank k ≤ 2 := by cases k <;> simp_all [rank]
      obtain ⟨e, he, hke⟩ := hc h3 k hk1 this hk3 hk4
      exact ⟨e, h2 e he, hke⟩
  unfold zxStage at h
  split at h
  · rename_i hne
    cases h
    cases hd : s.done
    · refine Or.inl (step _ rfl (fun _ h => h) hd (fun he => ?_))
      simp [Enabled] at he; rw [he] at hne; simp at hne
    · exact Or.inr (hf hd)
  · rw [isDone_of_no_timeout ht] at h
    split at h
    · rename_i hd
      cases h
      exact Or.inr (hf hd)
    · rename_i hd
      have hd' : s.done = false := by simpa using hd
      simp only at h
      split at h
      · rename_i hzt
        split at h
        · simp at h
        · simp only [isDone_of_no_timeout (s := { s.tick with checkers := _ }) ht] at h
          rw [if_neg (by simpa [State.tick] using hd)] at h
          simp at h
        · rename_i r hzx
          simp only [isDone_of_no_timeout (s := { s.tick with checkers := _ }) ht] at h
          rw [if_neg (by simpa [State.tick] using hd)] at h
          cases h
          exact Or.inl (step _ rfl (fun e he => by simp [State.setEq, State.record, State.tick, he]) hd'
            (fun _ _ => ⟨⟨.zx, r⟩, by simp [State.setEq, State.record], rfl⟩))
      · rename_i hzt
        split at h <;> cases h <;>
          exact Or.inl (step _ rfl (fun e he => by simpa [State.setEq, State.tick] using he) hd'
            (fun _ hz => absurd hz hzt))

theorem andThen_returned {e : Ending} {f : State → Ending} {s' : State} (h : e.andThen f = .returned s') :
    ∃ s, e = .returned s ∧ f s = .returned s' := by
  cases e with
  | returned s => exact ⟨s, rfl, h⟩
  | threw s => simp [Ending.andThen] at h
  | terminated => simp [Ending.andThen] at h
  | diverged => simp [Ending.andThen] at h

theorem stages_covers (env : Env) (s s' : State) (ht : s.timeoutSet = false) (hf : s.done = true → Finished s)
    (h : stages env s = .returned s') : Covered env 3 s' ∨ Finished s' := by
  unfold stages at h
  obtain ⟨s2, h12, h2⟩ := andThen_returned h
  obtain ⟨s1, h01, h1⟩ := andThen_returned h12
  obtain ⟨c1, f1, t1⟩ := definitiveStage_covers env .alternating (Or.inl rfl) _ _ s s1 (fun h => h) ht
    (fun _ k hk1 hk2 => by have h0 : rank .alternating - 1 = 0 := rfl; rw [h0] at hk2; omega) hf h01
  obtain ⟨c2, f2, t2⟩ := definitiveStage_covers env .construction (Or.inr rfl) _ _ s1 s2 (fun h => h) t1 c1 f1 h1
  exact zxStage_covers env s2 s' t2 c2 f2 h2

/-! ## The whole flow -/

/-- The simulation runs of a log. -/
def sims (log : List Event) : List Event := log.filter fun e => e.kind = .simulation

theorem sims_of_only {log : List Event} (h : ∀ e ∈ log, e.kind = .simulation) : sims log = log := by
  unfold sims
  rw [List.filter_eq_self]
  intro e he
  simpa using h e he

/-- What holds whenever the sequential flow ends, started in the state `s0`. -/
structure SeqEnd (env : Env) (s0 s : State) : Prop where
  inv : Inv env 3 s
  conf : s.cfg = s0.cfg
  performed : s.results.performedSimulations = s0.results.performedSimulations + (sims s.log).length
  each : ∀ i e, (sims s.log)[i]? = some e → env.sim i = some e.verdict
  bound : s0.results.performedSimulations ≤ s0.cfg.simulation.maxSims →
    s.results.performedSimulations ≤ s0.cfg.simulation.maxSims

/-- Additionally if it returned. -/
structure SeqReturned (env : Env) (s0 s : State) : Prop extends SeqEnd env s0 s where
  started : s.results.startedSimulations = s0.results.startedSimulations + (sims s.log).length
  reason : s0.cfg.execution.runSimulationChecker = true →
    s.results.performedSimulations = s0.cfg.simulation.maxSims ∨
    (∃ e ∈ s.log, e.kind = .simulation ∧ (e.verdict = .notEquivalent ∨ e.verdict = .noInformation)) ∨
    (s0.timeoutSet = true ∧ env.fired s.clock = true)
  covered : s0.timeoutSet = false →
    Covered env 3 s ∨ Finished s ∨ ∃ e ∈ s.log, e.kind = .simulation ∧ e.verdict = .noInformation

/-- Additionally if an exception propagated. -/
structure SeqThrew (env : Env) (s0 s : State) : Prop extends SeqEnd env s0 s where
  started : s.results.startedSimulations = s0.results.startedSimulations + (sims s.log).length ∨
    s.results.startedSimulations = s0.results.startedSimulations + (sims s.log).length + 1

/-- Postcondition of the sequential flow. -/
def SeqPost (env : Env) (s0 : State) : Ending → Prop
  | .returned s => SeqReturned env s0 s
  | .threw s => SeqThrew env s0 s ∧ s0.timeoutSet = false
  | _ => True

theorem stages_post (env : Env) (s0 s : State) (hinv : Inv env 0 s) (hcfg : s.cfg = s0.cfg)
    (hlog : SimLog env s0.results.startedSimulations s0.results.performedSimulations s)
    (hbound : s0.results.performedSimulations ≤ s0.cfg.simulation.maxSims →
      s.results.performedSimulations ≤ s0.cfg.simulation.maxSims)
    (hreason : s0.cfg.execution.runSimulationChecker = true → s.results.performedSimulations = s0.cfg.simulation.maxSims ∨
      (∃ e ∈ s.log, e.kind = .simulation ∧ (e.verdict = .notEquivalent ∨ e.verdict = .noInformation)) ∨
      (s0.timeoutSet = true ∧ env.fired s.clock = true))
    (hfin : s.done = true → Finished s) :
    SeqPost env s0 (match stages env s with
      | .threw s => leave s (.threw s)
      | e => e) := by
  have h := stages_inv env s hinv
  have hc : ∀ s', stages env s = .returned s' → s.timeoutSet = false → Covered env 3 s' ∨ Finished s' :=
    fun s' hs' ht => stages_covers env s s' ht hfin hs'
  have hts : s.timeoutSet = s0.timeoutSet := by simp [State.timeoutSet, hcfg]
  have base : ∀ s', Inv env 3 s' → Keeps s s' → SeqEnd env s0 s' := by
    intro s' hi hk
    have hsims : sims s'.log = s.log := by
      show List.filter _ _ = _
      rw [hk.sims]; exact sims_of_only hlog.only
    refine ⟨hi, hk.cfg.trans hcfg, ?_, ?_, ?_⟩
    · rw [hk.performed, hlog.performed, hsims]
    · rw [hsims]; exact hlog.each
    · rw [hk.performed]; exact hbound
  revert h hc
  cases stages env s with
  | returned s' =>
    intro h hc
    have hk : Keeps s s' := h.2
    have hsims : sims s'.log = s.log := by
      show List.filter _ _ = _
      rw [hk.sims]; exact sims_of_only hlog.only
    refine { toSeqEnd := base s' h.1 h.2, started := ?_, reason := ?_, covered := ?_ }
    · rw [hk.started, hlog.started, hsims]
    · intro hr
      rcases hreason hr with h1 | ⟨e, he, h1⟩ | ⟨h1, h2⟩
      · left; rw [hk.performed]; exact h1
      · refine Or.inr (Or.inl ⟨e, ?_, h1⟩)
        have : e ∈ sims s'.log := by rw [hsims]; exact he
        exact (List.mem_filter.mp this).1
      · exact Or.inr (Or.inr ⟨h1, env.fired_mono _ _ hk.clock h2⟩)
    · intro ht
      rcases hc s' rfl (hts.trans ht) with h1 | h1
      · exact Or.inl h1
      · exact Or.inr (Or.inl h1)
  | threw s' =>
    intro h _
    have hk : Keeps s s' := h.2
    have hsims : sims s'.log = s.log := by
      show List.filter _ _ = _
      rw [hk.sims]; exact sims_of_only hlog.only
    show SeqPost env s0 (leave s' (.threw s'))
    unfold leave
    split
    · trivial
    · rename_i ht
      refine ⟨{ toSeqEnd := base s' h.1 h.2, started := Or.inl ?_ }, ?_⟩
      · rw [hk.started, hlog.started, hsims]
      · have : s'.timeoutSet = s0.timeoutSet := by simp [State.timeoutSet, hk.cfg, hcfg]
        rw [← this]; simpa using ht
  | terminated => intro _ _; trivial
  | diverged => intro _ _; trivial

theorem evidence_ne_notEquivalent (log : List Event) : evidence log ≠ .notEquivalent := by
  unfold evidence
  split <;> split <;> simp

theorem checkSequential_post (env : Env) (fuel : Nat) (s : State) (hinv : Inv env 0 s) (hl : s.log = [])
    (hd : s.done = false) (hall : s.cfg.anythingToExecute = true) : SeqPost env s (checkSequential env fuel s) := by
  have hlog : SimLog env s.results.startedSimulations s.results.performedSimulations s :=
    ⟨by simp [hl], by simp [hl], by simp [hl], by simp [hl]⟩
  unfold checkSequential
  simp only
  split
  · rename_i hen
    split
    · unfold leave
      split
      · trivial
      · rename_i ht
        refine ⟨{ toSeqEnd := ⟨hinv.mono (by omega), rfl, ?_, ?_, fun h => h⟩, started := Or.inl ?_ }, by simpa using ht⟩ <;>
          simp [hl, sims]
    · have h := simLoop_inv env s.cfg s.results.startedSimulations s.results.performedSimulations hen fuel 0
        { s with checkers := s.checkers ++ [.simulation] } (by simp [hl]) rfl
        ⟨hlog.only, hlog.each, hlog.performed, hlog.started⟩
        (hinv.congr rfl rfl rfl (fun h => h) (Or.inr (by simp [hl]))) (fun h => h) hd (by simp)
      revert h
      cases simLoop env fuel 0 { s with checkers := s.checkers ++ [.simulation] } with
      | diverged => intro _; trivial
      | threw x =>
        rintro ⟨x0, h0, hi0, rfl, hx⟩
        show SeqPost env s (leave _ _)
        unfold leave
        split
        · trivial
        · rename_i ht
          have hs : sims x0.log = x0.log := sims_of_only h0.log.only
          refine ⟨{ toSeqEnd := ⟨?_, h0.conf, ?_, ?_, h0.bound⟩, started := Or.inr ?_ }, ?_⟩
          · exact (hi0.congr (s' := x0.tick.simStarted) rfl rfl rfl (fun h => h) (Or.inl rfl)).mono (by omega)
          · show x0.results.performedSimulations = _ + (sims x0.log).length
            rw [h0.log.performed, hs]
          · show ∀ i e, (sims x0.log)[i]? = some e → _
            rw [hs]; exact h0.log.each
          · show x0.results.startedSimulations + 1 = _ + (sims x0.log).length + 1
            rw [h0.log.started, hs]
          · have : x0.tick.simStarted.timeoutSet = s.timeoutSet := by
              show x0.timeoutSet = _
              simp [State.timeoutSet, h0.conf]
            rw [← this]; simpa using ht
      | aborted x =>
        rintro ⟨h0, hi0, e, he, hni⟩
        show SeqPost env s (leave _ _)
        unfold leave
        split
        · trivial
        · rename_i ht
          have hs : sims x.log = x.log := sims_of_only h0.log.only
          refine { toSeqEnd := ⟨hi0.mono (by omega), h0.conf, ?_, ?_, h0.bound⟩, started := ?_, reason := ?_, covered := ?_ }
          · rw [h0.log.performed, hs]
          · rw [hs]; exact h0.log.each
          · rw [h0.log.started, hs]
          · intro _; exact Or.inr (Or.inl ⟨e, he, h0.log.only e he, Or.inr hni⟩)
          · intro _; exact Or.inr (Or.inr ⟨e, he, h0.log.only e he, hni⟩)
      | finished x =>
        rintro ⟨h0, hreason⟩
        obtain ⟨g1, g2, g3, g4, g5, g6, g7⟩ := afterSims_inv h0
        refine stages_post env s (afterSims x) g1 g2 ?_ ?_ ?_ ?_
        · exact ⟨by rw [g3]; exact h0.log.only, by rw [g3]; exact h0.log.each, by rw [g3, g5]; exact h0.log.performed,
            by rw [g3, g4]; exact h0.log.started⟩
        · rw [g5]; exact h0.bound
        · intro _
          rcases hreason with h1 | h1 | ⟨h1, h2⟩
          · left
            rw [g5, ← h0.conf]
            simpa [State.simulationsFinished] using h1
          · right; left
            rw [g3]
            -- a counterexample was found by one of the runs
            apply Classical.byContradiction
            intro hno
            have hnc : ∀ e ∈ x.log, ¬ Conclusive e := by
              intro e he hc
              apply hno
              refine ⟨e, he, h0.log.only e he, Or.inl ?_⟩
              have hk := h0.log.only e he
              unfold Conclusive at hc
              rw [hk] at hc
              exact hc
            have := h0.inv.verdict.2 hnc
            rw [show ({ x with done := x.done || decide (x.results.equivalence = .notEquivalent) } : State).results.equivalence
              = .notEquivalent from h1] at this
            exact evidence_ne_notEquivalent _ this.symm
          · refine Or.inr (Or.inr ⟨?_, ?_⟩)
            · have : x.timeoutSet = s.timeoutSet := by simp [State.timeoutSet, h0.conf]
              rw [← this]; exact h1
            · rw [g7]; exact h2
        · intro hdone
          by_cases hne : x.results.equivalence = .notEquivalent
          · left
            rw [g3]
            apply Classical.byContradiction
            intro hno
            have hnc : ∀ e ∈ x.log, ¬ Conclusive e := fun e he hc => hno ⟨e, he, hc⟩
            have := h0.inv.verdict.2 hnc
            rw [show ({ x with done := x.done || decide (x.results.equivalence = .notEquivalent) } : State).results.equivalence
              = .notEquivalent from hne] at this
            exact evidence_ne_notEquivalent _ this.symm
          · right
            unfold afterSims at hdone
            rw [if_neg hne] at hdone
            simp only [State.simsOnlyDone, h0.notDone, Bool.false_or, Bool.and_eq_true] at hdone
            intro k hk
            rw [g2, ← h0.conf] at hk
            have := hdone.1
            simp only [Configuration.onlySimulationCheckerConfigured, Bool.and_eq_true, Bool.not_eq_true'] at this
            cases k
            · rfl
            · simp only [Enabled] at hk; simp_all
            · simp only [Enabled] at hk; simp_all
            · simp only [Enabled] at hk; simp_all
  · exact stages_post env s s hinv rfl hlog (fun h => h) (fun h => by contradiction) (fun h => by rw [hd] at h; simp at h)

end QCEC.Mgr
