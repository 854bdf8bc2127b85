import Verif.Props.Parallel
import Verif.Spec.Calm
/-!
# Parallel runs in which nobody interrupts a checker before the main thread has decided
-/
namespace QCEC.Par
open QCEC QCEC.Mgr QCEC.Spec QCEC.Props

theorem _root_.QCEC.Spec.CalmSteps.steps {env quiet : ParEnv} {a b : PState} (h : CalmSteps env quiet a b) : Steps env a b := by
  induction h with
  | refl => exact .refl _
  | tail _ hst _ ih => exact .tail ih hst

/-- What the main thread has seen when it decides was answered by checkers nobody interrupted. -/
theorem _root_.QCEC.Spec.CalmSteps.quiet {env quiet : ParEnv} (hz : quiet.zxTransformable = env.zxTransformable) {cfg : Configuration} {res : Results}
    {s : PState} (h : CalmSteps env quiet (launch env.zxTransformable cfg res) s) :
    ∃ s1, Reachable quiet cfg res s1 ∧ s1.done = s.done ∧ s1.log = s.log ∧ s1.results = s.results ∧ s1.cfg = s.cfg ∧
      s1.timedOut = s.timedOut ∧ (s.done = false → s1 = s) := by
  generalize ha : launch env.zxTransformable cfg res = a at h
  induction h with
  | refl =>
    refine ⟨a, ?_, rfl, rfl, rfl, rfl, rfl, fun _ => rfl⟩
    unfold Reachable
    rw [hz, ha]
    exact .refl _
  | tail h1 hst hq ih =>
    rename_i b c
    obtain ⟨s1, hr, hd, hl, hres, hc, ht, he⟩ := ih
    cases hb : b.done with
    | false =>
      have := he hb
      subst this
      exact ⟨_, .tail hr (hq hb), rfl, rfl, rfl, rfl, rfl, fun _ => rfl⟩
    | true =>
      have hbase : Base env cfg b := reachable_base (res := res) (by unfold Reachable; rw [ha]; exact h1.steps)
      have hw : b.main ≠ .wait := fun hm => by rw [hbase.ctl.wait hm] at hb; simp at hb
      rcases step_effect hst with ⟨h2, h3, h4, ⟨h5, h6⟩ | ⟨h5, _⟩⟩ | ⟨_, _, _, hm, _⟩
      · exact ⟨s1, hr, by rw [h5, hd], by rw [h3, hl], by rw [h2, hres], by rw [h4, hc], by rw [h6, ht],
          fun h => by rw [h5, hb] at h; simp at h⟩
      · exact absurd h5 hw
      · exact absurd hm hw

/-- Why the main thread stops waiting. -/
theorem handle_stop_open {cfg : Configuration} {r : Results} {log : List Event} (ho : Open cfg r log) {k : Kind} {c : Criterion}
    (h : (handle cfg r k c).2 = .stop) (hk : k = .zx → c ≠ .notEquivalent) :
    Conclusive ⟨k, c⟩ ∨ GivesUp ⟨k, c⟩ ∨ cfg.onlyZXCheckerConfigured = true ∨ cfg.onlySimulationCheckerConfigured = true ∨
    ((∃ e ∈ log ++ [⟨k, c⟩], Suspects e) ∧ (∃ e ∈ log ++ [⟨k, c⟩], Passed e) ∧
      (handle cfg r k c).1.performedSimulations = cfg.simulation.maxSims) := by
  have hv := ho.verdict
  unfold handle at h ⊢
  split at h
  · rename_i hc
    subst hc
    split at h
    · rename_i hkz
      split at h
      · rename_i ho
        exact Or.inr (Or.inr (Or.inl ho))
      · simp at h
    · rename_i hkz
      exact Or.inr (Or.inl ⟨hkz, rfl⟩)
  · rename_i hc
    split at h
    · rename_i hne
      subst hne
      left
      cases k <;> simp_all [Conclusive]
    · rename_i hne
      rw [if_neg hc, if_neg hne]
      cases k with
      | alternating => exact Or.inl hc
      | construction => exact Or.inl hc
      | zx =>
        simp only at h ⊢
        unfold handleZX at h ⊢
        split at h
        · rename_i he; exact Or.inl he
        · rename_i he
          split at h
          · rename_i hp
            split at h
            · rename_i hpe
              split at h
              · rename_i hf
                rw [if_neg he, if_pos hp, if_pos hpe, if_pos hf]
                refine Or.inr (Or.inr (Or.inr (Or.inr ⟨⟨_, List.mem_append_right _ (List.mem_singleton.mpr rfl), rfl, hp⟩, ?_,
                  by simpa [simsFinished, setEq] using hf⟩)))
                rw [hpe] at hv
                split at hv
                · simp at hv
                · split at hv
                  · rename_i hpas
                    obtain ⟨e, h1, h2⟩ := hpas
                    exact ⟨e, List.mem_append_left _ h1, h2⟩
                  · simp at hv
              · simp at h
            · split at h
              · split at h
                · rename_i ho; exact Or.inr (Or.inr (Or.inl ho))
                · simp at h
              · simp at h
          · simp at h
      | simulation =>
        simp only at h ⊢
        unfold handleSim at h ⊢
        split at h
        · rename_i hf
          split at h
          · rename_i ho
            exact Or.inr (Or.inr (Or.inr (Or.inl ho)))
          · rename_i ho
            split at h
            · rename_i hp
              rw [if_pos hf, if_neg ho, if_pos hp]
              refine Or.inr (Or.inr (Or.inr (Or.inr ⟨?_, ⟨_, List.mem_append_right _ (List.mem_singleton.mpr rfl), rfl, hc, hne⟩,
                by simpa [simsFinished, setEq] using hf⟩)))
              have hpe : r.equivalence = .probablyNotEquivalent := by
                unfold simPassed at hp
                simp only at hp
                split at hp
                · simp at hp
                · exact hp
              rw [hpe] at hv
              split at hv
              · rename_i hs
                obtain ⟨e, h1, h2⟩ := hs
                exact ⟨e, List.mem_append_left _ h1, h2⟩
              · split at hv <;> simp at hv
            · simp at h
        · split at h <;> simp at h

/-- Why the run stopped waiting, in terms of what was handled. -/
theorem stop_reason_open {env : ParEnv} {cfg : Configuration} {res : Results} {s : PState} (hz : ZXAnswers env)
    (h : Reachable env cfg res s) (hd : s.done = true) :
    s.timedOut = true ∨ zxGivesUp env.zxTransformable cfg = true ∨ (∃ e ∈ s.log, Conclusive e) ∨ (∃ e ∈ s.log, GivesUp e) ∨
    s.cfg.onlyZXCheckerConfigured = true ∨ s.cfg.onlySimulationCheckerConfigured = true ∨
    ((∃ e ∈ s.log, Suspects e) ∧ (∃ e ∈ s.log, Passed e) ∧ s.results.performedSimulations = s.cfg.simulation.maxSims) := by
  unfold Reachable at h
  induction h with
  | refl => exact Or.inr (Or.inl hd)
  | tail h1 hst ih =>
    rename_i s s'
    have hb := reachable_base (env := env) (cfg := cfg) (res := res) h1
    have hv := reachable_vinv (cfg := cfg) (res := res) hz.never h1
    rcases step_effect hst with ⟨hr, hl, hc, hd'⟩ | ⟨i, x, q, hm, hq, hx, hf, rfl⟩
    · rcases hd' with ⟨h1, h2⟩ | ⟨_, _, h3, _⟩
      · rw [hr, hl, hc, h2]
        exact ih (h1 ▸ hd)
      · exact Or.inl h3
    · right; right
      have hd0 := hb.ctl.wait hm
      have hpc := hb.head hx hq
      have hmay : env.may x.kind x.eq := by
        rcases ((hb.slots x (List.mem_of_getElem? hx)).result (Or.inr hpc) hf).2 with h' | h'
        · rw [hd0] at h'; simp at h'
        · exact h'
      have hstop : (handle s.cfg s.results x.kind x.eq).2 = .stop := by simpa [PState.popped] using hd
      have := handle_stop_open (hv.openRun (Or.inl hd0)) hstop (fun hk hc => hz.never (by rw [← hk, ← hc]; exact hmay))
      have hin : (⟨x.kind, x.eq⟩ : Event) ∈ s.log ++ [⟨x.kind, x.eq⟩] := List.mem_append_right _ (List.mem_singleton.mpr rfl)
      rcases this with h | h | h | h | h
      · exact Or.inl ⟨_, hin, h⟩
      · exact Or.inr (Or.inl ⟨_, hin, h⟩)
      · exact Or.inr (Or.inr (Or.inl h))
      · exact Or.inr (Or.inr (Or.inr (Or.inl h)))
      · exact Or.inr (Or.inr (Or.inr (Or.inr h)))

/-- A run that returned has stopped waiting. -/
theorem returned_done {env : ParEnv} {cfg : Configuration} {res : Results} {s : PState} (h : Reachable env cfg res s)
    (hr : s.main = .ended .returned) : s.done = true := by
  revert hr
  refine h.induct (P := fun s => s.main = .ended .returned → s.done = true) ?_ ?_
  · intro hr
    unfold launch at hr
    simp only at hr
    split at hr
    · simp at hr
    · split at hr <;> simp at hr
  · intro s s' hb ih hst hr
    cases hst with
    | construct i x hx hp hn => exact absurd hr (hn _)
    | constructThrows i x hx hp hb ht hz hn => exact absurd hr (hn _)
    | constructTerminates i x hx hp hb ht hz hn => simp at hr
    | stimulusThrows i x hx hp hk ht hn => exact absurd hr (hn _)
    | begin i x hx hp hd hn => exact absurd hr (hn _)
    | skip i x hx hp hd hn => exact absurd hr (hn _)
    | runReturns i x c hx hp hc hn => exact absurd hr (hn _)
    | runThrows i x hx hp ht hn => exact absurd hr (hn _)
    | push i x hx hp hn => exact absurd hr (hn _)
    | pop i x q hw hq hx hf =>
      unfold PState.popped at hr
      simp only at hr
      split at hr <;> simp at hr
    | popThrows i x q hw hq hx hf => simp at hr
    | timeout hw ht => simp at hr
    | signal i x hw hx => simp at hr
    | signalledAll i hw hi => simp at hr
    | join hj hf => exact hb.ctl.joining hj
    | unwind hw hf => simp at hr

/-- With the alternating or construction checker nobody waits for another one alone. -/
theorem not_only {zxOk : Bool} {cfg : Configuration} (hen : Enabled cfg .alternating ∨ Enabled cfg .construction) :
    zxGivesUp zxOk cfg = false ∧ (launchCfg zxOk cfg).onlyZXCheckerConfigured = false ∧
    (launchCfg zxOk cfg).onlySimulationCheckerConfigured = false := by
  rcases cfg with ⟨⟨_,_,_,_,rc,rs,ra,rz⟩,_,_,_,⟨_,ms,_,_,_,_⟩,_⟩
  revert hen
  unfold Enabled zxGivesUp launchCfg dropZX dropSims Configuration.onlyZXCheckerConfigured Configuration.onlySimulationCheckerConfigured
  by_cases hm : ms = 0 <;> cases rc <;> cases rs <;> cases ra <;> cases rz <;> cases zxOk <;> simp [hm]

/-! ## Checkers that are not enabled do not matter -/

/-- The same environment, except that checkers that are not enabled give up. -/
def adjust (cfg : Configuration) (env : ParEnv) : ParEnv :=
  { env with may := fun k c => (Enabled cfg k ∧ env.may k c) ∨ (¬ Enabled cfg k ∧ c = .noInformation) }

theorem adjust_may {cfg : Configuration} {env : ParEnv} {k : Kind} (h : Enabled cfg k) (c : Criterion) :
    (adjust cfg env).may k c ↔ env.may k c := by
  unfold adjust
  simp [h]

theorem adjust_step {cfg : Configuration} {env : ParEnv} {s s' : PState} (hen : ∀ x ∈ s.slots, Enabled cfg x.kind) :
    Step (adjust cfg env) s s' ↔ Step env s s' := by
  constructor <;> intro hst
  · cases hst with
    | construct i x hx hp hm => exact .construct s i x hx hp hm
    | constructThrows i x hx hp hb ht hz hm => exact .constructThrows s i x hx hp hb ht hz hm
    | constructTerminates i x hx hp hb ht hz hm => exact .constructTerminates s i x hx hp hb ht hz hm
    | stimulusThrows i x hx hp hk ht hm => exact .stimulusThrows s i x hx hp hk ht hm
    | begin i x hx hp hd hm => exact .begin s i x hx hp hd hm
    | skip i x hx hp hd hm => exact .skip s i x hx hp hd hm
    | runReturns i x c hx hp hc hm =>
      exact .runReturns s i x c hx hp ((adjust_may (hen x (List.mem_of_getElem? hx)) c).mp hc) hm
    | runThrows i x hx hp ht hm => exact .runThrows s i x hx hp ht hm
    | push i x hx hp hm => exact .push s i x hx hp hm
    | pop i x q hm hq hx hf => exact .pop s i x q hm hq hx hf
    | popThrows i x q hm hq hx hf => exact .popThrows s i x q hm hq hx hf
    | timeout hm ht => exact .timeout s hm ht
    | signal i x hm hx => exact .signal s i x hm hx
    | signalledAll i hm hi => exact .signalledAll s i hm hi
    | join hm hf => exact .join s hm hf
    | unwind hm hf => exact .unwind s hm hf
  · cases hst with
    | construct i x hx hp hm => exact .construct s i x hx hp hm
    | constructThrows i x hx hp hb ht hz hm => exact .constructThrows s i x hx hp hb ht hz hm
    | constructTerminates i x hx hp hb ht hz hm => exact .constructTerminates s i x hx hp hb ht hz hm
    | stimulusThrows i x hx hp hk ht hm => exact .stimulusThrows s i x hx hp hk ht hm
    | begin i x hx hp hd hm => exact .begin s i x hx hp hd hm
    | skip i x hx hp hd hm => exact .skip s i x hx hp hd hm
    | runReturns i x c hx hp hc hm =>
      exact .runReturns s i x c hx hp ((adjust_may (hen x (List.mem_of_getElem? hx)) c).mpr hc) hm
    | runThrows i x hx hp ht hm => exact .runThrows s i x hx hp ht hm
    | push i x hx hp hm => exact .push s i x hx hp hm
    | pop i x q hm hq hx hf => exact .pop s i x q hm hq hx hf
    | popThrows i x q hm hq hx hf => exact .popThrows s i x q hm hq hx hf
    | timeout hm ht => exact .timeout s hm ht
    | signal i x hm hx => exact .signal s i x hm hx
    | signalledAll i hm hi => exact .signalledAll s i hm hi
    | join hm hf => exact .join s hm hf
    | unwind hm hf => exact .unwind s hm hf

theorem slots_enabled {env : ParEnv} {cfg : Configuration} {s : PState} (hb : Base env cfg s) : ∀ x ∈ s.slots, Enabled cfg x.kind := by
  intro x hx
  have := hb.enabled hx
  rw [hb.conf] at this
  exact enabled_of_launch this

theorem adjust_reachable {env : ParEnv} {cfg : Configuration} {res : Results} {s : PState} (h : Reachable env cfg res s) :
    Reachable (adjust cfg env) cfg res s := by
  unfold Reachable at h ⊢
  induction h with
  | refl => exact .refl _
  | tail h1 hst ih => exact .tail ih ((adjust_step (slots_enabled (reachable_base (res := res) h1))).mpr hst)

theorem adjust_calm {env quiet : ParEnv} {cfg : Configuration} {res : Results} {s : PState}
    (h : CalmSteps env quiet (launch env.zxTransformable cfg res) s) :
    CalmSteps (adjust cfg env) (adjust cfg quiet) (launch (adjust cfg env).zxTransformable cfg res) s := by
  show CalmSteps (adjust cfg env) (adjust cfg quiet) (launch env.zxTransformable cfg res) s
  generalize ha : launch env.zxTransformable cfg res = a at h
  induction h with
  | refl => exact .refl _
  | tail h1 hst hq ih =>
    have hb := slots_enabled (reachable_base (env := env) (cfg := cfg) (res := res) (by unfold Reachable; rw [ha]; exact h1.steps))
    exact .tail ih ((adjust_step hb).mpr hst) fun hd => (adjust_step hb).mpr (hq hd)

end QCEC.Par
