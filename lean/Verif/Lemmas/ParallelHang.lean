import Verif.Lemmas.ParallelEnd
/-!
# Invariants of the parallel flow: when the main thread can wait forever
-/
namespace QCEC.Par
open QCEC QCEC.Mgr QCEC.Spec

/-- The answers of the ZX checker (`ZXChecker.cpp:55-115`). -/
def ZXAnswers (env : ParEnv) : Prop :=
  ∀ c, env.may .zx c → c = .equivalent ∨ c = .equivalentUpToGlobalPhase ∨ c = .probablyNotEquivalent ∨ c = .noInformation

theorem ZXAnswers.never {env : ParEnv} (h : ZXAnswers env) : ¬ env.may .zx .notEquivalent := by
  intro h'; have := h _ h'; simp at this

/-- What is known while the main thread waits. -/
structure WInv (s : PState) : Prop where
  bound : s.results.startedSimulations ≤ s.cfg.simulation.maxSims
  sims : s.main = .wait → (∃ x ∈ s.slots, x.kind = .simulation ∧ x.pc = .idle) →
    s.results.startedSimulations = s.cfg.simulation.maxSims
  simOnly : s.main = .wait → s.cfg.onlySimulationCheckerConfigured = true → (∃ e ∈ s.log, e.kind = .simulation) →
    s.results.performedSimulations ≠ s.cfg.simulation.maxSims
  zxOnly : s.main = .wait → s.cfg.onlyZXCheckerConfigured = true → ∀ e ∈ s.log, e.kind ≠ .zx

theorem handleSim_goOn {cfg : Configuration} {r : Results} (h : (handleSim cfg r).2 = .goOn) :
    (cfg.onlySimulationCheckerConfigured = true → (handleSim cfg r).1.performedSimulations ≠ cfg.simulation.maxSims) ∧
    ((handleSim cfg r).1.performedSimulations = cfg.simulation.maxSims ∨
      cfg.simulation.maxSims ≤ (handleSim cfg r).1.startedSimulations) := by
  unfold handleSim at h ⊢
  split at h
  · rename_i hf
    split at h
    · simp at h
    · rename_i ho
      split at h
      · simp at h
      · rename_i hp
        rw [if_pos hf, if_neg ho, if_neg hp]
        exact ⟨fun h' => absurd h' ho, Or.inl (by simpa [simsFinished] using hf)⟩
  · rename_i hf
    split at h
    · simp at h
    · rename_i hs
      rw [if_neg hf, if_neg hs]
      exact ⟨fun _ => by simpa [simsFinished] using hf, Or.inr (by simpa using hs)⟩

theorem handleSim_again {cfg : Configuration} {r : Results} (h : (handleSim cfg r).2 = .relaunch) :
    (handleSim cfg r).1.performedSimulations ≠ cfg.simulation.maxSims := by
  unfold handleSim at h ⊢
  split at h
  · split at h
    · simp at h
    · split at h <;> simp at h
  · rename_i hf
    split at h
    · rename_i hs
      rw [if_neg hf, if_pos hs]
      simpa [simsFinished] using hf
    · simp at h

theorem handle_sim_ne_stop {cfg : Configuration} {r : Results} {c : Criterion} (h : (handle cfg r .simulation c).2 ≠ .stop) :
    handle cfg r .simulation c = handleSim cfg r := by
  unfold handle at h ⊢
  split at h
  · simp at h
  · rename_i h1
    split at h
    · simp at h
    · rename_i h2
      rw [if_neg h1, if_neg h2]

theorem handle_zx_only {cfg : Configuration} {r : Results} {c : Criterion} (ho : cfg.onlyZXCheckerConfigured = true)
    (hc : c = .equivalent ∨ c = .equivalentUpToGlobalPhase ∨ c = .probablyNotEquivalent ∨ c = .noInformation)
    (hr : r.equivalence = .noInformation) : (handle cfg r .zx c).2 = .stop := by
  rcases hc with rfl | rfl | rfl | rfl <;> simp [handle, handleZX, ho, hr]

theorem launchCfg_maxSims (zxOk : Bool) (c : Configuration) : (launchCfg zxOk c).simulation = c.simulation := by
  unfold launchCfg dropZX dropSims
  split <;> (try split) <;> rfl

theorem simsToStart_le (zxOk : Bool) (c : Configuration) : simsToStart zxOk c ≤ c.simulation.maxSims := by
  unfold simsToStart
  split
  · omega
  · omega

theorem onlyZX_no_sim {c : Configuration} (h : c.onlyZXCheckerConfigured = true) : c.execution.runSimulationChecker = false := by
  unfold Configuration.onlyZXCheckerConfigured at h
  simp at h
  simp [h]

theorem launch_winv (env : ParEnv) (cfg : Configuration) (res : Results) (h0 : res.startedSimulations = 0) :
    WInv (launch env.zxTransformable cfg res) := by
  refine ⟨?_, ?_, ?_, ?_⟩
  · show res.startedSimulations + _ ≤ (launchCfg _ _).simulation.maxSims
    rw [h0, launchCfg_maxSims]
    have := simsToStart_le env.zxTransformable cfg
    omega
  · rintro _ ⟨x, hx, _, hp⟩
    simp only [launch, List.mem_map] at hx
    obtain ⟨k, _, rfl⟩ := hx
    simp at hp
  · rintro _ _ ⟨e, he, _⟩
    simp [launch] at he
  · intro _ _ e he
    simp [launch] at he

theorem WInv.same {s s' : PState} (h : WInv s) (h1 : s'.results = s.results) (h2 : s'.cfg = s.cfg) (h3 : s'.log = s.log)
    (hm : s'.main = .wait → s.main = .wait)
    (hs : (∃ x ∈ s'.slots, x.kind = .simulation ∧ x.pc = .idle) → ∃ x ∈ s.slots, x.kind = .simulation ∧ x.pc = .idle) :
    WInv s' := by
  refine ⟨?_, ?_, ?_, ?_⟩
  · rw [h1, h2]; exact h.bound
  · rw [h1, h2]; exact fun a b => h.sims (hm a) (hs b)
  · rw [h1, h2, h3]; exact fun a => h.simOnly (hm a)
  · rw [h2, h3]; exact fun a => h.zxOnly (hm a)

theorem WInv.worker {s s' : PState} (h : WInv s) {i : Nat} {x : Slot} (hx : s.slots[i]? = some x) (f : Slot → Slot)
    (hp : (f x).pc ≠ .idle) (h1 : s'.results = s.results) (h2 : s'.cfg = s.cfg) (h3 : s'.log = s.log)
    (h4 : s'.slots = s.slots.modify i f) (hm : s'.main = .wait → s.main = .wait) : WInv s' := by
  refine h.same h1 h2 h3 hm ?_
  rw [h4]
  rintro ⟨y, hy, hk, hp'⟩
  obtain ⟨j, hj⟩ := List.mem_iff_getElem?.mp hy
  obtain ⟨z, hz, rfl⟩ := (getElem?_modify_iff ..).mp hj
  split at hp'
  · rename_i hij; subst hij; rw [hx] at hz; cases hz; exact absurd hp' hp
  · rename_i hij
    rw [if_neg hij] at hk
    exact ⟨z, List.mem_of_getElem? hz, hk, hp'⟩

theorem step_winv {env : ParEnv} {cfg : Configuration} {res : Results} (hz : ZXAnswers env)
    (h0 : res.performedSimulations = 0) {s s' : PState} (hb : Base env cfg s) (hv : VInv env s) (hc : CInv res s)
    (h : WInv s) (hst : Step env s s') : WInv s' := by
  cases hst with
  | construct i x hx hp hm => exact h.worker hx _ (by simp) rfl rfl rfl rfl (fun h => h)
  | constructThrows i x hx hp hb ht hz hm => exact h.worker hx _ (by simp) rfl rfl rfl rfl (fun h => h)
  | constructTerminates i x hx hp hb ht hz hm => exact h.same rfl rfl rfl (by simp) (fun h => h)
  | stimulusThrows i x hx hp hk ht hm => exact h.worker hx _ (by simp) rfl rfl rfl rfl (fun h => h)
  | begin i x hx hp hd hm => exact h.worker hx _ (by simp) rfl rfl rfl rfl (fun h => h)
  | skip i x hx hp hd hm => exact h.worker hx _ (by simp) rfl rfl rfl rfl (fun h => h)
  | runReturns i x c hx hp hc hm => exact h.worker hx _ (by simp) rfl rfl rfl rfl (fun h => h)
  | runThrows i x hx hp ht hm => exact h.worker hx _ (by simp) rfl rfl rfl rfl (fun h => h)
  | push i x hx hp hm => exact h.worker hx _ (by simp) rfl rfl rfl rfl (fun h => h)
  | pop i x q hm hq hx hf =>
    have hpc := hb.head hx hq
    have hmem := List.mem_of_getElem? hx
    have hd := hb.ctl.wait hm
    have hbs : Base env cfg (s.popped i x q) := step_base hb (Step.pop s i x q hm hq hx hf)
    have hc' : CInv res (s.popped i x q) := step_cinv hb hc (Step.pop s i x q hm hq hx hf)
    have hmay : env.may x.kind x.eq := by
      rcases ((hb.slots x hmem).result (Or.inr hpc) hf).2 with h' | h'
      · rw [hd] at h'; simp at h'
      · exact h'
    have ho := hv.openRun (Or.inl hd)
    have hs := handle_started s.cfg s.results x.kind x.eq
    have hbound : (handle s.cfg s.results x.kind x.eq).1.startedSimulations ≤ s.cfg.simulation.maxSims := by
      rcases hs with ⟨hr, hs⟩ | ⟨_, hs⟩
      · have := (handle_relaunch hr).2; omega
      · have := h.bound; omega
    have hps : (handle s.cfg s.results x.kind x.eq).1.performedSimulations ≤
        (handle s.cfg s.results x.kind x.eq).1.startedSimulations := by
      have h1 := hc'.performed
      have h2 := hc'.started
      have h3 := performedIn_le (s.popped i x q).log
      have h4 : (s.popped i x q).results = (handle s.cfg s.results x.kind x.eq).1 := rfl
      rw [h4] at h1 h2
      omega
    have hgo : (s.popped i x q).main = .wait → (handle s.cfg s.results x.kind x.eq).2 ≠ .stop := by
      intro h1 h2
      unfold PState.popped at h1
      simp only [h2, if_true] at h1
      simp at h1
    refine ⟨hbound, ?_, ?_, ?_⟩
    · intro hw
      have hne := hgo hw
      rintro ⟨y, hy, hk, hp⟩
      show (handle s.cfg s.results x.kind x.eq).1.startedSimulations = s.cfg.simulation.maxSims
      obtain ⟨j, hj⟩ := List.mem_iff_getElem?.mp hy
      obtain ⟨z, hz', rfl⟩ := (getElem?_modify_iff ..).mp hj
      split at hp
      · rename_i hij
        subst hij
        rw [hx] at hz'; cases hz'
        rw [if_pos rfl] at hk
        have hk' : x.kind = .simulation := hk
        simp only at hp
        split at hp
        · simp at hp
        · rename_i hr
          rw [hk'] at hne hr hbound hps ⊢
          have heq := handle_sim_ne_stop hne
          rw [heq] at hne hr hbound hps ⊢
          have hgo' : (handleSim s.cfg s.results).2 = .goOn := by
            cases ha : (handleSim s.cfg s.results).2 <;> simp_all
          have := (handleSim_goOn hgo').2
          omega
      · rename_i hij
        rw [if_neg hij] at hk
        have := h.sims hm ⟨z, List.mem_of_getElem? hz', hk, hp⟩
        rcases hs with ⟨_, hs⟩ | ⟨_, hs⟩ <;> omega
    · intro hw honly
      have hne := hgo hw
      rintro ⟨e, he, hk⟩
      change s.cfg.onlySimulationCheckerConfigured = true at honly
      show (handle s.cfg s.results x.kind x.eq).1.performedSimulations ≠ s.cfg.simulation.maxSims
      by_cases hk' : x.kind = .simulation
      · rw [hk'] at hne ⊢
        have heq := handle_sim_ne_stop hne
        rw [heq] at hne ⊢
        cases ha : (handleSim s.cfg s.results).2 with
        | stop => exact absurd ha hne
        | goOn => exact (handleSim_goOn ha).1 honly
        | relaunch => exact handleSim_again ha
      · have hp := handle_performed s.cfg s.results x.kind x.eq
        rw [if_neg (fun h' => hk' h'.1)] at hp
        rw [hp]
        refine h.simOnly hm honly ⟨e, ?_, hk⟩
        rcases List.mem_append.mp he with he | he
        · exact he
        · simp at he; subst he; exact absurd hk hk'
    · intro hw honly
      have hne := hgo hw
      change s.cfg.onlyZXCheckerConfigured = true at honly
      show ∀ e ∈ s.log ++ [⟨x.kind, x.eq⟩], _
      rw [forall_snoc]
      have hzl := h.zxOnly hm honly
      refine ⟨hzl, fun hk => hne ?_⟩
      change x.kind = .zx at hk
      rw [hk] at hmay ⊢
      refine handle_zx_only honly (hz _ hmay) ?_
      rw [ho.verdict, if_neg, if_neg]
      · rintro ⟨e, he, hp⟩
        have h1 := (hv.prov e he).2
        rw [hp.1] at h1
        change s.cfg.execution.runSimulationChecker = true at h1
        rw [onlyZX_no_sim honly] at h1
        simp at h1
      · rintro ⟨e, he, hp⟩
        exact hzl e he hp.1
  | popThrows i x q hm hq hx hf =>
    exact ⟨h.bound, by simp, by simp, by simp⟩
  | timeout hm ht => exact h.same rfl rfl rfl (by simp) (fun h => h)
  | signal i x hm hx =>
    exact ⟨h.bound, by simp, by simp, by simp⟩
  | signalledAll i hm hi => exact h.same rfl rfl rfl (by simp) (fun h => h)
  | join hm hf => exact h.same rfl rfl rfl (by simp) (fun h => h)
  | unwind hm hf => exact h.same rfl rfl rfl (by simp) (fun h => h)

theorem reachable_winv {env : ParEnv} {cfg : Configuration} {res : Results} (hz : ZXAnswers env)
    (h0 : res.performedSimulations = 0) (h0' : res.startedSimulations = 0) {s : PState} (h : Reachable env cfg res s) :
    WInv s := by
  unfold Reachable at h
  induction h with
  | refl => exact launch_winv env cfg res h0'
  | tail h1 hst ih =>
    exact step_winv hz h0 (reachable_base h1) (reachable_vinv hz.never h1) (reachable_cinv h1) ih hst

/-! ## The table of launched checkers -/

theorem sum_doneWeight_pos {k : Kind} {l : List Slot} {x : Slot} (hx : x ∈ l) (hk : x.kind = k) (hp : x.pc = .idle)
    (hf : x.failed = false) : 0 < (l.map (doneWeight k)).sum := by
  induction l with
  | nil => simp at hx
  | cons a r ih =>
    simp only [List.map_cons, List.sum_cons]
    rcases List.mem_cons.mp hx with rfl | hx
    · have : doneWeight k x = 1 := by simp [doneWeight, hk, hp, hf]
      omega
    · have := ih hx; omega

theorem ofKind_pos {k : Kind} {log : List Event} (h : 0 < ofKind k log) : ∃ e ∈ log, e.kind = k := by
  unfold ofKind at h
  obtain ⟨e, he⟩ := List.exists_mem_of_length_pos h
  simp at he
  exact ⟨e, he.1, he.2⟩

theorem definitive_alternating {zxOk : Bool} {c : Configuration} (h : (launchCfg zxOk c).execution.runAlternatingChecker = true) :
    Kind.alternating ∈ definitiveKinds zxOk c := by
  rcases c with ⟨⟨_,_,_,_,rc,rs,ra,rz⟩,_,_,_,⟨_,ms,_,_,_,_⟩,_⟩
  revert h
  unfold definitiveKinds launchCfg zxGivesUp dropZX dropSims Configuration.onlyZXCheckerConfigured
  by_cases hm : ms = 0 <;> cases rc <;> cases rs <;> cases ra <;> cases rz <;> cases zxOk <;> simp [hm]

theorem definitive_construction {zxOk : Bool} {c : Configuration}
    (h : (launchCfg zxOk c).execution.runConstructionChecker = true) : Kind.construction ∈ definitiveKinds zxOk c := by
  rcases c with ⟨⟨_,_,_,_,rc,rs,ra,rz⟩,_,_,_,⟨_,ms,_,_,_,_⟩,_⟩
  revert h
  unfold definitiveKinds launchCfg zxGivesUp dropZX dropSims Configuration.onlyZXCheckerConfigured
  by_cases hm : ms = 0 <;> cases rc <;> cases rs <;> cases ra <;> cases rz <;> cases zxOk <;> simp [hm]

theorem definitive_zx {zxOk : Bool} {c : Configuration} (h : (launchCfg zxOk c).execution.runZXChecker = true)
    (hg : zxGivesUp zxOk c = false) : Kind.zx ∈ definitiveKinds zxOk c := by
  unfold definitiveKinds
  rw [h, hg]
  simp

/-- Configurations for which `run` uses the parallel flow (`EquivalenceCheckingManager.cpp:313-331`). -/
structure ParCfg (cfg : Configuration) : Prop where
  something : cfg.anythingToExecute = true
  threads : 1 < cfg.execution.nthreads

theorem sims_launched {zxOk : Bool} {c : Configuration} (hp : ParCfg c)
    (hov : (definitiveKinds zxOk c).length ≤ c.execution.nthreads)
    (hs : (launchCfg zxOk c).execution.runSimulationChecker = true) (hg : zxGivesUp zxOk c = false)
    (ha : (launchCfg zxOk c).execution.runAlternatingChecker = false)
    (hc : (launchCfg zxOk c).execution.runConstructionChecker = false) : Kind.simulation ∈ launchKinds zxOk c := by
  have hfill := launch_fills zxOk c hov
  have htask := tasks_split zxOk c
  rw [hs, hg] at htask
  simp only [Bool.not_false, Bool.and_self, if_true] at htask
  have hdef : (definitiveKinds zxOk c).length ≤ 1 := by
    have ha' : c.execution.runAlternatingChecker = false := by
      rw [← ha]; unfold launchCfg dropZX dropSims; split <;> (try split) <;> rfl
    unfold definitiveKinds
    rw [ha', hc]
    simp
    split <;> simp
  have hms : 0 < c.simulation.maxSims := by
    by_contra hz
    have hz' : c.simulation.maxSims = 0 := by omega
    revert hs
    unfold launchCfg dropZX dropSims
    rw [hz']
    cases h : c.execution.runSimulationChecker <;> simp [h] <;> split <;> simp [h]
  have hth := hp.threads
  have heff : (definitiveKinds zxOk c).length < (launchKinds zxOk c).length := by
    rw [hfill]; unfold effectiveThreads; omega
  unfold launchKinds at heff ⊢
  rw [List.length_append, List.length_replicate] at heff
  exact List.mem_append_right _ (List.mem_replicate.mpr ⟨by omega, rfl⟩)

end QCEC.Par
