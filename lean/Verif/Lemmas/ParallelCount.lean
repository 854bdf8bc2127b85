import Verif.Lemmas.ParallelVerdict
/-!
# Invariants of the parallel flow: counting, termination, exceptions, signalling
-/
namespace QCEC.Par
open QCEC QCEC.Mgr QCEC.Spec

/-! ## Launch -/

theorem definitive_le_tasks (zxOk : Bool) (c : Configuration) : (definitiveKinds zxOk c).length ≤ tasksToExecute zxOk c := by
  rcases c with ⟨⟨_,_,_,_,rc,rs,ra,rz⟩,_,_,_,⟨_,ms,_,_,_,_⟩,_⟩
  unfold definitiveKinds tasksToExecute launchCfg zxGivesUp dropZX dropSims Configuration.onlyZXCheckerConfigured
  by_cases hm : ms = 0 <;> cases rc <;> cases rs <;> cases ra <;> cases rz <;> cases zxOk <;> simp [hm]
  all_goals omega

theorem tasks_split (zxOk : Bool) (c : Configuration) : tasksToExecute zxOk c = (definitiveKinds zxOk c).length +
    (if (launchCfg zxOk c).execution.runSimulationChecker && !zxGivesUp zxOk c then c.simulation.maxSims else 0) := by
  rcases c with ⟨⟨_,_,_,_,rc,rs,ra,rz⟩,_,_,_,⟨_,ms,_,_,_,_⟩,_⟩
  unfold definitiveKinds tasksToExecute launchCfg zxGivesUp dropZX dropSims Configuration.onlyZXCheckerConfigured
  by_cases hm : ms = 0 <;> cases rc <;> cases rs <;> cases ra <;> cases rz <;> cases zxOk <;> simp [hm]
  all_goals omega

/-- Enough threads for the checkers that are started unconditionally: the table is filled exactly. -/
theorem launch_fills (zxOk : Bool) (c : Configuration) (h : (definitiveKinds zxOk c).length ≤ c.execution.nthreads) :
    (launchKinds zxOk c).length = effectiveThreads zxOk c := by
  have h1 := definitive_le_tasks zxOk c
  have h2 := tasks_split zxOk c
  unfold launchKinds
  rw [List.length_append, List.length_replicate]
  unfold simsToStart
  have h3 : (definitiveKinds zxOk c).length ≤ effectiveThreads zxOk c := by unfold effectiveThreads; omega
  have h4 : effectiveThreads zxOk c ≤ tasksToExecute zxOk c := by unfold effectiveThreads; omega
  unfold subWrap
  rw [if_pos h3]
  split <;> rename_i hs
  · rw [if_pos hs] at h2
    omega
  · rw [if_neg hs] at h2
    omega

theorem launch_overflow_iff (zxOk : Bool) (c : Configuration) (res : Results) :
    (launch zxOk c res).main = .ended .undefinedBehaviour ↔ c.execution.nthreads < (definitiveKinds zxOk c).length := by
  unfold launch
  simp only
  constructor
  · intro h
    by_contra hn
    rw [launch_fills zxOk c (by omega)] at h
    rw [if_neg (by omega)] at h
    split at h <;> simp at h
  · intro h
    rw [if_pos]
    unfold launchKinds effectiveThreads
    rw [List.length_append]
    omega

/-! ## Counters -/

/-- Simulations among the handled completions. -/
def simsIn (log : List Event) : Nat := (log.filter fun e => decide (e.kind = .simulation)).length

/-- Simulations with a verdict among the handled completions. -/
def performedIn (log : List Event) : Nat :=
  (log.filter fun e => decide (e.kind = .simulation) && !decide (e.verdict = .noInformation)).length

/-- Completions of a given checker. -/
def ofKind (k : Kind) (log : List Event) : Nat := (log.filter fun e => decide (e.kind = k)).length

/-- 1 for a simulation that has been started and not been handled. -/
def simWeight (x : Slot) : Nat := if x.kind = .simulation ∧ (x.pc ≠ .idle ∨ x.failed = true) then 1 else 0

/-- 1 for a handled check of the given kind. -/
def doneWeight (k : Kind) (x : Slot) : Nat := if x.kind = k ∧ x.pc = .idle ∧ x.failed = false then 1 else 0

theorem performedIn_le (log : List Event) : performedIn log ≤ simsIn log := by
  unfold performedIn simsIn
  apply List.Sublist.length_le
  induction log with
  | nil => simp
  | cons a l ih =>
    simp only [List.filter_cons]
    by_cases h1 : a.kind = .simulation <;> by_cases h2 : a.verdict = .noInformation <;> simp [h1, h2] <;>
      first | exact ih | exact ih.cons _ | exact ih.cons₂ _

theorem handleZX_counts (cfg : Configuration) (r : Results) (c : Criterion) :
    (handleZX cfg r c).1.performedSimulations = r.performedSimulations ∧
    (handleZX cfg r c).1.startedSimulations = r.startedSimulations ∧ (handleZX cfg r c).2 ≠ .relaunch := by
  unfold handleZX
  repeat' split
  all_goals exact ⟨rfl, rfl, by simp⟩

theorem handleSim_performed (cfg : Configuration) (r : Results) :
    (handleSim cfg r).1.performedSimulations = r.performedSimulations + 1 := by
  unfold handleSim
  repeat' split
  all_goals rfl

theorem handleSim_started (cfg : Configuration) (r : Results) :
    ((handleSim cfg r).2 = .relaunch ∧ (handleSim cfg r).1.startedSimulations = r.startedSimulations + 1) ∨
    ((handleSim cfg r).2 ≠ .relaunch ∧ (handleSim cfg r).1.startedSimulations = r.startedSimulations) := by
  unfold handleSim
  repeat' split
  all_goals first | exact Or.inl ⟨rfl, rfl⟩ | exact Or.inr ⟨by simp, rfl⟩

theorem handle_performed (cfg : Configuration) (r : Results) (k : Kind) (c : Criterion) :
    (handle cfg r k c).1.performedSimulations =
      r.performedSimulations + if k = .simulation ∧ c ≠ .noInformation then 1 else 0 := by
  by_cases h : c = .noInformation
  · subst h
    unfold handle setEq
    by_cases hk : k = .zx <;> simp [hk]
  · by_cases h' : c = .notEquivalent
    · subst h'
      unfold handle setEq storeCex
      by_cases hk : k = .simulation <;> simp [hk]
    · unfold handle
      rw [if_neg h, if_neg h']
      cases k
      · simp [h, handleSim_performed]
      · simp [setEq]
      · simp [setEq]
      · simp [(handleZX_counts cfg r c).1]

theorem handle_started (cfg : Configuration) (r : Results) (k : Kind) (c : Criterion) :
    ((handle cfg r k c).2 = .relaunch ∧ (handle cfg r k c).1.startedSimulations = r.startedSimulations + 1) ∨
    ((handle cfg r k c).2 ≠ .relaunch ∧ (handle cfg r k c).1.startedSimulations = r.startedSimulations) := by
  unfold handle
  split
  · right
    split
    · refine ⟨?_, rfl⟩
      split <;> simp
    · exact ⟨by simp, rfl⟩
  · split
    · right
      refine ⟨by simp, ?_⟩
      split <;> rfl
    · cases k
      · exact handleSim_started cfg r
      · exact Or.inr ⟨by simp, rfl⟩
      · exact Or.inr ⟨by simp, rfl⟩
      · exact Or.inr ⟨(handleZX_counts cfg r c).2.2, (handleZX_counts cfg r c).2.1⟩

theorem handle_relaunch {cfg : Configuration} {r : Results} {k : Kind} {c : Criterion} (h : (handle cfg r k c).2 = .relaunch) :
    k = .simulation ∧ r.startedSimulations < cfg.simulation.maxSims := by
  unfold handle at h
  split at h
  · split at h <;> (try split at h) <;> simp at h
  · split at h
    · simp at h
    · cases k <;> simp only at h
      · unfold handleSim at h
        split at h
        · split at h <;> (try split at h) <;> simp at h
        · split at h
          · rename_i h'; exact ⟨rfl, h'⟩
          · simp at h
      · simp at h
      · simp at h
      · unfold handleZX at h
        split at h
        · simp at h
        · split at h
          · split at h <;> (try split at h) <;> (try split at h) <;> simp at h
          · simp at h

theorem sum_modify_le {α : Type} {w : α → Nat} {l : List α} {i : Nat} {f : α → α} {x : α} (hx : l[i]? = some x)
    {a b : Nat} (ha : w x = a) (hb : w (f x) = b) : ((l.modify i f).map w).sum + a = (l.map w).sum + b := by
  have := sum_modify w l i f x hx
  omega

/-- Invariant about the counters. -/
structure CInv (res : Results) (s : PState) : Prop where
  performed : s.results.performedSimulations = res.performedSimulations + performedIn s.log
  started : s.results.startedSimulations = res.startedSimulations + simsIn s.log + (s.slots.map simWeight).sum
  once : ∀ k, k ≠ .simulation → ofKind k s.log = (s.slots.map (doneWeight k)).sum

theorem sum_map_const_zero {α : Type} (l : List α) (w : α → Nat) (h : ∀ x ∈ l, w x = 0) : (l.map w).sum = 0 := by
  induction l with
  | nil => rfl
  | cons a r ih =>
    simp only [List.map_cons, List.sum_cons]
    rw [h a (by simp), ih (fun x hx => h x (by simp [hx]))]

theorem launch_cinv (zxOk : Bool) (cfg : Configuration) (res : Results) : CInv res (launch zxOk cfg res) := by
  refine ⟨by simp [launch, performedIn], ?_, ?_⟩
  · simp only [launch, simsIn, List.filter_nil, List.length_nil, Nat.add_zero, List.map_map]
    congr 1
    unfold launchKinds
    rw [List.map_append, List.sum_append, sum_map_const_zero _ _ (by
      intro k hk
      have := (mem_definitiveKinds hk).2
      simp [simWeight, this])]
    rw [List.map_replicate, List.sum_replicate_nat]
    simp [simWeight]
  · intro k hk
    simp only [launch, ofKind, List.filter_nil, List.length_nil, List.map_map]
    rw [sum_map_const_zero]
    intro x hx
    simp [doneWeight]

/-- A worker step keeps the counters. -/
theorem CInv.worker {res : Results} {s s' : PState} (h : CInv res s) {i : Nat} {x : Slot} (hx : s.slots[i]? = some x)
    (f : Slot → Slot) (hk : (f x).kind = x.kind) (hi : x.pc = .idle ↔ (f x).pc = .idle)
    (hf : x.pc = .idle → (f x).failed = x.failed) (h1 : s'.results = s.results) (h2 : s'.log = s.log)
    (h3 : s'.slots = s.slots.modify i f) : CInv res s' := by
  have hw : simWeight (f x) = simWeight x := by
    unfold simWeight
    rw [hk]
    by_cases hp : x.pc = .idle
    · simp [hp, hi.mp hp, hf hp]
    · simp [hp, mt hi.mpr hp]
  have hd : ∀ k, doneWeight k (f x) = doneWeight k x := by
    intro k
    unfold doneWeight
    rw [hk]
    by_cases hp : x.pc = .idle
    · simp [hp, hi.mp hp, hf hp]
    · simp [hp, mt hi.mpr hp]
  refine ⟨?_, ?_, ?_⟩
  · rw [h1, h2]; exact h.performed
  · rw [h1, h2, h3, h.started]
    have := sum_modify_le (w := simWeight) (f := f) hx rfl hw
    omega
  · intro k hk'
    rw [h2, h3, h.once k hk']
    have := sum_modify_le (w := doneWeight k) (f := f) hx rfl (hd k)
    omega

theorem step_cinv {env : ParEnv} {cfg : Configuration} {res : Results} {s s' : PState} (hb : Base env cfg s) (h : CInv res s)
    (hst : Step env s s') : CInv res s' := by
  cases hst with
  | construct i x hx hp hm => exact h.worker hx _ rfl (by simp [hp]) (by simp [hp]) rfl rfl rfl
  | constructThrows i x hx hp hb ht hz hm => exact h.worker hx _ rfl (by simp [hp]) (by simp [hp]) rfl rfl rfl
  | constructTerminates i x hx hp hb ht hz hm => exact ⟨h.performed, h.started, h.once⟩
  | stimulusThrows i x hx hp hk ht hm => exact h.worker hx _ rfl (by simp [hp]) (by simp [hp]) rfl rfl rfl
  | begin i x hx hp hd hm => exact h.worker hx _ rfl (by simp [hp]) (by simp [hp]) rfl rfl rfl
  | skip i x hx hp hd hm => exact h.worker hx _ rfl (by simp [hp]) (by simp [hp]) rfl rfl rfl
  | runReturns i x c hx hp hc hm => exact h.worker hx _ rfl (by simp [hp]) (by simp [hp]) rfl rfl rfl
  | runThrows i x hx hp ht hm => exact h.worker hx _ rfl (by simp [hp]) (by simp [hp]) rfl rfl rfl
  | push i x hx hp hm => exact h.worker hx _ rfl (by simp [hp]) (by simp [hp]) rfl rfl rfl
  | pop i x q hm hq hx hf =>
    have hpc := hb.head hx hq
    have hp := handle_performed s.cfg s.results x.kind x.eq
    have hs := handle_started s.cfg s.results x.kind x.eq
    refine ⟨?_, ?_, ?_⟩
    · show (handle s.cfg s.results x.kind x.eq).1.performedSimulations = _ + performedIn (s.log ++ [⟨x.kind, x.eq⟩])
      rw [hp, h.performed]
      unfold performedIn
      rw [List.filter_append, List.length_append, Nat.add_assoc]
      congr 2
      by_cases h1 : x.kind = .simulation <;> by_cases h2 : x.eq = .noInformation <;> simp [h1, h2]
    · show (handle s.cfg s.results x.kind x.eq).1.startedSimulations = _ + simsIn (s.log ++ [⟨x.kind, x.eq⟩]) +
        ((s.slots.modify i _).map simWeight).sum
      have hst := h.started
      unfold simsIn at hst ⊢
      rw [List.filter_append, List.length_append]
      by_cases hk : x.kind = .simulation
      · by_cases hr : (handle s.cfg s.results x.kind x.eq).2 = .relaunch
        · have := sum_modify_le (w := simWeight) (a := 1) (b := 1)
            (f := fun y => { y with pc := if (handle s.cfg s.results x.kind x.eq).2 = .relaunch then .start else .idle }) hx
            (by simp [simWeight, hk, hpc]) (by simp only [hr, if_true]; simp [simWeight, hk])
          have hs' := (hs.resolve_right fun h' => h'.1 hr).2
          simp only [hk, decide_true, List.filter_cons_of_pos, List.filter_nil, List.length_cons, List.length_nil]
          simp only [hk] at this hs' ⊢
          omega
        · have := sum_modify_le (w := simWeight) (a := 1) (b := 0)
            (f := fun y => { y with pc := if (handle s.cfg s.results x.kind x.eq).2 = .relaunch then .start else .idle }) hx
            (by simp [simWeight, hk, hpc]) (by simp [simWeight, hr, hf])
          have hs' := (hs.resolve_left fun h' => hr h'.1).2
          simp only [hk, decide_true, List.filter_cons_of_pos, List.filter_nil, List.length_cons, List.length_nil]
          simp only [hk] at this hs' ⊢
          omega
      · have hr : (handle s.cfg s.results x.kind x.eq).2 ≠ .relaunch := fun hr => hk (handle_relaunch hr).1
        have := sum_modify_le (w := simWeight) (a := 0) (b := 0)
          (f := fun y => { y with pc := if (handle s.cfg s.results x.kind x.eq).2 = .relaunch then .start else .idle }) hx
          (by simp [simWeight, hk]) (by simp [simWeight, hk])
        have hs' := (hs.resolve_left fun h' => hr h'.1).2
        simp only [hk, decide_false, List.filter_cons_of_neg, Bool.false_eq_true, not_false_eq_true, List.filter_nil,
          List.length_nil]
        omega
    · intro k hk
      show ofKind k (s.log ++ [⟨x.kind, x.eq⟩]) = ((s.slots.modify i _).map (doneWeight k)).sum
      have ho := h.once k hk
      unfold ofKind at ho ⊢
      rw [List.filter_append, List.length_append, ho]
      by_cases hk' : x.kind = k
      · have hr : (handle s.cfg s.results x.kind x.eq).2 ≠ .relaunch := fun hr => hk (hk' ▸ (handle_relaunch hr).1)
        have := sum_modify_le (w := doneWeight k) (a := 0) (b := 1)
          (f := fun y => { y with pc := if (handle s.cfg s.results x.kind x.eq).2 = .relaunch then .start else .idle }) hx
          (by simp [doneWeight, hpc]) (by simp only [if_neg hr]; simp [doneWeight, hk', hf])
        simp only [hk', decide_true, List.filter_cons_of_pos, List.filter_nil, List.length_cons, List.length_nil]
        simp only [hk'] at this
        omega
      · have := sum_modify_le (w := doneWeight k) (a := 0) (b := 0)
          (f := fun y => { y with pc := if (handle s.cfg s.results x.kind x.eq).2 = .relaunch then .start else .idle }) hx
          (by simp [doneWeight, hk']) (by simp [doneWeight, hk'])
        simp only [hk', decide_false, List.filter_cons_of_neg, Bool.false_eq_true, not_false_eq_true, List.filter_nil,
          List.length_nil]
        omega
  | popThrows i x q hm hq hx hf =>
    have hpc := hb.head hx hq
    refine ⟨h.performed, ?_, ?_⟩
    · show s.results.startedSimulations = _ + simsIn s.log + ((s.slots.modify i _).map simWeight).sum
      rw [h.started]
      have := sum_modify_le (w := simWeight) (f := fun y => { y with pc := .idle }) hx rfl
        (b := simWeight x) (by simp [simWeight, hpc, hf])
      omega
    · intro k hk
      show ofKind k s.log = ((s.slots.modify i _).map (doneWeight k)).sum
      rw [h.once k hk]
      have := sum_modify_le (w := doneWeight k) (f := fun y => { y with pc := .idle }) hx rfl
        (b := doneWeight k x) (by simp [doneWeight, hf])
      omega
  | timeout hm ht => exact ⟨h.performed, h.started, h.once⟩
  | signal i x hm hx => exact h.worker hx _ rfl (by simp) (by simp) rfl rfl rfl
  | signalledAll i hm hi => exact ⟨h.performed, h.started, h.once⟩
  | join hm hf => exact ⟨h.performed, h.started, h.once⟩
  | unwind hm hf => exact ⟨h.performed, h.started, h.once⟩

theorem reachable_cinv {env : ParEnv} {cfg : Configuration} {res : Results} {s : PState} (h : Reachable env cfg res s) :
    CInv res s :=
  h.induct (launch_cinv _ cfg res) fun _ _ hb hc hst => step_cinv hb hc hst

end QCEC.Par
