import Verif.Props.Parallel
import Verif.Props.SequentialWitness
/-!
# Concrete executions of the parallel flow

They show that the hypotheses of the theorems in `Verif/Props/Parallel.lean` are met, and that C13/C16 (contradicting evidence),
C15 (the run returns) and C18 (an exception reaches the caller) fail in general.
-/
namespace QCEC.Props
open QCEC QCEC.Mgr QCEC.Spec QCEC.Par

/-- A scheduling decision (only those needed for the executions below). -/
inductive Move
  | construct (i : Nat)
  | constructThrows (i : Nat)
  | begin (i : Nat)
  | skip (i : Nat)
  | runReturns (i : Nat) (c : Criterion)
  | push (i : Nat)
  | pop
  | popThrows
  | timeout
  | signal
  | join
  | unwind

/-- Environment given by lists of answers and the checkers whose constructor throws. -/
def listEnv (answers : Kind → List Criterion) (throws : Kind → Bool) : ParEnv :=
  { may := fun k c => c ∈ answers k, ctorMayThrow := fun k => throws k = true, runMayThrow := fun _ => False,
    zxTransformable := true }

/-- The main thread has not ended. -/
def alive (s : PState) : Bool := match s.main with
  | .ended _ => false
  | _ => true

theorem alive_spec {s : PState} (h : alive s = true) : ∀ e, s.main ≠ .ended e := by
  intro e he
  unfold alive at h
  rw [he] at h
  simp at h

/-- Perform a move if it is possible. -/
def exec (answers : Kind → List Criterion) (throws : Kind → Bool) (s : PState) : Move → Option PState
  | .construct i => match s.slots[i]? with
    | some x => if x.pc = .start ∧ alive s = true then some (s.upd i fun y => { y with pc := .built, built := true }) else none
    | none => none
  | .constructThrows i => match s.slots[i]? with
    | some x => if x.pc = .start ∧ x.built = false ∧ throws x.kind = true ∧ x.kind ≠ .zx ∧ alive s = true then
        some (s.upd i fun y => { y with pc := .pushing, failed := true }) else none
    | none => none
  | .begin i => match s.slots[i]? with
    | some x => if x.pc = .built ∧ s.done = false ∧ alive s = true then some (s.upd i fun y => { y with pc := .running }) else none
    | none => none
  | .skip i => match s.slots[i]? with
    | some x => if x.pc = .built ∧ s.done = true ∧ alive s = true then some (s.upd i fun y => { y with pc := .pushing }) else none
    | none => none
  | .runReturns i c => match s.slots[i]? with
    | some x => if x.pc = .running ∧ c ∈ answers x.kind ∧ alive s = true then
        some (s.upd i fun y => { y with pc := .pushing, eq := c }) else none
    | none => none
  | .push i => match s.slots[i]? with
    | some x => if x.pc = .pushing ∧ alive s = true then
        some { s.upd i (fun y => { y with pc := .queued }) with queue := s.queue ++ [i] } else none
    | none => none
  | .pop => match s.queue with
    | i :: q => match s.slots[i]? with
      | some x => if s.main = .wait ∧ x.failed = false then some (s.popped i x q) else none
      | none => none
    | [] => none
  | .popThrows => match s.queue with
    | i :: q => match s.slots[i]? with
      | some x => if s.main = .wait ∧ x.failed = true then
          some { s.upd i (fun y => { y with pc := .idle }) with queue := q, main := .unwinding } else none
      | none => none
    | [] => none
  | .timeout => if s.main = .wait ∧ s.queue = [] ∧ s.cfg.execution.timeout > 0 then
      some { s with done := true, main := .signalling 0, timedOut := true } else none
  | .signal => match s.main with
    | .signalling i => match s.slots[i]? with
      | some _ => some { s.upd i (fun y => { y with signalled := y.signalled || y.built }) with main := .signalling (i + 1) }
      | none => some { s with main := .joining }
    | _ => none
  | .join => if s.main = .joining ∧ ∀ x ∈ s.slots, x.finished = true then
      some { s with main := .ended (if ∀ x ∈ s.slots, x.built = true then .returned else .undefinedBehaviour) } else none
  | .unwind => if s.main = .unwinding ∧ ∀ x ∈ s.slots, x.finished = true then
      some { s with main := .ended .threw } else none

theorem exec_step {answers : Kind → List Criterion} {throws : Kind → Bool} {s s' : PState} {m : Move}
    (h : exec answers throws s m = some s') : Step (listEnv answers throws) s s' := by
  cases m with
  | construct i =>
    simp only [exec] at h
    split at h
    · rename_i x hx
      split at h
      · rename_i hc; cases h; exact .construct s i x hx hc.1 (alive_spec hc.2)
      · simp at h
    · simp at h
  | constructThrows i =>
    simp only [exec] at h
    split at h
    · rename_i x hx
      split at h
      · rename_i hc; cases h; exact .constructThrows s i x hx hc.1 hc.2.1 hc.2.2.1 hc.2.2.2.1 (alive_spec hc.2.2.2.2)
      · simp at h
    · simp at h
  | begin i =>
    simp only [exec] at h
    split at h
    · rename_i x hx
      split at h
      · rename_i hc; cases h; exact .begin s i x hx hc.1 hc.2.1 (alive_spec hc.2.2)
      · simp at h
    · simp at h
  | skip i =>
    simp only [exec] at h
    split at h
    · rename_i x hx
      split at h
      · rename_i hc; cases h; exact .skip s i x hx hc.1 hc.2.1 (alive_spec hc.2.2)
      · simp at h
    · simp at h
  | runReturns i c =>
    simp only [exec] at h
    split at h
    · rename_i x hx
      split at h
      · rename_i hc; cases h; exact .runReturns s i x c hx hc.1 hc.2.1 (alive_spec hc.2.2)
      · simp at h
    · simp at h
  | push i =>
    simp only [exec] at h
    split at h
    · rename_i x hx
      split at h
      · rename_i hc; cases h; exact .push s i x hx hc.1 (alive_spec hc.2)
      · simp at h
    · simp at h
  | pop =>
    simp only [exec] at h
    split at h
    · rename_i i q hq
      split at h
      · rename_i x hx
        split at h
        · rename_i hc; cases h; exact .pop s i x q hc.1 hq hx hc.2
        · simp at h
      · simp at h
    · simp at h
  | popThrows =>
    simp only [exec] at h
    split at h
    · rename_i i q hq
      split at h
      · rename_i x hx
        split at h
        · rename_i hc; cases h; exact .popThrows s i x q hc.1 hq hx hc.2
        · simp at h
      · simp at h
    · simp at h
  | timeout =>
    simp only [exec] at h
    split at h
    · rename_i hc; cases h; exact .timeout s hc.1 hc.2.2
    · simp at h
  | signal =>
    simp only [exec] at h
    split at h
    · rename_i i hm
      split at h
      · rename_i x hx; cases h; exact .signal s i x hm hx
      · rename_i hx; cases h; exact .signalledAll s i hm (List.getElem?_eq_none_iff.mp hx)
    · simp at h
  | join =>
    simp only [exec] at h
    split at h
    · rename_i hc; cases h; exact .join s hc.1 hc.2
    · simp at h
  | unwind =>
    simp only [exec] at h
    split at h
    · rename_i hc; cases h; exact .unwind s hc.1 hc.2
    · simp at h

/-- Perform a list of moves. -/
def execAll (answers : Kind → List Criterion) (throws : Kind → Bool) : PState → List Move → Option PState
  | s, [] => some s
  | s, m :: ms => match exec answers throws s m with
    | some s' => execAll answers throws s' ms
    | none => none

theorem Steps.head {env : ParEnv} {a b c : PState} (h : Step env a b) (h' : Steps env b c) : Steps env a c := by
  induction h' with
  | refl => exact .tail (.refl a) h
  | tail _ hst ih => exact .tail ih hst

theorem execAll_steps {answers : Kind → List Criterion} {throws : Kind → Bool} : ∀ (ms : List Move) {s s' : PState},
    execAll answers throws s ms = some s' → Steps (listEnv answers throws) s s' := by
  intro ms
  induction ms with
  | nil => intro s s' h; simp only [execAll, Option.some.injEq] at h; subst h; exact .refl s
  | cons m ms ih =>
    intro s s' h
    simp only [execAll] at h
    split at h
    · rename_i t ht
      exact Steps.head (exec_step ht) (ih h)
    · simp at h

/-- Configuration for the parallel flow. -/
def parCfg (sim alt con zx : Bool) (maxSims threads : Nat) (timeout : Rat) : Configuration :=
  { execution :=
      { numericalTolerance := 0, parallel := true, nthreads := threads, timeout := timeout, runConstructionChecker := con,
        runSimulationChecker := sim, runAlternatingChecker := alt, runZXChecker := zx },
    simulation := { maxSims := maxSims } }

/-- A complete check of the worker `i`. -/
def full (i : Nat) (c : Criterion) : List Move := [.construct i, .begin i, .runReturns i c, .push i, .pop]

/-- What the examples look at. -/
def view (s : PState) : MPc × Criterion × List Event × List WPc × Nat :=
  (s.main, s.results.equivalence, s.log, s.slots.map (·.pc), s.results.performedSimulations)

theorem exists_of_view {answers : Kind → List Criterion} {throws : Kind → Bool} {cfg : Configuration} (ms : List Move)
    {v : MPc × Criterion × List Event × List WPc × Nat}
    (h : (execAll answers throws (launch true cfg {}) ms).map view = some v) :
    ∃ s, Reachable (listEnv answers throws) cfg {} s ∧ view s = v := by
  cases hs : execAll answers throws (launch true cfg {}) ms with
  | none => rw [hs] at h; simp at h
  | some s =>
    rw [hs] at h
    simp only [Option.map_some, Option.some.injEq] at h
    exact ⟨s, execAll_steps ms hs, h⟩

/-- Answers: every simulation passes, the other checkers have the given answers. -/
def answering (alt con zx : Criterion) : Kind → List Criterion
  | .simulation => [.probablyEquivalent]
  | .alternating => [alt]
  | .construction => [con]
  | .zx => [zx]

theorem answering_zx {alt con zx : Criterion} {throws : Kind → Bool}
    (h : zx = .equivalent ∨ zx = .equivalentUpToGlobalPhase ∨ zx = .probablyNotEquivalent ∨ zx = .noInformation) :
    ZXAnswers (listEnv (answering alt con zx) throws) := by
  intro c hc
  simp only [listEnv, answering, List.mem_singleton] at hc
  subst hc
  exact h

theorem answering_ends {alt con zx : Criterion} {throws : Kind → Bool} : RunsEnd (listEnv (answering alt con zx) throws) := by
  intro k
  cases k <;> simp [listEnv, answering]

/-- **C15 is false of the code**: with simulations and the ZX checker only and no timeout, a run in which the ZX checker gives no
answer and all simulations pass waits forever: a state is reachable in which the run has not ended and nothing can happen. -/
theorem parallel_can_wait_forever :
    ∃ s, Reachable (listEnv (answering .equivalent .equivalent .noInformation) fun _ => false)
        (parCfg true false false true 1 2 0) {} s ∧
      s.main = .wait ∧ s.results.equivalence = .probablyEquivalent ∧ s.results.performedSimulations = 1 ∧
      ∀ s', ¬ Step (listEnv (answering .equivalent .equivalent .noInformation) fun _ => false) s s' := by
  obtain ⟨s, hs, hv⟩ := exists_of_view (answers := answering .equivalent .equivalent .noInformation) (throws := fun _ => false)
    (cfg := parCfg true false false true 1 2 0)
    (full 0 .noInformation ++ full 1 .probablyEquivalent)
    (v := (.wait, .probablyEquivalent, [⟨.zx, .noInformation⟩, ⟨.simulation, .probablyEquivalent⟩], [.idle, .idle], 1))
    (by decide +kernel)
  simp only [view, Prod.mk.injEq] at hv
  obtain ⟨hm, he, hl, hp, hn⟩ := hv
  refine ⟨s, hs, hm, he, hn, ?_⟩
  intro s' hst
  have hb := reachable_base hs
  have hidle : ∀ (i : Nat) (x : Slot), s.slots[i]? = some x → x.pc = .idle := by
    intro i x hx
    have h1 : x.pc ∈ s.slots.map (·.pc) := List.mem_map_of_mem (List.mem_of_getElem? hx)
    rw [hp] at h1
    simpa using h1
  have hq : s.queue = [] := by
    cases hq : s.queue with
    | nil => rfl
    | cons i q =>
      obtain ⟨x, hx, hpc⟩ := (hb.queue i).mp (by rw [hq]; simp)
      rw [hidle i x hx] at hpc
      simp at hpc
  cases hst with
  | construct i x hx hp' hn => rw [hidle i x hx] at hp'; simp at hp'
  | constructThrows i x hx hp' hb ht hz hn => rw [hidle i x hx] at hp'; simp at hp'
  | constructTerminates i x hx hp' hb ht hz hn => rw [hidle i x hx] at hp'; simp at hp'
  | stimulusThrows i x hx hp' hk ht hn => rw [hidle i x hx] at hp'; simp at hp'
  | begin i x hx hp' hd hn => rw [hidle i x hx] at hp'; simp at hp'
  | skip i x hx hp' hd hn => rw [hidle i x hx] at hp'; simp at hp'
  | runReturns i x c hx hp' hc hn => rw [hidle i x hx] at hp'; simp at hp'
  | runThrows i x hx hp' ht hn => rw [hidle i x hx] at hp'; simp at hp'
  | push i x hx hp' hn => rw [hidle i x hx] at hp'; simp at hp'
  | pop i x q hw hq' hx hf => rw [hq] at hq'; simp at hq'
  | popThrows i x q hw hq' hx hf => rw [hq] at hq'; simp at hq'
  | timeout hw ht =>
    rw [hb.conf, (launch_flags _ _).2.2] at ht
    revert ht
    decide +kernel
  | signal i x hw hx => rw [hm] at hw; simp at hw
  | signalledAll i hw hi => rw [hm] at hw; simp at hw
  | join hj hf => rw [hm] at hj; simp at hj
  | unwind hu hf => rw [hm] at hu; simp at hu

/-- **C13/C16**: contradicting evidence ends the run even though a checker that would settle the question is still running: the
same circuits, checkers and configuration give `NotEquivalent` or `NoInformation`, depending on the interleaving. -/
theorem parallel_verdict_depends_on_schedule :
    let env := listEnv (answering .notEquivalent .notEquivalent .probablyNotEquivalent) fun _ => false
    let cfg := parCfg true true false true 1 3 0
    (∃ s, Reachable env cfg {} s ∧ s.main = .ended .returned ∧ s.results.equivalence = .notEquivalent) ∧
    (∃ s, Reachable env cfg {} s ∧ s.main = .ended .returned ∧ s.results.equivalence = .noInformation) := by
  refine ⟨?_, ?_⟩
  · obtain ⟨s, hs, hv⟩ := exists_of_view (answers := answering .notEquivalent .notEquivalent .probablyNotEquivalent)
      (throws := fun _ => false) (cfg := parCfg true true false true 1 3 0)
      (full 0 .notEquivalent ++ [.construct 1, .skip 1, .push 1, .construct 2, .skip 2, .push 2, .signal, .signal, .signal,
        .signal, .join])
      (v := (.ended .returned, .notEquivalent, [⟨.alternating, .notEquivalent⟩], [.idle, .queued, .queued], 0))
      (by decide +kernel)
    simp only [view, Prod.mk.injEq] at hv
    exact ⟨s, hs, hv.1, hv.2.1⟩
  · obtain ⟨s, hs, hv⟩ := exists_of_view (answers := answering .notEquivalent .notEquivalent .probablyNotEquivalent)
      (throws := fun _ => false) (cfg := parCfg true true false true 1 3 0)
      ([.construct 0, .begin 0] ++ full 2 .probablyEquivalent ++ full 1 .probablyNotEquivalent ++
        [.signal, .signal, .signal, .signal, .runReturns 0 .notEquivalent, .push 0, .join])
      (v := (.ended .returned, .noInformation, [⟨.simulation, .probablyEquivalent⟩, ⟨.zx, .probablyNotEquivalent⟩],
        [.queued, .idle, .idle], 1))
      (by decide +kernel)
    simp only [view, Prod.mk.injEq] at hv
    exact ⟨s, hs, hv.1, hv.2.1⟩

/-- **C18 is false of the code** in one respect: if the constructor of a checker throws and another checker settles the question
first, the exception is lost and the report dereferences a null pointer (`EquivalenceCheckingManager.cpp:339-343`). -/
theorem parallel_null_checker :
    ∃ s, Reachable (listEnv (answering .equivalent .equivalent .equivalent) fun k => decide (k = .construction))
        (parCfg false true true false 0 2 0) {} s ∧
      s.main = .ended .undefinedBehaviour ∧ s.results.equivalence = .equivalent := by
  obtain ⟨s, hs, hv⟩ := exists_of_view (answers := answering .equivalent .equivalent .equivalent)
    (throws := fun k => decide (k = .construction)) (cfg := parCfg false true true false 0 2 0)
    (full 0 .equivalent ++ [.constructThrows 1, .push 1, .signal, .signal, .signal, .join])
    (v := (.ended .undefinedBehaviour, .equivalent, [⟨.alternating, .equivalent⟩], [.idle, .queued], 0))
    (by decide +kernel)
  simp only [view, Prod.mk.injEq] at hv
  exact ⟨s, hs, hv.1, hv.2.1⟩

/-- **C18/C47**: an exception does not stop the other checkers: a state is reachable in which the exception is on its way to the
caller, which waits for a checker that runs and has not been told to stop. -/
theorem parallel_exception_waits :
    ∃ s, Reachable (listEnv (answering .equivalent .equivalent .equivalent) fun k => decide (k = .construction))
        (parCfg false true true false 0 2 0) {} s ∧
      s.main = .unwinding ∧ ∃ x ∈ s.slots, x.pc = .running ∧ x.signalled = false := by
  let ms : List Move := [.construct 0, .begin 0, .constructThrows 1, .push 1, .popThrows]
  have hx : (execAll (answering .equivalent .equivalent .equivalent) (fun k => decide (k = .construction))
      (launch true (parCfg false true true false 0 2 0) {}) ms).map (fun s => (s.main, s.slots.map fun x => (x.pc, x.signalled)))
      = some (.unwinding, [(.running, false), (.idle, false)]) := by decide +kernel
  cases hs : execAll (answering .equivalent .equivalent .equivalent) (fun k => decide (k = .construction))
      (launch true (parCfg false true true false 0 2 0) {}) ms with
  | none => rw [hs] at hx; simp at hx
  | some s =>
    rw [hs] at hx
    simp only [Option.map_some, Option.some.injEq, Prod.mk.injEq] at hx
    refine ⟨s, execAll_steps ms hs, hx.1, ?_⟩
    have : (WPc.running, false) ∈ s.slots.map fun x => (x.pc, x.signalled) := by rw [hx.2]; simp
    obtain ⟨x, hx1, hx2⟩ := List.mem_map.mp this
    simp only [Prod.mk.injEq] at hx2
    exact ⟨x, hx1, hx2.1, hx2.2⟩

/-! ## The hypotheses of the theorems are met -/

/-- A run with all checkers that is interrupted by the deadline after two passed simulations. -/
example : ∃ s, Reachable (listEnv (answering .equivalent .equivalent .equivalent) fun _ => false)
    (parCfg true true true true 4 4 1) {} s ∧ s.main = .signalling 0 ∧ s.results.equivalence = .probablyEquivalent ∧
    s.results.performedSimulations = 2 := by
  obtain ⟨s, hs, hv⟩ := exists_of_view (answers := answering .equivalent .equivalent .equivalent)
    (throws := fun _ => false) (cfg := parCfg true true true true 4 4 1)
    (full 3 .probablyEquivalent ++ full 3 .probablyEquivalent ++ [.timeout])
    (v := (.signalling 0, .probablyEquivalent, [⟨.simulation, .probablyEquivalent⟩, ⟨.simulation, .probablyEquivalent⟩],
      [.start, .start, .start, .start], 2))
    (by decide +kernel)
  simp only [view, Prod.mk.injEq] at hv
  exact ⟨s, hs, hv.1, hv.2.1, hv.2.2.2.2⟩

/-- Simulations only: four of them on two threads, all pass. -/
example : ∃ s, Reachable (listEnv (answering .equivalent .equivalent .equivalent) fun _ => false)
    (parCfg true false false false 4 2 0) {} s ∧ s.main = .ended .returned ∧ s.results.equivalence = .probablyEquivalent ∧
    s.results.performedSimulations = 4 := by
  obtain ⟨s, hs, hv⟩ := exists_of_view (answers := answering .equivalent .equivalent .equivalent)
    (throws := fun _ => false) (cfg := parCfg true false false false 4 2 0)
    (full 0 .probablyEquivalent ++ full 1 .probablyEquivalent ++ full 1 .probablyEquivalent ++ full 0 .probablyEquivalent ++
      [.signal, .signal, .signal, .join])
    (v := (.ended .returned, .probablyEquivalent, [⟨.simulation, .probablyEquivalent⟩, ⟨.simulation, .probablyEquivalent⟩,
      ⟨.simulation, .probablyEquivalent⟩, ⟨.simulation, .probablyEquivalent⟩], [.idle, .idle], 4))
    (by decide +kernel)
  simp only [view, Prod.mk.injEq] at hv
  exact ⟨s, hs, hv.1, hv.2.1, hv.2.2.2.2⟩

example : ParCfg (parCfg true false false true 1 2 0) ∧
    ZXAnswers (listEnv (answering .equivalent .equivalent .noInformation) fun _ => false) ∧
    RunsEnd (listEnv (answering .equivalent .equivalent .noInformation) fun _ => false) :=
  ⟨⟨by decide, by decide⟩, answering_zx (by simp), answering_ends⟩

end QCEC.Props
