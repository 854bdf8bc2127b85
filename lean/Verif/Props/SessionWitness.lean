import Verif.Props.Session
import Verif.Props.ParallelWitness
/-!
# Concrete histories (C78): results that do not describe the last run alone
-/
namespace QCEC.Props.SessionWitness
open QCEC QCEC.Mgr QCEC.Par QCEC.Session QCEC.Props

/-- A run that is not parallel, as a function. -/
def again (env : Env) (fuel : Nat) (time : Rat) (o : Obj) : Option Obj :=
  (stateOf (run env fuel o.state)).map fun s => o.after s (if storesTime env fuel o.state then time else o.checkTime)

theorem again_call {env : Env} {fuel : Nat} {time : Rat} {o o' : Obj} (penv : ParEnv) (h : again env fuel time o = some o')
    (hn : none ∉ o.table) (he : env.bothEmpty = true ↔ o.qc1.numGates = 0 ∧ o.qc2.numGates = 0) :
    Call o (.run time (if storesTime env fuel o.state then .complete else .early) o'.log) o' := by
  unfold again at h
  cases hr : run env fuel o.state with
  | none => rw [hr] at h; simp [stateOf] at h
  | some e =>
    rw [hr] at h
    cases e with
    | returned s =>
      simp only [stateOf, Option.map_some, Option.some.injEq] at h
      subst h
      exact .run o _ env penv time _ he (.returned fuel s hr (.inl hn))
    | threw s => simp [stateOf] at h
    | terminated => simp [stateOf] at h
    | diverged => simp [stateOf] at h

/-- Two circuits of two qubits. -/
def left : Info := { name := "left", numQubits := 2, numMeasured := 1, numGates := 3 }
/-- The second circuit. -/
def right : Info := { name := "right", numQubits := 2, numMeasured := 1, numGates := 5 }

/-- Simulations and construction checker, counterexample inputs kept. -/
def keeping : Configuration :=
  { testCfg true false true false 3 0 with simulation := { maxSims := 3, storeCEXinput := true } }

/-- The manager after construction, which took two seconds. -/
def start : Obj := construct left right (Configuration.default 8 0) keeping 2

/-- The second simulation finds a counterexample. -/
def differing : Env := testEnv (fun k => if k = 1 then some .notEquivalent else some .probablyEquivalent) .ctorThrows (.returns .notEquivalent) .ctorThrows

/-- A possible parallel environment (not used by the runs here). -/
def someEnv : ParEnv := listEnv (answering .equivalent .equivalent .equivalent) (fun _ => false)

/-- The first run, of seven seconds. -/
theorem first_run : ∃ o, again differing 9 7 start = some o ∧ o.core.equivalence = .notEquivalent ∧ o.core.cexInput = some 1 ∧
    o.table = [some .simulation] ∧ o.checkTime = 7 ∧ o.preprocessingTime = 2 ∧ o.recorded1 = left ∧ o.recorded2 = right ∧ o.qc1 = left ∧ o.qc2 = right ∧
    o.core.performedSimulations = 2 ∧ o.log = [⟨.simulation, .probablyEquivalent⟩, ⟨.simulation, .notEquivalent⟩] ∧ o.cfg = keeping ∧ o.recordedCfg = keeping :=
  ⟨_, rfl, rfl, rfl, rfl, rfl, rfl, rfl, rfl, rfl, rfl, rfl, rfl, rfl, rfl⟩

/-- **A counterexample stays**: a run refutes the circuits; the user turns partial equivalence checking on and runs again; now the circuits are
found equivalent, but the results still show the counterexample of the first run. -/
theorem stale_counterexample : ∃ t o, Trace start t o ∧ o.core.equivalence = .equivalent ∧ o.core.cexInput = some 1 ∧
    o.recordedCfg.functionality.checkPartialEquivalence = true ∧ ¬ Refuted o.log := by
  refine ⟨_, _, .cons (.cons (.cons .nil (again_call someEnv (env := differing) (time := 7) (o := start) (o' := (again differing 9 7 start).get rfl) (fuel := 9) rfl ?_ ?_))
    (.set _ (.partialEquivalence true))) (again_call (env := passing) (fuel := 9) (time := 1) someEnv rfl ?_ ?_), rfl, rfl, rfl, ?_⟩
  · simp [start, construct]
  · simp [start, construct, left, differing, testEnv]
  · show none ∉ [some Kind.simulation]
    simp
  · show false = true ↔ (3 = 0 ∧ 5 = 0)
    simp
  · show ¬ (_ ∈ [(⟨.simulation, .probablyEquivalent⟩ : Event), ⟨.construction, .equivalent⟩])
    simp

/-- **Times and counters stay**: after a run of seven seconds all checkers are disabled; the next run executes nothing, says so by its verdict, and still
shows seven seconds, two simulations, the counterexample and the checker of the first run. -/
theorem stale_time : ∃ t o, Trace start t o ∧ o.core.equivalence = .noInformation ∧ o.log = [] ∧ o.checkTime = 7 ∧ o.core.performedSimulations = 2 ∧
    o.core.cexInput = some 1 ∧ o.core.checkerResults = [.simulation] ∧ o.recordedCfg.anythingToExecute = false := by
  refine ⟨_, _, .cons (.cons (.cons .nil (again_call someEnv (env := differing) (time := 7) (o := start) (o' := (again differing 9 7 start).get rfl) (fuel := 9) rfl ?_ ?_))
    (.set _ .disableAll)) (again_call (env := passing) (fuel := 9) (time := 1) someEnv rfl ?_ ?_), rfl, rfl, rfl, rfl, rfl, rfl, rfl⟩
  · simp [start, construct]
  · simp [start, construct, left, differing, testEnv]
  · show none ∉ [some Kind.simulation]
    simp
  · show false = true ↔ (3 = 0 ∧ 5 = 0)
    simp

/-- **`reset()` forgets the preprocessing time**: a run after it shows zero although the preprocessing took two seconds. -/
theorem reset_forgets_preprocessing : ∃ t o, Trace start t o ∧ o.preprocessingTime = 0 ∧ o.core.equivalence = .notEquivalent ∧
    start.preprocessingTime = 2 := by
  refine ⟨_, _, .cons (.cons .nil (.reset _)) (again_call someEnv (env := differing) (fuel := 9) (time := 7) rfl ?_ ?_), rfl, rfl, rfl⟩
  · simp [start, construct, Obj.reset]
  · simp [start, construct, left, Obj.reset, differing, testEnv]

/-- Alternating and ZX checker in parallel, circuits the ZX checker does not support. -/
def both : Configuration := parCfg false true false true 0 2 0

/-- The circuits cannot be transformed to ZX diagrams. -/
def unsupported : Env := { passing with zxTransformable := false }

theorem unsupported_run : ∃ p, execAll (answering .equivalent .equivalent .equivalent) (fun _ => false)
      (launchAgain false both {} []) (full 0 .equivalent ++ [.signal, .signal, .join]) = some p ∧
    p.main = .ended .returned ∧ p.results.equivalence = .equivalent ∧ p.cfg.execution.runZXChecker = false :=
  ⟨_, rfl, rfl, rfl, rfl⟩

/-- **The recorded configuration is not the one used**: the results say the ZX checker was enabled; the run has switched it off, and it stays off. -/
theorem recorded_not_used : ∃ t o, Trace (construct left right (Configuration.default 8 0) both 2) t o ∧
    o.core.equivalence = .equivalent ∧ o.recordedCfg.execution.runZXChecker = true ∧ o.cfg.execution.runZXChecker = false := by
  obtain ⟨p, hp, he, hq, hz⟩ := unsupported_run
  refine ⟨_, _, .cons .nil (.run _ _ unsupported (listEnv (answering .equivalent .equivalent .equivalent) (fun _ => false)) 7 .complete ?_
    (.parallel [] p rfl rfl (execAll_steps _ hp) he)), hq, rfl, hz⟩
  show false = true ↔ (3 = 0 ∧ 5 = 0)
  simp

end QCEC.Props.SessionWitness
