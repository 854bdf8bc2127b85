import Verif.Model.Parallel
import Verif.Model.Setters
/-!
# The life of a manager object

The manager between public calls, `include/EquivalenceCheckingManager.hpp:38-68,255-265`, and the public calls that can be made on it in any
order: setters (`EquivalenceCheckingManager.hpp:119-249`), the optimization methods (`src/EquivalenceCheckingManager.cpp:897-935`), `reset()`
(`EquivalenceCheckingManager.hpp:104-108`) and `run()` (`EquivalenceCheckingManager.cpp:293-352`) in all its flows.  The flows themselves are those of
`Model/Manager.lean` and `Model/Parallel.lean`; this module adds the fields of `Results` they leave out: names and sizes, the recorded
configuration and the two times.

Simplifications: measured times are arbitrary numbers; an optimization method may change the circuits and the optimization flags arbitrarily; the verdicts held by
checkers left over from an earlier run are arbitrary; runs that end the process or have undefined behaviour have no successor; a run other than one that
executes nothing is not followed on an object whose checker table holds null pointers left by an exception (its report loop would dereference them).
-/
namespace QCEC.Session
open QCEC QCEC.Mgr QCEC.Par

/-- What `run()` records of a circuit, `EquivalenceCheckingManager.cpp:296-305`; the default is that of `Results`,
`EquivalenceCheckingManager.hpp:39-52`. -/
structure Info where
  name : String := ""
  numQubits : Nat := 0
  numMeasured : Nat := 0
  numAncillae : Nat := 0
  numGates : Nat := 0
  deriving DecidableEq

/-- The manager between two calls, `EquivalenceCheckingManager.hpp:255-265` with `Results`, `EquivalenceCheckingManager.hpp:38-68`.
`plain` is a default-constructed configuration; `log` is ghost: the completed checks of the last run. -/
structure Obj where
  qc1 : Info
  qc2 : Info
  plain : Configuration
  cfg : Configuration
  done : Bool := false
  /-- `checkers`; `none` is a null pointer -/
  table : List (Option Kind) := []
  /-- verdict, counters, counterexample, reports -/
  core : Results := {}
  recorded1 : Info := {}
  recorded2 : Info := {}
  recordedCfg : Configuration
  preprocessingTime : Rat := 0
  checkTime : Rat := 0
  log : List Event := []

/-- The end of the constructor, `EquivalenceCheckingManager.cpp:407-409`, with the circuits and the configuration as adjusted by it (they are modelled in
`Model/Prepare.lean`); `tp` is the measured time. -/
def construct (qc1 qc2 : Info) (plain cfg : Configuration) (tp : Rat) : Obj :=
  { qc1 := qc1, qc2 := qc2, plain := plain, cfg := cfg, recordedCfg := plain, preprocessingTime := tp }

/-- The part of the object `Model/Manager.lean` works on (members in `include/EquivalenceCheckingManager.hpp:252-265`). -/
def Obj.state (o : Obj) : State :=
  { cfg := o.cfg, done := o.done, results := o.core, checkers := o.table.filterMap id, log := o.log }

/-- What `run()` writes first, `EquivalenceCheckingManager.cpp:296-307`. -/
def Obj.record (o : Obj) : Obj := { o with recorded1 := o.qc1, recorded2 := o.qc2, recordedCfg := o.cfg }

/-- `reset`, `EquivalenceCheckingManager.hpp:104-108`: `results = {}; checkers.clear()` (the stimuli generator is in `Model/StateGen.lean`). -/
def Obj.reset (o : Obj) : Obj :=
  { o with core := {}, recorded1 := {}, recorded2 := {}, recordedCfg := o.plain, preprocessingTime := 0, checkTime := 0, table := [] }

/-- The object after a run that is not parallel and ended in state `s` (members in `include/EquivalenceCheckingManager.hpp:252-265`). -/
def Obj.after (o : Obj) (s : State) (time : Rat) : Obj :=
  { o.record with
    cfg := s.cfg, done := s.done, core := s.results, log := s.log, checkTime := time
    table := if none ∈ o.table then o.table else s.checkers.map some }

/-- An entry of `checkers` after a parallel run (`include/EquivalenceCheckingManager.hpp:328-331`). -/
def entry (x : Slot) : Option Kind := if x.built then some x.kind else none

/-- The object after a parallel run that ended in state `p`; if it returned, `run()` appended the reports (`EquivalenceCheckingManager.cpp:337-341`). -/
def Obj.afterParallel (o : Obj) (p : PState) (reported : Bool) (time : Rat) : Obj :=
  { o.record with
    cfg := p.cfg, done := p.done, log := p.log, checkTime := time
    core := if reported then { p.results with checkerResults := p.results.checkerResults ++ p.slots.map (·.kind) } else p.results
    table := p.slots.map entry }

/-- The simulation loop of this run ends with the early `return`, `EquivalenceCheckingManager.cpp:448-454`. -/
def simulationGivesUp (env : Env) (fuel : Nat) (s : State) : Bool :=
  s.cfg.execution.runSimulationChecker &&
    match simLoop env fuel 0 { s.begin with checkers := s.checkers ++ [.simulation] } with
    | .aborted _ => true
    | _ => false

/-- A run that returns reaches the statement that stores the check time: `EquivalenceCheckingManager.cpp:578` unless the loop returns at 453, 837, and 890 unless
the circuits are not supported (886); the returns at 316 and 322 come before. -/
def storesTime (env : Env) (fuel : Nat) (s : State) : Bool :=
  match mode env s.cfg with
  | .nothing => false
  | .empty => false
  | .sequential => !simulationGivesUp env fuel s
  | .parallel => true
  | .symbolic => env.zxTransformable || s.begin.isDone env

/-- How a run that the caller survives ends: it returns having stored its time, it returns early, or an exception reaches the caller (of `src/EquivalenceCheckingManager.cpp:293-352`). -/
inductive Ends
  | complete | early | threw
  deriving DecidableEq, Repr

/-- `run()`; `time` is what the clock measures from the beginning of the flow to its end (`src/EquivalenceCheckingManager.cpp:293-352`). -/
inductive Run (env : Env) (penv : ParEnv) (time : Rat) (o : Obj) : Ends → Obj → Prop
  | returned (fuel : Nat) (s : State) (h : run env fuel o.state = some (.returned s))
      (hn : none ∉ o.table ∨ mode env o.cfg = .nothing ∨ mode env o.cfg = .empty) :
      Run env penv time o (if storesTime env fuel o.state then .complete else .early)
        (o.after s (if storesTime env fuel o.state then time else o.checkTime))
  | threw (fuel : Nat) (s : State) (h : run env fuel o.state = some (.threw s)) (hn : none ∉ o.table) :
      Run env penv time o .threw (o.after s o.checkTime)
  | parallel (old : List Slot) (p : PState) (hm : mode env o.cfg = .parallel) (ho : old.map entry = o.table)
      (h : Steps penv (launchAgain env.zxTransformable o.cfg o.core old) p) (he : p.main = .ended .returned) :
      Run env penv time o .complete (o.afterParallel p true time)
  | parallelThrew (old : List Slot) (p : PState) (hm : mode env o.cfg = .parallel) (ho : old.map entry = o.table)
      (h : Steps penv (launchAgain env.zxTransformable o.cfg o.core old) p) (he : p.main = .ended .threw) :
      Run env penv time o .threw (o.afterParallel p false o.checkTime)

/-- A public call; for `run` with the time it takes, how it ends and the checks completed in it (`include/EquivalenceCheckingManager.hpp:98-249`). -/
inductive Label
  | set (s : Setter)
  | optimize
  | reset
  | run (time : Rat) (e : Ends) (log : List Event)

/-- The effect of a public call (`include/EquivalenceCheckingManager.hpp:98-249`). -/
inductive Call : Obj → Label → Obj → Prop
  | set (o : Obj) (s : Setter) : Call o (.set s) { o with cfg := s.apply o.cfg }
  | optimize (o : Obj) (c1 c2 : Info) (f : Optimizations) :
      Call o .optimize { o with qc1 := c1, qc2 := c2, cfg := { o.cfg with optimizations := f } }
  | reset (o : Obj) : Call o .reset o.reset
  /-- both circuits are empty exactly if they have no operations (`qc.empty()` and `getNops()` ask the same list) -/
  | run (o o' : Obj) (env : Env) (penv : ParEnv) (time : Rat) (e : Ends)
      (hempty : env.bothEmpty = true ↔ o.qc1.numGates = 0 ∧ o.qc2.numGates = 0) (h : Run env penv time o e o') :
      Call o (.run time e o'.log) o'

/-- A history of calls, the latest first, each with the object as it was before the call (calls of `include/EquivalenceCheckingManager.hpp:98-249`). -/
inductive Trace (o0 : Obj) : List (Obj × Label) → Obj → Prop
  | nil : Trace o0 [] o0
  | cons {t : List (Obj × Label)} {o o' : Obj} {l : Label} : Trace o0 t o → Call o l o' → Trace o0 ((o, l) :: t) o'

end QCEC.Session
