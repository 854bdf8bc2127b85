import Verif.Model.Config
/-!
# The equivalence checking manager: mode selection, sequential and symbolic flow

Models `src/EquivalenceCheckingManager.cpp:293-352` (`run`), `412-584` (`checkSequential`), `848-895` (`checkSymbolic`) and
`include/EquivalenceCheckingManager.hpp:104-108` (`reset`), `299-306`, `351-353`.  The parallel flow is in
`Verif/Model/Parallel.lean`.

The checkers are black boxes here (they are modelled in `Verif/Model/DD.lean` and `Verif/Model/ZX.lean`): what their
constructors and `run()` calls do is given by an environment `Env`, over which all theorems quantify.  The instant at which the
timeout thread sets `done` is part of the environment as well: `fired i` tells whether it has happened before the `i`-th time
the main thread reads `done`.

Not modelled: measured times and log messages.  That the environment's instant describes everything the timeout thread can do – except for
the data races between the two threads – is proved in `Verif/Props/Timeout.lean` about a model of both threads
(`Verif/Model/Timeout.lean`).
-/
namespace QCEC.Mgr
open QCEC

/-- The four checkers (constructed in `src/EquivalenceCheckingManager.cpp:433-434,492-493,510-511,530-531`). -/
inductive Kind
  | simulation | alternating | construction | zx
  deriving DecidableEq, Repr

/-- What constructing and running a checker does (called in `src/EquivalenceCheckingManager.cpp:433-443,492-496,510-514,530-534`). -/
inductive Outcome
  | ctorThrows
  | runThrows
  | returns (c : Criterion)
  deriving DecidableEq, Repr

/-- A completed checker run (ghost information, used to state properties) (of the calls in `src/EquivalenceCheckingManager.cpp:443,496,514,534,874`). -/
structure Event where
  kind : Kind
  verdict : Criterion
  deriving DecidableEq, Repr

/-- `EquivalenceCheckingManager::Results`, `EquivalenceCheckingManager.hpp:38-96`, without names, sizes, times.
`cexInput`/`cexOutput` hold the number of the simulation run (of this `run()`) whose vectors are stored. -/
structure Results where
  equivalence : Criterion := .noInformation
  startedSimulations : Nat := 0
  performedSimulations : Nat := 0
  cexInput : Option Nat := none
  cexOutput : Option Nat := none
  checkerResults : List Kind := []
  deriving DecidableEq, Repr

/-- State of the manager relevant to `run()`.  `log` and `clock` are ghost: the completed checker runs of this `run()` and the
number of reads of `done` so far (members in `include/EquivalenceCheckingManager.hpp:252-265`). -/
structure State where
  cfg : Configuration
  done : Bool := false
  results : Results := {}
  checkers : List Kind := []
  log : List Event := []
  clock : Nat := 0

/-- The environment: circuits (as far as `run()` asks about them), checker outcomes and timeout instant (asked in `src/EquivalenceCheckingManager.cpp:314-335,412-584,848-895`). -/
structure Env where
  bothEmpty : Bool := false
  variableFree : Bool := true
  zxTransformable : Bool := true
  simCtorThrows : Bool := false
  /-- outcome of the `k`-th simulation run (including generating its stimulus); `none` if it throws -/
  sim : Nat → Option Criterion
  alternating : Outcome
  construction : Outcome
  zx : Outcome
  /-- the timeout thread has set `done` before the `i`-th read -/
  fired : Nat → Bool
  fired_mono : ∀ i j, i ≤ j → fired i = true → fired j = true

/-- How a call of `run()` ends: it returns, an exception propagates to the caller, the process is terminated
(`std::terminate`), or it does not end within the given number of simulation rounds (of `src/EquivalenceCheckingManager.cpp:293-352`). -/
inductive Ending
  | returned (s : State)
  | threw (s : State)
  | terminated
  | diverged

/-- A timeout is configured; `EquivalenceCheckingManager.cpp:418,853`. -/
def State.timeoutSet (s : State) : Bool := decide (s.cfg.execution.timeout > 0)

/-- Value of `done` when read now (reads in `src/EquivalenceCheckingManager.cpp:437,491,495,509,513,527,533`). -/
def State.isDone (env : Env) (s : State) : Bool := s.done || (s.timeoutSet && env.fired s.clock)

/-- One read of `done` (reads in `src/EquivalenceCheckingManager.cpp:437,491,495,509,513,527,533`). -/
def State.tick (s : State) : State := { s with clock := s.clock + 1 }

/-- `simulationsFinished`, `EquivalenceCheckingManager.hpp:351-353`. -/
def State.simulationsFinished (s : State) : Bool :=
  decide (s.results.performedSimulations = s.cfg.simulation.maxSims)

/-- Store a verdict (assignments in `src/EquivalenceCheckingManager.cpp:458,464,500,518,542-551`). -/
def State.setEq (s : State) (c : Criterion) : State := { s with results := { s.results with equivalence := c } }

/-- Record a completed run (ghost) (of the calls in `src/EquivalenceCheckingManager.cpp:443,496,514,534,874`). -/
def State.record (s : State) (k : Kind) (c : Criterion) : State := { s with log := s.log ++ [⟨k, c⟩] }

/-- Outcome of the simulation loop (`src/EquivalenceCheckingManager.cpp:437-465`). -/
inductive SimRes
  | finished (s : State)
  | aborted (s : State)
  | threw (s : State)
  | diverged

/-- `++results.startedSimulations`, `EquivalenceCheckingManager.cpp:442`. -/
def State.simStarted (s : State) : State :=
  { s with results := { s.results with startedSimulations := s.results.startedSimulations + 1 } }

/-- `++results.performedSimulations`, `EquivalenceCheckingManager.cpp:444` (and the ghost record). -/
def State.simPerformed (s : State) (r : Criterion) : State :=
  { s with results := { s.results with performedSimulations := s.results.performedSimulations + 1 },
           log := s.log ++ [⟨.simulation, r⟩] }

/-- The simulation loop, `EquivalenceCheckingManager.cpp:437-465`; `k` counts the simulation runs of this `run()`. -/
def simLoop (env : Env) : Nat → Nat → State → SimRes
  | 0, _, _ => .diverged
  | fuel + 1, k, s =>
    if s.simulationsFinished then .finished s
    else if s.isDone env then .finished s.tick
    else
      match env.sim k with
      | none => .threw s.tick.simStarted
      | some r =>
        let s := s.tick.simStarted.simPerformed r
        if r = .noInformation then .aborted s
        else if r = .notEquivalent then .finished (s.setEq .notEquivalent)
        else simLoop env fuel (k + 1) (s.setEq .probablyEquivalent)

/-- Number of simulation runs of this `run()`, minus one: the last one (ghost) (`src/EquivalenceCheckingManager.cpp:468-475` stores its vectors). -/
def State.lastSim (s : State) : Nat := (s.log.filter (fun e => e.kind = .simulation)).length - 1

/-- The counterexample is stored and everything is done, `EquivalenceCheckingManager.cpp:467-479`. -/
def State.storeCex (s : State) : State :=
  { s with
    results := { s.results with
      cexInput := if s.cfg.simulation.storeCEXinput then some s.lastSim else s.results.cexInput,
      cexOutput := if s.cfg.simulation.storeCEXoutput then some s.lastSim else s.results.cexOutput },
    done := true }

/-- `done` is set if only simulations are configured and all are done, `EquivalenceCheckingManager.cpp:481-487`. -/
def State.simsOnlyDone (s : State) : State :=
  { s with done := s.done || (s.cfg.onlySimulationCheckerConfigured && s.simulationsFinished) }

/-- After the loop, `EquivalenceCheckingManager.cpp:467-488`. -/
def afterSims (s : State) : State :=
  (if s.results.equivalence = .notEquivalent then s.storeCex else s).simsOnlyDone

/-- The alternating and the construction stage, `EquivalenceCheckingManager.cpp:491-525`. -/
def definitiveStage (env : Env) (kind : Kind) (enabled : Bool) (o : Outcome) (s : State) : Ending :=
  if !enabled then .returned s
  else if s.isDone env then .returned s.tick
  else
    let s := s.tick
    match o with
    | .ctorThrows => .threw s
    | .runThrows =>
      let s := { s with checkers := s.checkers ++ [kind] }
      if s.isDone env then .returned s.tick else .threw s.tick
    | .returns r =>
      let s := { s with checkers := s.checkers ++ [kind] }
      if s.isDone env then .returned s.tick
      else
        let s := s.tick.record kind r
        if r ≠ .noInformation then .returned { s.setEq r with done := true } else .returned s

/-- How the verdict of the ZX checker, the last check, is combined with what is known;
`EquivalenceCheckingManager.cpp:540-566`. -/
def combineZX (known r : Criterion) : Criterion :=
  if r = .equivalent ∨ r = .equivalentUpToGlobalPhase then r
  else if r = .probablyNotEquivalent then
    if known = .probablyEquivalent then .noInformation else r
  else known

/-- The ZX stage, `EquivalenceCheckingManager.cpp:527-575`. -/
def zxStage (env : Env) (s : State) : Ending :=
  if !s.cfg.execution.runZXChecker then .returned s
  else if s.isDone env then .returned s.tick
  else
    let s := s.tick
    if env.zxTransformable then
      match env.zx with
      | .ctorThrows => .terminated  -- the constructor is `noexcept` (`ZXChecker.hpp:23-25`)
      | .runThrows =>
        let s := { s with checkers := s.checkers ++ [Kind.zx] }
        if s.isDone env then .returned s.tick else .threw s.tick
      | .returns r =>
        let s := { s with checkers := s.checkers ++ [Kind.zx] }
        if s.isDone env then .returned s.tick
        else
          let s := s.tick.record .zx r
          .returned { s.setEq (combineZX s.results.equivalence r) with done := true }
    else if s.cfg.onlyZXCheckerConfigured then
      .returned ({ s with checkers := [] }.setEq .noInformation)
    else .returned s

/-- Sequence two stages (order of `src/EquivalenceCheckingManager.cpp:433-575`). -/
def Ending.andThen (e : Ending) (f : State → Ending) : Ending :=
  match e with
  | .returned s => f s
  | .threw s => .threw s
  | .terminated => .terminated
  | .diverged => .diverged

/-- The stages after the simulations (`src/EquivalenceCheckingManager.cpp:490-575`). -/
def stages (env : Env) (s : State) : Ending :=
  ((definitiveStage env .alternating s.cfg.execution.runAlternatingChecker env.alternating s).andThen
    fun s => definitiveStage env .construction s.cfg.execution.runConstructionChecker env.construction s).andThen
    fun s => zxStage env s

/-- Leaving the function while the timeout thread is joinable – by the early `return` at line 453 or by an exception –
destroys a joinable `std::thread`, which calls `std::terminate` (`src/EquivalenceCheckingManager.cpp:416-431,453,581-583`). -/
def leave (s : State) (e : Ending) : Ending := if s.timeoutSet then .terminated else e

/-- `checkSequential`, `EquivalenceCheckingManager.cpp:412-584`. -/
def checkSequential (env : Env) (fuel : Nat) (s : State) : Ending :=
  let finish (e : Ending) : Ending :=
    match e with
    | .threw s => leave s (.threw s)
    | e => e
  if s.cfg.execution.runSimulationChecker then
    if env.simCtorThrows then leave s (.threw s)
    else
      let s := { s with checkers := s.checkers ++ [.simulation] }
      match simLoop env fuel 0 s with
      | .diverged => .diverged
      | .threw s => leave s (.threw s)
      | .aborted s => leave s (.returned s)
      | .finished s => finish (stages env (afterSims s))
  else finish (stages env s)

/-- `checkSymbolic`, `EquivalenceCheckingManager.cpp:848-895`. -/
def checkSymbolic (env : Env) (s : State) : Ending :=
  if s.isDone env then .returned s.tick
  else
    let s := s.tick
    if env.zxTransformable then
      match env.zx with
      | .ctorThrows => .terminated  -- the constructor is `noexcept`
      | .runThrows =>
        let s := { s with checkers := s.checkers ++ [Kind.zx] }
        if s.isDone env then .returned s.tick else leave s (.threw s.tick)
      | .returns r =>
        let s := { s with checkers := s.checkers ++ [Kind.zx] }
        if s.isDone env then .returned s.tick
        else .returned { (s.tick.record .zx r).setEq r with done := true }
    else leave s (.returned ({ s with checkers := [] }.setEq .noInformation))

/-- Which flow `run()` takes (`src/EquivalenceCheckingManager.cpp:314-335`). -/
inductive Mode
  | nothing | empty | sequential | parallel | symbolic
  deriving DecidableEq, Repr

/-- Mode selection in `run`, `EquivalenceCheckingManager.cpp:314-335`. -/
def mode (env : Env) (cfg : Configuration) : Mode :=
  if !cfg.anythingToExecute then .nothing
  else if env.bothEmpty then .empty
  else if env.variableFree then
    if !cfg.execution.parallel || decide (cfg.execution.nthreads ≤ 1) || cfg.onlySingleTask then .sequential
    else .parallel
  else .symbolic

/-- Beginning of `run`, `EquivalenceCheckingManager.cpp:294-309` (the ghost fields start afresh). -/
def State.begin (s : State) : State :=
  { s with done := false, results := { s.results with equivalence := .noInformation }, log := [], clock := 0 }

/-- End of `run`: the reports of the checkers are appended, `EquivalenceCheckingManager.cpp:337-341`. -/
def State.report (s : State) : State :=
  { s with results := { s.results with checkerResults := s.results.checkerResults ++ s.checkers } }

/-- `run`, `EquivalenceCheckingManager.cpp:293-352`, for all modes but the parallel one (`none`). -/
def run (env : Env) (fuel : Nat) (s : State) : Option Ending :=
  let s := s.begin
  match mode env s.cfg with
  | .nothing => some (.returned s)
  | .empty => some (.returned { s.setEq .equivalent with done := true })
  | .sequential => some ((checkSequential env fuel s).andThen fun s => .returned s.report)
  | .symbolic => some ((checkSymbolic env s).andThen fun s => .returned s.report)
  | .parallel => none

/-- `reset`, `EquivalenceCheckingManager.hpp:104-108` (the stimuli generator is modelled in `Verif/Model/StateGen.lean`). -/
def State.reset (s : State) : State := { s with results := {}, checkers := [] }

/-- State after construction with the (adjusted) configuration (members in `include/EquivalenceCheckingManager.hpp:252-265` after `src/EquivalenceCheckingManager.cpp:354-410`). -/
def State.fresh (cfg : Configuration) : State := { cfg := cfg }

end QCEC.Mgr
