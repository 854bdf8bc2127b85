import Verif.Model.Manager
/-!
# The parallel flow of the equivalence checking manager

Models `src/EquivalenceCheckingManager.cpp:586-846` (`checkParallel`) together with
`include/EquivalenceCheckingManager.hpp:299-306` (`setAndSignalDone`), `321-349` (`asyncRunChecker`), `351-353`, and the reporting
loop of `run` (`EquivalenceCheckingManager.cpp:337-341`), as a labelled transition system: the main thread and every worker make
atomic steps in any interleaving.

Simplifications:
* sequentially consistent memory: `done`, `checkers` and `results` are plain variables, reading and writing them from several
  threads without synchronisation is a data race in C++; here every access is one atomic step;
* the queue is a FIFO list (`include/ThreadSafeQueue.hpp`, modelled on its own in `Verif/Model/Queue.lean`); a push and the end of
  the worker are one step;
* `launch` starts with an empty checker table (a fresh or reset manager), `launchAgain` with the table of an earlier run; the
  counters may have any initial values;
* which verdicts a checker may return and whether it may fail is given by a `ParEnv`, over which all theorems quantify.
-/
namespace QCEC.Par
open QCEC QCEC.Mgr

/-- What the checkers may do, and whether both circuits are supported by the ZX checker (asked in `src/EquivalenceCheckingManager.cpp:620-621` and `include/EquivalenceCheckingManager.hpp:326-348`). -/
structure ParEnv where
  may : Kind → Criterion → Prop
  ctorMayThrow : Kind → Prop
  runMayThrow : Kind → Prop
  zxTransformable : Bool

/-- Where a worker is in `asyncRunChecker`, `EquivalenceCheckingManager.hpp:326-348`. -/
inductive WPc
  | start    -- launched, checker not looked at yet
  | built    -- checker exists, stimulus set, `done` not read yet
  | running  -- inside `checker->run()`
  | pushing  -- about to push its id
  | queued   -- id in the queue, thread finished
  | idle     -- id popped by the main thread
  deriving DecidableEq, Repr

/-- One entry of `checkers`/`futures` (`src/EquivalenceCheckingManager.cpp:638-646`). -/
structure Slot where
  kind : Kind
  pc : WPc := .start
  /-- `checkers[id]` is not null -/
  built : Bool := false
  /-- `signalDone()` has been called on the checker -/
  signalled : Bool := false
  /-- `getEquivalence()` of the checker -/
  eq : Criterion := .noInformation
  /-- the future holds an exception -/
  failed : Bool := false
  deriving DecidableEq, Repr

/-- How a parallel run ends: it returns, throws, is terminated, or has undefined behaviour (of `src/EquivalenceCheckingManager.cpp:586-846`). -/
inductive PEnding
  | returned | threw | terminated | undefinedBehaviour
  deriving DecidableEq, Repr

/-- Where the main thread is (`src/EquivalenceCheckingManager.cpp:676-846`). -/
inductive MPc
  | wait                  -- waiting for a completed id (`EquivalenceCheckingManager.cpp:679-686`)
  | signalling (i : Nat)  -- inside `setAndSignalDone`, next to look at `checkers[i]`
  | joining               -- leaving the function: the futures' destructors wait for the workers
  | unwinding             -- an exception leaves the function: likewise
  | ended (e : PEnding)
  deriving DecidableEq, Repr

/-- Global state.  `log` lists the completions handled so far, `timedOut` tells that the deadline passed (both ghost) (members in `include/EquivalenceCheckingManager.hpp:252-265`, locals of `src/EquivalenceCheckingManager.cpp:586-846`). -/
structure PState where
  cfg : Configuration
  done : Bool := false
  results : Results := {}
  slots : List Slot := []
  queue : List Nat := []
  main : MPc := .wait
  log : List Event := []
  timedOut : Bool := false

/-! ## Launch -/

/-- Simulations switched off if none are to be performed, `EquivalenceCheckingManager.cpp:613-619`. -/
def dropSims (c : Configuration) : Configuration :=
  if c.execution.runSimulationChecker && decide (c.simulation.maxSims = 0) then
    { c with execution := { c.execution with runSimulationChecker := false } } else c

/-- ZX checker switched off if the circuits are not supported and it is not the only one, `EquivalenceCheckingManager.cpp:620-632`. -/
def dropZX (zxOk : Bool) (c : Configuration) : Configuration :=
  if c.execution.runZXChecker && !zxOk && !c.onlyZXCheckerConfigured then
    { c with execution := { c.execution with runZXChecker := false } } else c

/-- The configuration with which the checkers are launched (`src/EquivalenceCheckingManager.cpp:605-632`). -/
def launchCfg (zxOk : Bool) (c : Configuration) : Configuration := dropZX zxOk (dropSims c)

/-- Only the ZX checker is configured, but the circuits are not supported, `EquivalenceCheckingManager.cpp:624-629`. -/
def zxGivesUp (zxOk : Bool) (c : Configuration) : Bool :=
  (dropSims c).execution.runZXChecker && !zxOk && (dropSims c).onlyZXCheckerConfigured

/-- `tasksToExecute`, `EquivalenceCheckingManager.cpp:605-632`. -/
def tasksToExecute (zxOk : Bool) (c : Configuration) : Nat :=
  c.execution.runAlternatingChecker.toNat + c.execution.runConstructionChecker.toNat +
  (if c.execution.runSimulationChecker then c.simulation.maxSims else 0) +
  (c.execution.runZXChecker && zxOk).toNat

/-- `effectiveThreads`, `EquivalenceCheckingManager.cpp:634`. -/
def effectiveThreads (zxOk : Bool) (c : Configuration) : Nat := min c.execution.nthreads (tasksToExecute zxOk c)

/-- The checkers launched before the simulations, `EquivalenceCheckingManager.cpp:648-664`. -/
def definitiveKinds (zxOk : Bool) (c : Configuration) : List Kind :=
  (if c.execution.runAlternatingChecker then [Kind.alternating] else []) ++
  (if (launchCfg zxOk c).execution.runConstructionChecker && !zxGivesUp zxOk c then [Kind.construction] else []) ++
  (if (launchCfg zxOk c).execution.runZXChecker && !zxGivesUp zxOk c then [Kind.zx] else [])

/-- Subtraction of `std::size_t` values (64 bit) (`src/EquivalenceCheckingManager.cpp:667`). -/
def subWrap (a b : Nat) : Nat := if b ≤ a then a - b else 2 ^ 64 - (b - a)

/-- `simulationsToStart`, `EquivalenceCheckingManager.cpp:666-670`. -/
def simsToStart (zxOk : Bool) (c : Configuration) : Nat :=
  if (launchCfg zxOk c).execution.runSimulationChecker && !zxGivesUp zxOk c then
    min (subWrap (effectiveThreads zxOk c) (definitiveKinds zxOk c).length) c.simulation.maxSims
  else 0

/-- All checkers launched initially, in the order of their ids (`src/EquivalenceCheckingManager.cpp:648-676`). -/
def launchKinds (zxOk : Bool) (c : Configuration) : List Kind :=
  definitiveKinds zxOk c ++ List.replicate (simsToStart zxOk c) Kind.simulation

/-- State when the waiting loop is reached.  A worker whose id is beyond the table `checkers` (of size `effectiveThreads`) accesses
it out of bounds: undefined behaviour (`src/EquivalenceCheckingManager.cpp:586-676`). -/
def launch (zxOk : Bool) (c : Configuration) (res : Results) : PState :=
  { cfg := launchCfg zxOk c
    done := zxGivesUp zxOk c
    results := { res with equivalence := .noInformation, startedSimulations := res.startedSimulations + simsToStart zxOk c }
    slots := (launchKinds zxOk c).map fun k => { kind := k }
    main := if effectiveThreads zxOk c < (launchKinds zxOk c).length then .ended .undefinedBehaviour
      else if zxGivesUp zxOk c then .joining else .wait }

/-! ## Handling a completion -/

/-- What the main thread does after handling a completion (`src/EquivalenceCheckingManager.cpp:699-834`). -/
inductive Act
  | stop      -- `setAndSignalDone(); break;`
  | goOn      -- `continue` or end of the loop body
  | relaunch  -- start the next simulation in the same slot
  deriving DecidableEq, Repr

/-- `simulationsFinished`, `EquivalenceCheckingManager.hpp:351-353`. -/
def simsFinished (cfg : Configuration) (r : Results) : Bool := decide (r.performedSimulations = cfg.simulation.maxSims)

/-- Set the verdict (assignments in `src/EquivalenceCheckingManager.cpp:628-834`). -/
def setEq (r : Results) (c : Criterion) : Results := { r with equivalence := c }

/-- A completed ZX check with a verdict, `EquivalenceCheckingManager.cpp:757-794`. -/
def handleZX (cfg : Configuration) (r : Results) (c : Criterion) : Results × Act :=
  if c = .equivalent ∨ c = .equivalentUpToGlobalPhase then (setEq r c, .stop)
  else if c = .probablyNotEquivalent then
    if r.equivalence = .probablyEquivalent then
      if simsFinished cfg r then (setEq r .noInformation, .stop) else (setEq r c, .goOn)
    else if r.equivalence = .noInformation then
      if cfg.onlyZXCheckerConfigured then (setEq r c, .stop) else (setEq r c, .goOn)
    else (r, .goOn)
  else (r, .goOn)

/-- A successful simulation is counted, `EquivalenceCheckingManager.cpp:798-804`. -/
def simPassed (r : Results) : Results :=
  { r with performedSimulations := r.performedSimulations + 1,
           equivalence := if r.equivalence = .noInformation then .probablyEquivalent else r.equivalence }

/-- A completed simulation that found no difference, `EquivalenceCheckingManager.cpp:796-833`. -/
def handleSim (cfg : Configuration) (r : Results) : Results × Act :=
  if simsFinished cfg (simPassed r) then
    if cfg.onlySimulationCheckerConfigured then (simPassed r, .stop)
    else if (simPassed r).equivalence = .probablyNotEquivalent then (setEq (simPassed r) .noInformation, .stop)
    else (simPassed r, .goOn)
  else if (simPassed r).startedSimulations < cfg.simulation.maxSims then
    ({ simPassed r with startedSimulations := (simPassed r).startedSimulations + 1 }, .relaunch)
  else (simPassed r, .goOn)

/-- A simulation that found a counterexample, `EquivalenceCheckingManager.cpp:731-746`; the stored vectors are identified by the
number of the handled simulation. -/
def storeCex (cfg : Configuration) (r : Results) : Results :=
  { r with
    performedSimulations := r.performedSimulations + 1,
    cexInput := if cfg.simulation.storeCEXinput then some r.performedSimulations else r.cexInput,
    cexOutput := if cfg.simulation.storeCEXoutput then some r.performedSimulations else r.cexOutput }

/-- Body of the loop after a completion without exception, `EquivalenceCheckingManager.cpp:700-834`. -/
def handle (cfg : Configuration) (r : Results) (k : Kind) (c : Criterion) : Results × Act :=
  if c = .noInformation then
    if k = .zx then (r, if cfg.onlyZXCheckerConfigured then .stop else .goOn)
    else (setEq r c, .stop)
  else if c = .notEquivalent then
    (if k = .simulation then storeCex cfg (setEq r c) else setEq r c, .stop)
  else match k with
    | .alternating => (setEq r c, .stop)
    | .construction => (setEq r c, .stop)
    | .zx => handleZX cfg r c
    | .simulation => handleSim cfg r

/-! ## Transitions -/

/-- Change slot `i` (`include/EquivalenceCheckingManager.hpp:326-348` works on its own entry). -/
def PState.upd (s : PState) (i : Nat) (f : Slot → Slot) : PState := { s with slots := s.slots.modify i f }

/-- The worker's thread has ended (`include/EquivalenceCheckingManager.hpp:326-348`). -/
def Slot.finished (x : Slot) : Bool := decide (x.pc = .queued) || decide (x.pc = .idle)

/-- State after popping the id `i` of a completed checker `x` without exception (`src/EquivalenceCheckingManager.cpp:679-701`). -/
def PState.popped (s : PState) (i : Nat) (x : Slot) (q : List Nat) : PState :=
  let h := handle s.cfg s.results x.kind x.eq
  { s with
    queue := q
    results := h.1
    log := s.log ++ [⟨x.kind, x.eq⟩]
    done := decide (h.2 = .stop)
    main := if h.2 = .stop then .signalling 0 else .wait
    slots := s.slots.modify i fun y => { y with pc := if h.2 = .relaunch then .start else .idle } }

/-- One step of the main thread or of a worker (`src/EquivalenceCheckingManager.cpp:676-846`, `include/EquivalenceCheckingManager.hpp:299-306,326-348`). -/
inductive Step (env : ParEnv) : PState → PState → Prop
  /-- the checker is created (or exists already), a simulation gets its stimulus; `EquivalenceCheckingManager.hpp:327-338` -/
  | construct (s : PState) (i : Nat) (x : Slot) (hx : s.slots[i]? = some x) (hp : x.pc = .start)
      (hm : ∀ e, s.main ≠ .ended e) :
      Step env s (s.upd i fun y => { y with pc := .built, built := true })
  /-- the constructor throws; `EquivalenceCheckingManager.hpp:343-346` -/
  | constructThrows (s : PState) (i : Nat) (x : Slot) (hx : s.slots[i]? = some x) (hp : x.pc = .start) (hb : x.built = false)
      (ht : env.ctorMayThrow x.kind) (hz : x.kind ≠ .zx) (hm : ∀ e, s.main ≠ .ended e) :
      Step env s (s.upd i fun y => { y with pc := .pushing, failed := true })
  /-- the constructor of the ZX checker is `noexcept` (`ZXChecker.hpp:23-25`) -/
  | constructTerminates (s : PState) (i : Nat) (x : Slot) (hx : s.slots[i]? = some x) (hp : x.pc = .start) (hb : x.built = false)
      (ht : env.ctorMayThrow x.kind) (hz : x.kind = .zx) (hm : ∀ e, s.main ≠ .ended e) :
      Step env s { s with main := .ended .terminated }
  /-- generating the stimulus throws -/
  | stimulusThrows (s : PState) (i : Nat) (x : Slot) (hx : s.slots[i]? = some x) (hp : x.pc = .start) (hk : x.kind = .simulation)
      (ht : env.runMayThrow x.kind) (hm : ∀ e, s.main ≠ .ended e) :
      Step env s (s.upd i fun y => { y with pc := .pushing, built := true, failed := true })
  /-- `if (!done) checker->run()`, `EquivalenceCheckingManager.hpp:340-342` -/
  | begin (s : PState) (i : Nat) (x : Slot) (hx : s.slots[i]? = some x) (hp : x.pc = .built) (hd : s.done = false)
      (hm : ∀ e, s.main ≠ .ended e) :
      Step env s (s.upd i fun y => { y with pc := .running })
  | skip (s : PState) (i : Nat) (x : Slot) (hx : s.slots[i]? = some x) (hp : x.pc = .built) (hd : s.done = true)
      (hm : ∀ e, s.main ≠ .ended e) :
      Step env s (s.upd i fun y => { y with pc := .pushing })
  | runReturns (s : PState) (i : Nat) (x : Slot) (c : Criterion) (hx : s.slots[i]? = some x) (hp : x.pc = .running)
      (hc : env.may x.kind c) (hm : ∀ e, s.main ≠ .ended e) :
      Step env s (s.upd i fun y => { y with pc := .pushing, eq := c })
  | runThrows (s : PState) (i : Nat) (x : Slot) (hx : s.slots[i]? = some x) (hp : x.pc = .running) (ht : env.runMayThrow x.kind)
      (hm : ∀ e, s.main ≠ .ended e) :
      Step env s (s.upd i fun y => { y with pc := .pushing, failed := true })
  /-- `queue.push(id)`, `EquivalenceCheckingManager.hpp:343,345` -/
  | push (s : PState) (i : Nat) (x : Slot) (hx : s.slots[i]? = some x) (hp : x.pc = .pushing) (hm : ∀ e, s.main ≠ .ended e) :
      Step env s { s.upd i (fun y => { y with pc := .queued }) with queue := s.queue ++ [i] }
  /-- a completed id is popped and its future holds a value -/
  | pop (s : PState) (i : Nat) (x : Slot) (q : List Nat) (hm : s.main = .wait) (hq : s.queue = i :: q)
      (hx : s.slots[i]? = some x) (hf : x.failed = false) : Step env s (s.popped i x q)
  /-- a completed id is popped and `futures.at(id).get()` rethrows; `EquivalenceCheckingManager.cpp:698` -/
  | popThrows (s : PState) (i : Nat) (x : Slot) (q : List Nat) (hm : s.main = .wait) (hq : s.queue = i :: q)
      (hx : s.slots[i]? = some x) (hf : x.failed = true) :
      Step env s { s.upd i (fun y => { y with pc := .idle }) with queue := q, main := .unwinding }
  /-- the pop returns null, `EquivalenceCheckingManager.cpp:681-693`: the queue was empty when it gave up (`queue_null_only_if_empty`);
  an id may have arrived since then, so nothing is said about the queue here -/
  | timeout (s : PState) (hm : s.main = .wait) (ht : s.cfg.execution.timeout > 0) :
      Step env s { s with done := true, main := .signalling 0, timedOut := true }
  /-- `setAndSignalDone`, `EquivalenceCheckingManager.hpp:299-306` -/
  | signal (s : PState) (i : Nat) (x : Slot) (hm : s.main = .signalling i) (hx : s.slots[i]? = some x) :
      Step env s { s.upd i (fun y => { y with signalled := y.signalled || y.built }) with main := .signalling (i + 1) }
  | signalledAll (s : PState) (i : Nat) (hm : s.main = .signalling i) (hi : s.slots.length ≤ i) :
      Step env s { s with main := .joining }
  /-- all workers have ended; `run` then reads every entry of `checkers` (`EquivalenceCheckingManager.cpp:337-341`) -/
  | join (s : PState) (hm : s.main = .joining) (hf : ∀ x ∈ s.slots, x.finished = true) :
      Step env s { s with main := .ended (if ∀ x ∈ s.slots, x.built = true then .returned else .undefinedBehaviour) }
  /-- the exception reaches the caller once all workers have ended -/
  | unwind (s : PState) (hm : s.main = .unwinding) (hf : ∀ x ∈ s.slots, x.finished = true) :
      Step env s { s with main := .ended .threw }

/-- A simulation is launched in a slot that holds a checker of another kind: the worker's `dynamic_cast` gives null, which is dereferenced
(`EquivalenceCheckingManager.hpp:333-338`). -/
def castsFail (kinds : List Kind) (old : List Slot) : Bool :=
  (kinds.zip old).any fun p => decide (p.1 = .simulation) && p.2.built && decide (p.2.kind ≠ .simulation)

/-- A further run without `reset()` in between: `checkers.resize` (`EquivalenceCheckingManager.cpp:638`) keeps the checkers `old` of the
earlier run, and `asyncRunChecker` reuses what it finds in its slot (`EquivalenceCheckingManager.hpp:328-331`), whatever its kind.  The
workers' failing casts are put at the beginning of the run. -/
def launchAgain (zxOk : Bool) (c : Configuration) (res : Results) (old : List Slot) : PState :=
  { launch zxOk c res with
    slots := (launchKinds zxOk c).mapIdx fun i k => match old[i]? with
      | some y => { kind := if y.built then y.kind else k, built := y.built, signalled := y.signalled, eq := y.eq }
      | none => { kind := k }
    main := if castsFail (launchKinds zxOk c) old then .ended .undefinedBehaviour else (launch zxOk c res).main }

/-- Executions (`src/EquivalenceCheckingManager.cpp:676-846`, `include/EquivalenceCheckingManager.hpp:299-306,326-348`). -/
inductive Steps (env : ParEnv) : PState → PState → Prop
  | refl (s : PState) : Steps env s s
  | tail {a b c : PState} : Steps env a b → Step env b c → Steps env a c

/-- `s` is reached by a parallel run with configuration `cfg` that started with the results `res` (`src/EquivalenceCheckingManager.cpp:586-846`). -/
def Reachable (env : ParEnv) (cfg : Configuration) (res : Results) (s : PState) : Prop :=
  Steps env (launch env.zxTransformable cfg res) s

end QCEC.Par
