import Verif.Model.Manager
/-!
# The sequential and the symbolic flow together with their timeout thread

`Verif/Model/Manager.lean` describes `checkSequential` and `checkSymbolic` as functions that are told at which of its reads of `done` the
main thread finds that the timeout thread has set it.  Here the two threads of `src/EquivalenceCheckingManager.cpp:412-584` and `:848-895`
run side by side, access by access: the plain variable `done`, the condition variable `doneCond`, and the vector `checkers` with its
buffer, which `emplace_back` may replace while `setAndSignalDone` (`include/EquivalenceCheckingManager.hpp:299-306`) iterates over it.

Simplifications: `doneMutex` is left out – only the timeout thread ever locks it; accesses to `done` are sequentially consistent (the code
has no right to that, see `Props/Timeout.lean`); the deadline `D` of `wait_for` is a point in time fixed from the start; what the checkers
answer is given by `Mgr.Env`, over which all theorems quantify (its field `fired` is not used here).
-/
namespace QCEC.Tmo
open QCEC QCEC.Mgr

/-- What the main thread still has to do, in terms of its accesses to what it shares with the timeout thread (`src/EquivalenceCheckingManager.cpp:433-583,868-894`). -/
inductive Prog
  /-- the end of the function is reached: join the timeout thread and return; `EquivalenceCheckingManager.cpp:577-583,889-894` -/
  | join (s : State)
  /-- the function is left by an exception or an early `return` (`:453`, `:886`), past the `join` -/
  | leave (s : State) (e : Ending)
  /-- `std::terminate` called by a `noexcept` constructor, or an endless loop -/
  | stuck (e : Ending)
  /-- read `done` -/
  | readDone (k : Bool → Prog)
  /-- `checkers.emplace_back(std::make_unique<...>(...))`; the constructor has not thrown -/
  | emplace (k : Prog)
  /-- `run()` of the checker at the back of the vector -/
  | check (k : Prog)
  /-- `done = true` -/
  | setDone (k : Prog)
  /-- `doneCond.notify_one()` -/
  | notify (k : Prog)
  /-- `checkers.clear()` -/
  | clear (k : Prog)

/-- `done = true; doneCond.notify_one();`, `EquivalenceCheckingManager.cpp:478-479,486-487,503-504,521-522,537-538`. -/
def signal (k : Prog) : Prog := .setDone (.notify k)

/-- The simulation loop, `EquivalenceCheckingManager.cpp:437-465`; the second read of `done` (`:449`) only decides whether a message is
printed and is left out. -/
def simProg (env : Env) (next : State → Prog) : Nat → Nat → State → Prog
  | 0, _, _ => .stuck .diverged
  | fuel + 1, k, s =>
    if s.simulationsFinished then next s
    else .readDone fun d =>
      if d then next s.tick
      else .check <| match env.sim k with
        | none => .leave s.tick.simStarted (.threw s.tick.simStarted)
        | some r =>
          let s := s.tick.simStarted.simPerformed r
          if r = .noInformation then .leave s (.returned s)
          else if r = .notEquivalent then next (s.setEq .notEquivalent)
          else simProg env next fuel (k + 1) (s.setEq .probablyEquivalent)

/-- After the loop, `EquivalenceCheckingManager.cpp:467-488`. -/
def afterSimsProg (next : State → Prog) (s : State) : Prog :=
  let second (s : State) : Prog :=
    if s.cfg.onlySimulationCheckerConfigured && s.simulationsFinished then signal (next { s with done := true }) else next s
  if s.results.equivalence = .notEquivalent then signal (second s.storeCex) else second s

/-- The alternating and the construction stage, `EquivalenceCheckingManager.cpp:491-525`. -/
def definitiveProg (kind : Kind) (enabled : Bool) (o : Outcome) (next : State → Prog) (s : State) : Prog :=
  if !enabled then next s
  else .readDone fun d =>
    if d then next s.tick
    else
      let s1 := s.tick
      let s2 := { s1 with checkers := s1.checkers ++ [kind] }
      match o with
      | .ctorThrows => .leave s1 (.threw s1)
      | .runThrows => .emplace (.readDone fun d => if d then next s2.tick else .check (.leave s2.tick (.threw s2.tick)))
      | .returns r => .emplace (.readDone fun d =>
          if d then next s2.tick
          else .check (
            let s3 := s2.tick.record kind r
            if r ≠ .noInformation then signal (next { s3.setEq r with done := true }) else next s3))

/-- The ZX stage and the end of the function, `EquivalenceCheckingManager.cpp:527-583`. -/
def zxProg (env : Env) (s : State) : Prog :=
  if !s.cfg.execution.runZXChecker then .join s
  else .readDone fun d =>
    if d then .join s.tick
    else
      let s1 := s.tick
      let s2 := { s1 with checkers := s1.checkers ++ [Kind.zx] }
      if env.zxTransformable then
        match env.zx with
        | .ctorThrows => .stuck .terminated
        | .runThrows => .emplace (.readDone fun d => if d then .join s2.tick else .check (.leave s2.tick (.threw s2.tick)))
        | .returns r => .emplace (.readDone fun d =>
            if d then .join s2.tick
            else .check (
              let s3 := s2.tick.record .zx r
              signal (.join { s3.setEq (combineZX s3.results.equivalence r) with done := true })))
      else if s1.cfg.onlyZXCheckerConfigured then .clear (.join ({ s1 with checkers := [] }.setEq .noInformation))
      else .join s1

/-- The stages after the simulations, `EquivalenceCheckingManager.cpp:491-583`. -/
def stagesProg (env : Env) (s : State) : Prog :=
  definitiveProg .alternating s.cfg.execution.runAlternatingChecker env.alternating
    (fun s => definitiveProg .construction s.cfg.execution.runConstructionChecker env.construction (zxProg env) s) s

/-- `checkSequential`, `EquivalenceCheckingManager.cpp:412-584`. -/
def seqProg (env : Env) (fuel : Nat) (s : State) : Prog :=
  if s.cfg.execution.runSimulationChecker then
    if env.simCtorThrows then .leave s (.threw s)
    else .emplace (simProg env (afterSimsProg (stagesProg env)) fuel 0 { s with checkers := s.checkers ++ [.simulation] })
  else stagesProg env s

/-- `checkSymbolic`, `EquivalenceCheckingManager.cpp:848-895`. -/
def symProg (env : Env) (s : State) : Prog :=
  .readDone fun d =>
    if d then .join s.tick
    else
      let s1 := s.tick
      let s2 := { s1 with checkers := s1.checkers ++ [Kind.zx] }
      if env.zxTransformable then
        match env.zx with
        | .ctorThrows => .stuck .terminated
        | .runThrows => .emplace (.readDone fun d => if d then .join s2.tick else .check (.leave s2 (.threw s2.tick)))
        | .returns r => .emplace (.readDone fun d =>
            if d then .join s2.tick
            else .check (signal (.join { (s2.tick.record .zx r).setEq r with done := true })))
      else .clear (.leave s1 (.returned ({ s1 with checkers := [] }.setEq .noInformation)))

/-- The main thread (`src/EquivalenceCheckingManager.cpp:412-584,848-895`). -/
inductive Main
  | todo (p : Prog)
  /-- inside `emplace_back` -/
  | emplacing (k : Prog)
  /-- inside `run()` of the checker with this position in the vector -/
  | checking (i : Nat) (k : Prog)
  | ended (e : Ending)
  /-- a data race on the vector or an access to a freed buffer or a destroyed checker -/
  | undefinedBehaviour

/-- The timeout thread, `EquivalenceCheckingManager.cpp:417-431,852-866`. -/
inductive Timer
  /-- no timeout configured -/
  | absent
  /-- about to evaluate the predicate of `wait_for` -/
  | testing
  /-- the predicate was false; about to wait -/
  | drowsy
  | asleep
  /-- the deadline has passed; about to evaluate the predicate for the last time -/
  | late
  /-- `setAndSignalDone`: about to set `done` -/
  | firing
  /-- about to read begin and end of the vector -/
  | iterating
  /-- `b`, `n`: buffer and number of elements read; next element `i` -/
  | walking (b n i : Nat)
  | gone
  deriving DecidableEq, Repr

/-- The vector `checkers`: which buffer it uses, how many elements that can hold, and for every element whether it has been told to stop (`include/EquivalenceCheckingManager.hpp:263`). -/
structure Vec where
  buf : Nat := 0
  cap : Nat := 0
  told : List Bool := []
  deriving DecidableEq, Repr

/-- `emplace_back` replaces the buffer if it is full; `grow` is the library's choice of the new capacity (called in `src/EquivalenceCheckingManager.cpp:433,492,510,530,870`). -/
def Vec.push (grow : Nat → Nat) (v : Vec) : Vec :=
  if v.told.length < v.cap then { v with told := v.told ++ [false] }
  else { buf := v.buf + 1, cap := max (grow v.told.length) (v.told.length + 1), told := v.told ++ [false] }

/-- State of the two threads.  `reads` counts the main thread's reads of `done`, `firedAt` is the number of these reads made before the
timeout thread set `done`, `lost` tells that a notification came between the test of the predicate and the wait (all three ghost) (members in `include/EquivalenceCheckingManager.hpp:260-263`). -/
structure TState where
  main : Main
  timer : Timer
  done : Bool := false
  vec : Vec := {}
  now : Nat := 0
  reads : Nat := 0
  firedAt : Option Nat := none
  lost : Bool := false

/-- The timeout thread may read element `i` of the buffer `b`: the buffer is still in use, the element exists, and the main thread is not
moving the elements to another buffer (reads in `include/EquivalenceCheckingManager.hpp:301-304`). -/
def TState.readable (s : TState) (b i : Nat) : Prop :=
  b = s.vec.buf ∧ i < s.vec.told.length ∧ ∀ k, s.main = .emplacing k → s.vec.told.length < s.vec.cap

/-- The main thread is still inside the function (`src/EquivalenceCheckingManager.cpp:412-584,848-895`). -/
def TState.live (s : TState) : Prop := (∀ e, s.main ≠ .ended e) ∧ s.main ≠ .undefinedBehaviour

/-- One step of one of the threads, or time passing (`src/EquivalenceCheckingManager.cpp:412-584,848-895`, `include/EquivalenceCheckingManager.hpp:299-306`). -/
inductive Step (grow : Nat → Nat) (D : Nat) : TState → TState → Prop
  | time (s : TState) : Step grow D s { s with now := s.now + 1 }
  -- the main thread
  | readDone (s : TState) (k : Bool → Prog) (h : s.main = .todo (.readDone k)) :
      Step grow D s { s with main := .todo (k s.done), reads := s.reads + 1 }
  | emplaceBegin (s : TState) (k : Prog) (h : s.main = .todo (.emplace k)) : Step grow D s { s with main := .emplacing k }
  | emplaceEnd (s : TState) (k : Prog) (h : s.main = .emplacing k) :
      Step grow D s { s with main := .todo k, vec := s.vec.push grow }
  | checkBegin (s : TState) (k : Prog) (h : s.main = .todo (.check k)) :
      Step grow D s { s with main := .checking (s.vec.told.length - 1) k }
  | checkEnd (s : TState) (i : Nat) (k : Prog) (h : s.main = .checking i k) : Step grow D s { s with main := .todo k }
  | setDone (s : TState) (k : Prog) (h : s.main = .todo (.setDone k)) : Step grow D s { s with main := .todo k, done := true }
  | notify (s : TState) (k : Prog) (h : s.main = .todo (.notify k)) :
      Step grow D s
        { s with
          main := .todo k
          timer := if s.timer = .asleep then .testing else s.timer
          lost := s.lost || decide (s.timer = .drowsy) }
  | clear (s : TState) (k : Prog) (h : s.main = .todo (.clear k)) :
      Step grow D s { s with main := .todo k, vec := { s.vec with told := [] } }
  | join (s : TState) (r : State) (h : s.main = .todo (.join r)) (ht : s.timer = .absent ∨ s.timer = .gone) :
      Step grow D s { s with main := .ended (.returned r) }
  /-- destroying a joinable `std::thread` calls `std::terminate` -/
  | leave (s : TState) (r : State) (e : Ending) (h : s.main = .todo (.leave r e)) :
      Step grow D s { s with main := .ended (if s.timer = .absent then e else .terminated) }
  | stuck (s : TState) (e : Ending) (h : s.main = .todo (.stuck e)) : Step grow D s { s with main := .ended e }
  -- the timeout thread
  | testTrue (s : TState) (hl : s.live) (h : s.timer = .testing) (hd : s.done = true) : Step grow D s { s with timer := .gone }
  | testFalse (s : TState) (hl : s.live) (h : s.timer = .testing) (hd : s.done = false) : Step grow D s { s with timer := .drowsy }
  | sleep (s : TState) (hl : s.live) (h : s.timer = .drowsy) : Step grow D s { s with timer := .asleep }
  | spurious (s : TState) (hl : s.live) (h : s.timer = .asleep) : Step grow D s { s with timer := .testing }
  | expire (s : TState) (hl : s.live) (h : s.timer = .asleep) (hd : D ≤ s.now) : Step grow D s { s with timer := .late }
  | lateTrue (s : TState) (hl : s.live) (h : s.timer = .late) (hd : s.done = true) : Step grow D s { s with timer := .gone }
  | lateFalse (s : TState) (hl : s.live) (h : s.timer = .late) (hd : s.done = false) : Step grow D s { s with timer := .firing }
  | fire (s : TState) (hl : s.live) (h : s.timer = .firing) :
      Step grow D s { s with timer := .iterating, done := true, firedAt := some s.reads }
  | iterate (s : TState) (hl : s.live) (h : s.timer = .iterating) (hm : ∀ k, s.main ≠ .emplacing k) :
      Step grow D s { s with timer := .walking s.vec.buf s.vec.told.length 0 }
  | iterateRace (s : TState) (k : Prog) (h : s.timer = .iterating) (hm : s.main = .emplacing k) :
      Step grow D s { s with main := .undefinedBehaviour }
  | tell (s : TState) (b n i : Nat) (hl : s.live) (h : s.timer = .walking b n i) (hi : i < n) (hr : s.readable b i) :
      Step grow D s { s with timer := .walking b n (i + 1), vec := { s.vec with told := s.vec.told.set i true } }
  | tellDangling (s : TState) (b n i : Nat) (hl : s.live) (h : s.timer = .walking b n i) (hi : i < n) (hr : ¬ s.readable b i) :
      Step grow D s { s with main := .undefinedBehaviour }
  | exit (s : TState) (b n i : Nat) (hl : s.live) (h : s.timer = .walking b n i) (hi : n ≤ i) : Step grow D s { s with timer := .gone }

/-- Executions (`src/EquivalenceCheckingManager.cpp:412-584,848-895`). -/
inductive Steps (grow : Nat → Nat) (D : Nat) : TState → TState → Prop
  | refl (s : TState) : Steps grow D s s
  | tail {a b c : TState} : Steps grow D a b → Step grow D b c → Steps grow D a c

/-- The flow `p` is entered by a manager in state `r`: a timeout thread is started if a timeout is configured
(`EquivalenceCheckingManager.cpp:418-431,853-866`).  `cap` is the capacity of the vector left over from earlier runs; that its
checkers may have been told to stop before is left out. -/
def start (p : Prog) (r : State) (cap : Nat) : TState where
  main := .todo p
  timer := if r.timeoutSet then .testing else .absent
  done := r.done
  vec := { cap := cap, told := r.checkers.map fun _ => false }

/-- `s` is reached by a run of the flow `p` (from the start of `src/EquivalenceCheckingManager.cpp:412-584,848-895`). -/
def Reachable (grow : Nat → Nat) (D : Nat) (p : Prog) (r : State) (cap : Nat) (s : TState) : Prop := Steps grow D (start p r cap) s

/-- The flow that `run()` enters, `EquivalenceCheckingManager.cpp:328-337`, after the initialisation of `:294-310`; `none` for the modes
without a timeout thread of this kind. -/
def flowOf (env : Env) (fuel : Nat) (s : State) : Option Prog :=
  match mode env s.cfg with
  | .sequential => some (seqProg env fuel s.begin)
  | .symbolic => some (symProg env s.begin)
  | _ => none

end QCEC.Tmo
