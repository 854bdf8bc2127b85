import Verif.Model.Parallel
import Verif.Model.Queue
/-!
# The parallel flow together with its queue

`Verif/Model/Parallel.lean` treats a push and a pop as one step each.  Here the main thread and the workers of `checkParallel`
(`src/EquivalenceCheckingManager.cpp:586-846`) and `asyncRunChecker` (`include/EquivalenceCheckingManager.hpp:321-349`) use the queue of
`include/ThreadSafeQueue.hpp` as modelled in `Verif/Model/Queue.lean`: node by node, with its mutexes and its condition variable.

The main thread is thread 0 of the queue, the worker with id `i` is thread `i + 1`; `D` is the point in time of the deadline.
`p.queue` is ghost here: what the queue contains is on the heap of `q`.

Simplification: `futures.at(id).get()` (l.698) waits until the worker's thread has ended; here the main thread waits for that before it
reads and frees the node it has unlinked, which no other thread can access any more.
-/
namespace QCEC.ParQ
open QCEC QCEC.Mgr QCEC.Par

/-- State of the manager's threads and state of the queue (`src/EquivalenceCheckingManager.cpp:641`). -/
structure CState where
  p : PState
  q : Queue.QState Nat

/-- Only the main thread pops (`src/EquivalenceCheckingManager.cpp:681-685`). -/
def consumer (t : Nat) : Prop := t = 0

/-- The deadline of the pop, if any; `EquivalenceCheckingManager.cpp:681-686`. -/
def deadlineOf (D : Nat) (p : PState) : Option Nat := if p.cfg.execution.timeout > 0 then some D else none

/-- Beginning of `queue.push(id)`, `ThreadSafeQueue.hpp:36-38`. -/
def startPush (q : Queue.QState Nat) (i n : Nat) : Queue.QState Nat :=
  { q.goto (i + 1) (.pushLock i n) with heap := Queue.set q.heap n (some {}) }

/-- The step of a push that moves the tail, `ThreadSafeQueue.hpp:44`. -/
def movedTail (q : Queue.QState Nat) (i n : Nat) : Queue.QState Nat :=
  { q.goto (i + 1) .pushUnlock with tail := n, pushed := q.pushed ++ [i] }

/-- The pop returns the value of the node `o`, `ThreadSafeQueue.hpp:24,31`. -/
def readNode (q : Queue.QState Nat) (o k : Nat) (x : Queue.Node Nat) : Queue.QState Nat :=
  { q.goto 0 .idle with heap := Queue.set q.heap o none, returned := q.returned ++ [(k, x.data)] }

/-- One step of a thread (`src/EquivalenceCheckingManager.cpp:676-846`, `include/EquivalenceCheckingManager.hpp:326-348`, `include/ThreadSafeQueue.hpp:22-101`). -/
inductive Step (env : ParEnv) (D : Nat) : CState → CState → Prop
  /-- a step that does not concern the queue: a worker before its push, or the main thread telling the checkers to stop -/
  | flow (c : CState) (p' : PState) (h : Par.Step env c.p p') (hq : p'.queue = c.p.queue)
      (hw : c.p.main = .wait ∨ c.p.main = .joining ∨ c.p.main = .unwinding → p'.main = c.p.main ∨ p'.main = .ended .terminated) :
      Step env D c { c with p := p' }
  /-- a step inside the queue -/
  | inner (c : CState) (q' : Queue.QState Nat) (h : Queue.Step consumer c.q q') (hp : q'.pushed = c.q.pushed)
      (hr : q'.returned = c.q.returned) (hi : ∀ t, c.q.pc t = .idle → q'.pc t = .idle)
      (hn : ∀ t d, c.q.pc t = .popNull d → q'.pc t = .popNull d) (hm : ∀ e, c.p.main ≠ .ended e) : Step env D c { c with q := q' }
  /-- a worker calls `queue.push(id)`, `EquivalenceCheckingManager.hpp:343,345` -/
  | startPush (c : CState) (i n : Nat) (x : Slot) (hx : c.p.slots[i]? = some x) (hp : x.pc = .pushing) (ht : c.q.pc (i + 1) = .idle)
      (hn : c.q.heap n = none) (hm : ∀ e, c.p.main ≠ .ended e) : Step env D c { c with q := startPush c.q i n }
  /-- its id becomes visible in the queue -/
  | link (c : CState) (i n : Nat) (ht : c.q.pc (i + 1) = .pushTail i n) (hm : ∀ e, c.p.main ≠ .ended e) :
      Step env D c
        { p := { c.p.upd i (fun y => { y with pc := .queued }) with queue := c.p.queue ++ [i] }, q := movedTail c.q i n }
  /-- the main thread calls `waitAndPop` or `waitAndPopUntil`, `EquivalenceCheckingManager.cpp:681-686` -/
  | startPop (c : CState) (hm : c.p.main = .wait) (ht : c.q.pc 0 = .idle) :
      Step env D c { c with q := c.q.goto 0 (.popLock (deadlineOf D c.p)) }
  /-- it gets an id and the worker's future holds a value -/
  | got (c : CState) (i o k : Nat) (v : Option Nat) (n : Queue.Node Nat) (x : Slot) (ht : c.q.pc 0 = .popRead o k v)
      (hn : c.q.heap o = some n) (hd : n.data = some i) (hw : c.q.pc (i + 1) = .idle) (hx : c.p.slots[i]? = some x)
      (hf : x.failed = false) (hm : c.p.main = .wait) :
      Step env D c { p := c.p.popped i x c.p.queue.tail, q := readNode c.q o k n }
  /-- it gets an id and the worker's future holds an exception -/
  | gotException (c : CState) (i o k : Nat) (v : Option Nat) (n : Queue.Node Nat) (x : Slot) (ht : c.q.pc 0 = .popRead o k v)
      (hn : c.q.heap o = some n) (hd : n.data = some i) (hw : c.q.pc (i + 1) = .idle) (hx : c.p.slots[i]? = some x)
      (hf : x.failed = true) (hm : c.p.main = .wait) :
      Step env D c
        { p := { c.p.upd i (fun y => { y with pc := .idle }) with queue := c.p.queue.tail, main := .unwinding }, q := readNode c.q o k n }
  /-- it gets null -/
  | expired (c : CState) (d : Option Nat) (ht : c.q.pc 0 = .popNull d) (hm : c.p.main = .wait) :
      Step env D c
        { p := { c.p with done := true, main := .signalling 0, timedOut := true }, q := { c.q.goto 0 .idle with headMutex := none } }
  /-- all workers' threads have ended -/
  | join (c : CState) (hm : c.p.main = .joining) (hf : ∀ x ∈ c.p.slots, x.finished = true)
      (ht : ∀ i, i < c.p.slots.length → c.q.pc (i + 1) = .idle) :
      Step env D c
        { c with p := { c.p with main := .ended (if ∀ x ∈ c.p.slots, x.built = true then .returned else .undefinedBehaviour) } }
  | unwind (c : CState) (hm : c.p.main = .unwinding) (hf : ∀ x ∈ c.p.slots, x.finished = true)
      (ht : ∀ i, i < c.p.slots.length → c.q.pc (i + 1) = .idle) :
      Step env D c { c with p := { c.p with main := .ended .threw } }

/-- Executions (`src/EquivalenceCheckingManager.cpp:676-846`, `include/ThreadSafeQueue.hpp:22-101`). -/
inductive Steps (env : ParEnv) (D : Nat) : CState → CState → Prop
  | refl (c : CState) : Steps env D c c
  | tail {a b c : CState} : Steps env D a b → Step env D b c → Steps env D a c

/-- `c` is reached by a parallel run with configuration `cfg` that started with the results `res` (`src/EquivalenceCheckingManager.cpp:586-846`). -/
def Reachable (env : ParEnv) (D : Nat) (cfg : Configuration) (res : Results) (c : CState) : Prop :=
  Steps env D { p := launch env.zxTransformable cfg res, q := Queue.init } c

end QCEC.ParQ
