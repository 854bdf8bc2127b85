/-!
# The thread-safe queue

Models `include/ThreadSafeQueue.hpp:14-104` at the granularity of single accesses to shared variables: nodes live on a heap and
are allocated and freed (addresses may be reused), the two mutexes and the condition variable are explicit, and any number of
threads push, pop and pop with a deadline concurrently.

Simplifications: sequentially consistent memory (justified by `queue_no_race`: all conflicting accesses are ordered by the
mutexes); `getTail()` (lock, read, unlock, l.64-67) is one step that needs the tail mutex to be free; `std::make_shared` and
`std::make_unique` do not fail; the value type is arbitrary; `empty()` (l.48-51) is the same critical section as one evaluation
of the waiting predicate and is not modelled separately.  `std::condition_variable`: `wait` releases the mutex and falls asleep
in one step, `notify_one` wakes one thread that is asleep if there is one, a sleeping thread may also wake up spuriously or,
with a deadline, once that has passed.
-/
namespace QCEC.Queue

/-- `struct Node`, `ThreadSafeQueue.hpp:54-57`; addresses are natural numbers. -/
structure Node (V : Type) where
  data : Option V := none
  next : Option Nat := none

/-- Where a thread is.  `dl` is the deadline of `waitAndPopUntil`, `none` for `waitAndPop` (`include/ThreadSafeQueue.hpp:22-101`). -/
inductive Pc (V : Type)
  | idle
  | pushLock (v : V) (n : Nat)    -- l.37-40: data and node allocated, acquire `tailMutex`
  | pushData (v : V) (n : Nat)    -- l.41: `tail->data = data`
  | pushNext (v : V) (n : Nat)    -- l.43: `tail->next = std::move(p)`
  | pushTail (v : V) (n : Nat)    -- l.44: `tail = newTail`
  | pushUnlock                    -- l.45
  | pushNotify                    -- l.46: `dataCond.notify_one()`
  | popLock (dl : Option Nat)     -- l.76,83: acquire `headMutex`
  | popCheck (dl : Option Nat)    -- l.77,85: evaluate `head.get() != getTail()`
  | popSleep (dl : Option Nat)    -- the predicate was false: about to release the mutex and sleep
  | asleep (dl : Option Nat) (early : Bool) -- `early` (ghost): the queue was empty when the thread fell asleep
  | popLate (d : Nat)             -- woken by the deadline, acquire `headMutex`
  | popFinal (d : Option Nat) (late : Bool) -- l.97: `if (head.get() == getTail())`; `late` (ghost): because of the deadline
  | popTake                       -- l.70-71: `oldHead = std::move(head); head = std::move(oldHead->next)`
  | popUnlock (o k : Nat) (v : Option V) -- release `headMutex`; ghost: `v` is the value taken, `k` its position in `taken`
  | popRead (o k : Nat) (v : Option V)   -- l.24,31: return `oldHead->data`, freeing the node
  | popNull (d : Option Nat)      -- l.98: release `headMutex`, return null

/-- Shared state; `pushed`, `taken`, `returned`, `nulls` are ghost: values in the order in which the tail moved past them and the
head moved past them, the values returned (with their position in `taken`), and the null results (deadline, time) (members in `include/ThreadSafeQueue.hpp:54-62`). -/
structure QState (V : Type) where
  heap : Nat → Option (Node V)
  head : Nat
  tail : Nat
  headMutex : Option Nat := none
  tailMutex : Option Nat := none
  pc : Nat → Pc V
  now : Nat := 0
  pushed : List V := []
  taken : List (Option V) := []
  returned : List (Nat × Option V) := []
  nulls : List (Option Nat × Nat) := []

/-- Change one entry of a function (for the threads of `include/ThreadSafeQueue.hpp:22-101`). -/
def set {α : Type} (f : Nat → α) (i : Nat) (a : α) : Nat → α := fun j => if j = i then a else f j

variable {V : Type}

/-- Thread `t` goes to `p` (for the threads of `include/ThreadSafeQueue.hpp:22-101`). -/
def QState.goto (s : QState V) (t : Nat) (p : Pc V) : QState V := { s with pc := set s.pc t p }

/-- The queue after construction, `ThreadSafeQueue.hpp:16,59-61`: one dummy node. -/
def init : QState V :=
  { heap := set (fun _ => none) 0 (some {}), head := 0, tail := 0, pc := fun _ => .idle }

/-- Result of evaluating `head.get() == getTail()` (`include/ThreadSafeQueue.hpp:50,77,85,97`). -/
def QState.isEmpty (s : QState V) : Bool := decide (s.head = s.tail)

/-- One step of thread `t`; the threads in `consumers` may pop (`include/ThreadSafeQueue.hpp:22-101`). -/
inductive Step (consumers : Nat → Prop) : QState V → QState V → Prop
  | push (s : QState V) (t : Nat) (v : V) (n : Nat) (h : s.pc t = .idle) (hn : s.heap n = none) :
      Step consumers s { s.goto t (.pushLock v n) with heap := set s.heap n (some {}) }
  | pushLock (s : QState V) (t : Nat) (v : V) (n : Nat) (h : s.pc t = .pushLock v n) (hf : s.tailMutex = none) :
      Step consumers s { s.goto t (.pushData v n) with tailMutex := some t }
  | pushData (s : QState V) (t : Nat) (v : V) (n : Nat) (x : Node V) (h : s.pc t = .pushData v n) (hx : s.heap s.tail = some x) :
      Step consumers s { s.goto t (.pushNext v n) with heap := set s.heap s.tail (some { x with data := some v }) }
  | pushNext (s : QState V) (t : Nat) (v : V) (n : Nat) (x : Node V) (h : s.pc t = .pushNext v n) (hx : s.heap s.tail = some x) :
      Step consumers s { s.goto t (.pushTail v n) with heap := set s.heap s.tail (some { x with next := some n }) }
  | pushTail (s : QState V) (t : Nat) (v : V) (n : Nat) (h : s.pc t = .pushTail v n) :
      Step consumers s { s.goto t .pushUnlock with tail := n, pushed := s.pushed ++ [v] }
  | pushUnlock (s : QState V) (t : Nat) (h : s.pc t = .pushUnlock) :
      Step consumers s { s.goto t .pushNotify with tailMutex := none }
  /-- nobody is asleep: the notification has no effect -/
  | notifyNone (s : QState V) (t : Nat) (h : s.pc t = .pushNotify) (hs : ∀ t' dl e, s.pc t' ≠ .asleep dl e) :
      Step consumers s (s.goto t .idle)
  | notifyOne (s : QState V) (t t' : Nat) (dl : Option Nat) (e : Bool) (h : s.pc t = .pushNotify) (hs : s.pc t' = .asleep dl e) :
      Step consumers s ((s.goto t .idle).goto t' (.popLock dl))
  | pop (s : QState V) (t : Nat) (dl : Option Nat) (h : s.pc t = .idle) (hc : consumers t) :
      Step consumers s (s.goto t (.popLock dl))
  | popLock (s : QState V) (t : Nat) (dl : Option Nat) (h : s.pc t = .popLock dl) (hf : s.headMutex = none) :
      Step consumers s { s.goto t (.popCheck dl) with headMutex := some t }
  | checkEmpty (s : QState V) (t : Nat) (dl : Option Nat) (h : s.pc t = .popCheck dl) (hf : s.tailMutex = none)
      (he : s.isEmpty = true) : Step consumers s (s.goto t (.popSleep dl))
  /-- `waitAndPop` takes the head (l.91), `waitAndPopUntil` compares once more (l.97) -/
  | checkFull (s : QState V) (t : Nat) (dl : Option Nat) (h : s.pc t = .popCheck dl) (hf : s.tailMutex = none)
      (he : s.isEmpty = false) :
      Step consumers s (s.goto t (if dl = none then .popTake else .popFinal dl false))
  | sleep (s : QState V) (t : Nat) (dl : Option Nat) (h : s.pc t = .popSleep dl) :
      Step consumers s { s.goto t (.asleep dl s.isEmpty) with headMutex := none }
  | spurious (s : QState V) (t : Nat) (dl : Option Nat) (e : Bool) (h : s.pc t = .asleep dl e) :
      Step consumers s (s.goto t (.popLock dl))
  | deadline (s : QState V) (t : Nat) (d : Nat) (e : Bool) (h : s.pc t = .asleep (some d) e) (hd : d ≤ s.now) :
      Step consumers s (s.goto t (.popLate d))
  /-- `wait_until` evaluates the predicate a last time (its value is ignored), then l.97 compares again -/
  | popLate (s : QState V) (t : Nat) (d : Nat) (h : s.pc t = .popLate d) (hf : s.headMutex = none) :
      Step consumers s { s.goto t (.popFinal (some d) true) with headMutex := some t }
  | finalEmpty (s : QState V) (t : Nat) (d : Option Nat) (l : Bool) (h : s.pc t = .popFinal d l) (hf : s.tailMutex = none)
      (he : s.isEmpty = true) : Step consumers s { s.goto t (.popNull d) with nulls := s.nulls ++ [(d, s.now)] }
  | finalFull (s : QState V) (t : Nat) (d : Option Nat) (l : Bool) (h : s.pc t = .popFinal d l) (hf : s.tailMutex = none)
      (he : s.isEmpty = false) : Step consumers s (s.goto t .popTake)
  | popNull (s : QState V) (t : Nat) (d : Option Nat) (h : s.pc t = .popNull d) :
      Step consumers s { s.goto t .idle with headMutex := none }
  | popTake (s : QState V) (t : Nat) (x : Node V) (m : Nat) (h : s.pc t = .popTake) (hx : s.heap s.head = some x)
      (hm : x.next = some m) :
      Step consumers s
        { s.goto t (.popUnlock s.head s.taken.length x.data) with
          head := m, heap := set s.heap s.head (some { x with next := none }), taken := s.taken ++ [x.data] }
  | popUnlock (s : QState V) (t : Nat) (o k : Nat) (v : Option V) (h : s.pc t = .popUnlock o k v) :
      Step consumers s { s.goto t (.popRead o k v) with headMutex := none }
  | popRead (s : QState V) (t : Nat) (o k : Nat) (v : Option V) (x : Node V) (h : s.pc t = .popRead o k v)
      (hx : s.heap o = some x) :
      Step consumers s { s.goto t .idle with heap := set s.heap o none, returned := s.returned ++ [(k, x.data)] }
  | tick (s : QState V) : Step consumers s { s with now := s.now + 1 }

/-- Executions (`include/ThreadSafeQueue.hpp:22-101`). -/
inductive Steps (consumers : Nat → Prop) : QState V → QState V → Prop
  | refl (s : QState V) : Steps consumers s s
  | tail {a b c : QState V} : Steps consumers a b → Step consumers b c → Steps consumers a c

/-- Reachable from a new queue (from `include/ThreadSafeQueue.hpp:16`). -/
def Reachable (consumers : Nat → Prop) (s : QState V) : Prop := Steps consumers init s

end QCEC.Queue
