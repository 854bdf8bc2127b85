import Verif.Model.Process
/-!
# Managers used by several threads of one process

Each thread of the program constructs managers and uses its own ones only; `verify()` (`src/mqt/qcec/verify.py:53-62`) is such a program: a construction and a run.
Nothing serialises the calls of different threads: the bindings declare that they do not need Python's global lock (`src/python/bindings.cpp:74`), and where
there is one, another thread may get it between the construction and the run.

Simplification: the assignment of the tolerance is atomic (the static member of the package is a plain variable, so that C++ gives an overlapping access
no meaning at all); what else a run does is not visible to other threads.
-/
namespace QCEC.Proc
open QCEC QCEC.Prep

/-- A thread: the calls it has not made yet – which name its managers in the order in which it has constructed them –, its managers, and the one it is running
(calls of `include/EquivalenceCheckingManager.hpp:98-249`). -/
structure Thread (α : Type) where
  todo : List (Call α)
  own : List Nat := []
  running : Option Nat := none

/-- The process and its threads (`src/python/bindings.cpp:74`). -/
structure Threads (α : Type) where
  proc : Process
  threads : List (Thread α)

/-- A step of one of the threads. -/
inductive TStep {α : Type} (acts : α → Nat → Bool) (P : Passes (Circ α)) : Threads α → Threads α → Prop
  /-- the constructor, `src/EquivalenceCheckingManager.cpp:354-410`; the manager gets the next number -/
  | construct (s : Threads α) (t : Nat) (th : Thread α) (cfg : Configuration) (qc1 qc2 : Circ α) (rest : List (Call α)) (m : Made α) (p' : Process)
      (ht : s.threads[t]? = some th) (hr : th.running = none) (htodo : th.todo = .construct cfg qc1 qc2 :: rest)
      (hm : Prep.construct acts P cfg qc1 qc2 = .made m) (hs : step acts P s.proc (.construct cfg qc1 qc2) = some p') :
      TStep acts P s ⟨p', s.threads.set t { th with todo := rest, own := th.own ++ [s.proc.managers.length] }⟩
  /-- the constructor throws, `src/EquivalenceCheckingManager.cpp:365-368`; the thread goes on -/
  | throw (s : Threads α) (t : Nat) (th : Thread α) (cfg : Configuration) (qc1 qc2 : Circ α) (rest : List (Call α)) (e : String) (p' : Process)
      (ht : s.threads[t]? = some th) (hr : th.running = none) (htodo : th.todo = .construct cfg qc1 qc2 :: rest)
      (hm : Prep.construct acts P cfg qc1 qc2 = .threw e) (hs : step acts P s.proc (.construct cfg qc1 qc2) = some p') :
      TStep acts P s ⟨p', s.threads.set t { th with todo := rest }⟩
  /-- a setter, `include/EquivalenceCheckingManager.hpp:119-249` -/
  | set (s : Threads α) (t : Nat) (th : Thread α) (k i : Nat) (x : Setter) (rest : List (Call α)) (p' : Process)
      (ht : s.threads[t]? = some th) (hr : th.running = none) (htodo : th.todo = .set k x :: rest) (hk : th.own[k]? = some i)
      (hs : step acts P s.proc (.set i x) = some p') :
      TStep acts P s ⟨p', s.threads.set t { th with todo := rest }⟩
  /-- `run()` begins, `src/EquivalenceCheckingManager.cpp:293` -/
  | begin (s : Threads α) (t : Nat) (th : Thread α) (k i : Nat) (rest : List (Call α)) (p' : Process)
      (ht : s.threads[t]? = some th) (hr : th.running = none) (htodo : th.todo = .run k :: rest) (hk : th.own[k]? = some i)
      (hs : step acts P s.proc (.run i) = some p') :
      TStep acts P s ⟨p', s.threads.set t { th with todo := rest, running := some i }⟩
  /-- `run()` returns, `src/EquivalenceCheckingManager.cpp:352` -/
  | finish (s : Threads α) (t : Nat) (th : Thread α) (i : Nat) (ht : s.threads[t]? = some th) (hr : th.running = some i) :
      TStep acts P s ⟨s.proc, s.threads.set t { th with running := none }⟩

/-- Executions, in any order of the threads' steps (`src/python/bindings.cpp:74`). -/
inductive TSteps {α : Type} (acts : α → Nat → Bool) (P : Passes (Circ α)) : Threads α → Threads α → Prop
  | refl (s : Threads α) : TSteps acts P s s
  | tail {s s' s'' : Threads α} (h : TSteps acts P s s') (st : TStep acts P s' s'') : TSteps acts P s s''

/-- Threads that have not made any call yet, in a process whose package has tolerance `tol` (calls of `include/EquivalenceCheckingManager.hpp:98-249`). -/
def Threads.start {α : Type} (tol : Rat) (programs : List (List (Call α))) : Threads α :=
  { proc := { tolerance := tol }, threads := programs.map fun l => { todo := l } }

end QCEC.Proc
