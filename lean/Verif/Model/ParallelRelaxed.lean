import Verif.Model.Parallel
/-!
# The parallel flow on a machine with delayed visibility of plain variables

`Verif/Model/Parallel.lean` lets every thread see the last value written.  `done` and the pointers `checkers[i]` are plain variables
(`include/EquivalenceCheckingManager.hpp:258-265`), so compilers and machines are free to delay or reorder the accesses to them.  A worker
stores its pointer and then reads `done` (`EquivalenceCheckingManager.hpp:329-340`), the main thread stores `done` and then reads the pointers
(`299-306`): with store buffers both may read the old values.  Here every such read may return the old value at any time.

Everything else a thread reads has been handed over by the queue's mutex, by the start or by the end of a thread, and is therefore up to
date.  (Formally, C++ gives the accesses above no meaning at all, see C69; this model is about compiled code that performs them.)
-/
namespace QCEC.ParR
open QCEC QCEC.Mgr QCEC.Par

/-- A step of the sequentially consistent flow, or one with a read of an old value (reads of `done` and `checkers` in `include/EquivalenceCheckingManager.hpp:299-306,328-342`). -/
inductive RStep (env : ParEnv) : PState → PState → Prop
  | usual {s s' : PState} (h : Step env s s') : RStep env s s'
  /-- the worker reads `done` as false although it has been set, `EquivalenceCheckingManager.hpp:340-342` -/
  | stale (s : PState) (i : Nat) (x : Slot) (hx : s.slots[i]? = some x) (hp : x.pc = .built) (hd : s.done = true)
      (hm : ∀ e, s.main ≠ .ended e) : RStep env s (s.upd i fun y => { y with pc := .running })
  /-- the main thread reads `checkers[i]` as null although it has been set, `EquivalenceCheckingManager.hpp:301-305` -/
  | miss (s : PState) (i : Nat) (x : Slot) (hm : s.main = .signalling i) (hx : s.slots[i]? = some x) :
      RStep env s { s with main := .signalling (i + 1) }

/-- Executions (`src/EquivalenceCheckingManager.cpp:676-846`). -/
inductive RSteps (env : ParEnv) : PState → PState → Prop
  | refl (s : PState) : RSteps env s s
  | tail {a b c : PState} : RSteps env a b → RStep env b c → RSteps env a c

/-- `s` is reached by such a run (`src/EquivalenceCheckingManager.cpp:586-846`). -/
def RReachable (env : ParEnv) (cfg : Configuration) (res : Results) (s : PState) : Prop :=
  RSteps env (launch env.zxTransformable cfg res) s

end QCEC.ParR
