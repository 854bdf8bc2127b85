import Verif.Model.Queue
/-!
# What is in the queue

Defined on the heap, by following pointers; independent of the ghost variables.
-/
namespace QCEC.Queue
variable {V : Type}

/-- The nodes from `a` to `c` with their values. -/
inductive Seg (heap : Nat → Option (Node V)) : Nat → List (Nat × V) → Nat → Prop
  | nil (a : Nat) : Seg heap a [] a
  | cons (a b c : Nat) (v : V) (l : List (Nat × V)) (h : heap a = some ⟨some v, some b⟩) (hs : Seg heap b l c) :
      Seg heap a ((a, v) :: l) c

/-- The values found by following `next` from the head until the tail is met. -/
def Contents (s : QState V) (vs : List V) : Prop :=
  ∃ l : List (Nat × V), Seg s.heap s.head l s.tail ∧ (∀ p ∈ l, p.1 ≠ s.tail) ∧ vs = l.map (·.2)

/-- The element a thread has taken and not yet returned: its position among the elements taken, and its value. -/
def flight : Pc V → Option (Nat × Option V)
  | .popUnlock _ k v | .popRead _ k v => some (k, v)
  | _ => none

/-- The thread is in the middle of a call and not asleep. -/
def busy : Pc V → Prop
  | .idle | .asleep _ _ => False
  | _ => True

/-- The thread is between the allocation of its node and the end of its critical section: the element is not in the queue yet. -/
def pushing (v : V) : Pc V → Prop
  | .pushLock w _ | .pushData w _ | .pushNext w _ | .pushTail w _ => w = v
  | _ => False

end QCEC.Queue
