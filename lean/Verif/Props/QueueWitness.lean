import Verif.Props.Queue
/-!
# The hypotheses of the queue theorems are met
-/
namespace QCEC.Props
open QCEC.Queue

/-- A push and a pop: the value comes back, the queue is empty and quiescent. -/
example : ∃ s : QState Nat, Reachable (fun t => t = 0) s ∧ s.pushed = [7] ∧ s.returned = [(0, some 7)] ∧ s.isEmpty = true := by
  have r0 : Reachable (fun t => t = 0) (init : QState Nat) := Steps.refl _
  have r1 := Steps.tail r0 (Step.push _ 1 7 1 rfl rfl)
  have r2 := Steps.tail r1 (Step.pushLock _ 1 7 1 rfl rfl)
  have r3 := Steps.tail r2 (Step.pushData _ 1 7 1 {} rfl rfl)
  have r4 := Steps.tail r3 (Step.pushNext _ 1 7 1 ⟨some 7, none⟩ rfl rfl)
  have r5 := Steps.tail r4 (Step.pushTail _ 1 7 1 rfl)
  have r6 := Steps.tail r5 (Step.pushUnlock _ 1 rfl)
  have r7 := Steps.tail r6 (Step.pop _ 0 none rfl rfl)
  have r8 := Steps.tail r7 (Step.popLock _ 0 none rfl rfl)
  have r9 := Steps.tail r8 (Step.checkFull _ 0 none rfl rfl rfl)
  have r10 := Steps.tail r9 (Step.popTake _ 0 ⟨some 7, some 1⟩ 1 rfl rfl rfl)
  have r11 := Steps.tail r10 (Step.popUnlock _ 0 0 0 (some 7) rfl)
  have r12 := Steps.tail r11 (Step.popRead _ 0 0 0 (some 7) ⟨some 7, none⟩ rfl rfl)
  exact ⟨_, r12, rfl, rfl, rfl⟩

/-- A timed pop on an empty queue returns null after its deadline. -/
example : ∃ s : QState Nat, Reachable (fun t => t = 0) s ∧ s.nulls = [(some 1, 1)] ∧ s.pc 0 = .popNull (some 1) := by
  have r0 : Reachable (fun t => t = 0) (init : QState Nat) := Steps.refl _
  have r1 := Steps.tail r0 (Step.pop _ 0 (some 1) rfl rfl)
  have r2 := Steps.tail r1 (Step.popLock _ 0 (some 1) rfl rfl)
  have r3 := Steps.tail r2 (Step.checkEmpty _ 0 (some 1) rfl rfl rfl)
  have r4 := Steps.tail r3 (Step.sleep _ 0 (some 1) rfl)
  have r5 := Steps.tail r4 (Step.tick _)
  have r6 := Steps.tail r5 (Step.deadline _ 0 1 true rfl (by decide))
  have r7 := Steps.tail r6 (Step.popLate _ 0 1 rfl rfl)
  have r8 := Steps.tail r7 (Step.finalEmpty _ 0 (some 1) true rfl rfl rfl)
  exact ⟨_, r8, rfl, rfl⟩

/-- A consumer asleep since the queue was empty, an element, and the producer about to notify (`queue_wakeup_partial`,
`queue_notify_wakes`). -/
example : ∃ s : QState Nat, Reachable (fun t => t = 0) s ∧ s.pc 0 = .asleep none true ∧ s.isEmpty = false ∧
    s.pc 1 = .pushNotify := by
  have r0 : Reachable (fun t => t = 0) (init : QState Nat) := Steps.refl _
  have r1 := Steps.tail r0 (Step.pop _ 0 none rfl rfl)
  have r2 := Steps.tail r1 (Step.popLock _ 0 none rfl rfl)
  have r3 := Steps.tail r2 (Step.checkEmpty _ 0 none rfl rfl rfl)
  have r4 := Steps.tail r3 (Step.sleep _ 0 none rfl)
  have r5 := Steps.tail r4 (Step.push _ 1 7 1 rfl rfl)
  have r6 := Steps.tail r5 (Step.pushLock _ 1 7 1 rfl rfl)
  have r7 := Steps.tail r6 (Step.pushData _ 1 7 1 {} rfl rfl)
  have r8 := Steps.tail r7 (Step.pushNext _ 1 7 1 ⟨some 7, none⟩ rfl rfl)
  have r9 := Steps.tail r8 (Step.pushTail _ 1 7 1 rfl)
  have r10 := Steps.tail r9 (Step.pushUnlock _ 1 rfl)
  exact ⟨_, r10, rfl, rfl, rfl⟩

/-- Two threads inside the queue at once, accessing different nodes (`queue_no_race`, `queue_no_deadlock`). -/
example : ∃ s : QState Nat, Reachable (fun t => t = 0) s ∧ s.pc 0 = .popTake ∧ s.pc 1 = .pushData 8 2 ∧
    accesses s (s.pc 0) = some 0 ∧ accesses s (s.pc 1) = some 1 := by
  have r0 : Reachable (fun t => t = 0) (init : QState Nat) := Steps.refl _
  have r1 := Steps.tail r0 (Step.push _ 1 7 1 rfl rfl)
  have r2 := Steps.tail r1 (Step.pushLock _ 1 7 1 rfl rfl)
  have r3 := Steps.tail r2 (Step.pushData _ 1 7 1 {} rfl rfl)
  have r4 := Steps.tail r3 (Step.pushNext _ 1 7 1 ⟨some 7, none⟩ rfl rfl)
  have r5 := Steps.tail r4 (Step.pushTail _ 1 7 1 rfl)
  have r6 := Steps.tail r5 (Step.pushUnlock _ 1 rfl)
  have r7 := Steps.tail r6 (Step.pop _ 0 none rfl rfl)
  have r8 := Steps.tail r7 (Step.popLock _ 0 none rfl rfl)
  have r9 := Steps.tail r8 (Step.checkFull _ 0 none rfl rfl rfl)
  have hno : ∀ t' dl e, (set (set (set (set (set (set (set (set (set (fun _ => Pc.idle) 1 (.pushLock 7 1)) 1 (.pushData 7 1)) 1
      (.pushNext 7 1)) 1 (.pushTail 7 1)) 1 .pushUnlock) 1 .pushNotify) 0 (.popLock none)) 0 (.popCheck none)) 0 .popTake t')
      ≠ (.asleep dl e : Pc Nat) := by
    intro t' dl e
    by_cases h0 : t' = 0
    · subst h0; rw [set_same]; simp
    · rw [set_other _ _ h0, set_other _ _ h0, set_other _ _ h0]
      by_cases h1 : t' = 1
      · subst h1; rw [set_same]; simp
      · rw [set_other _ _ h1, set_other _ _ h1, set_other _ _ h1, set_other _ _ h1, set_other _ _ h1, set_other _ _ h1]; simp
  have r10 := Steps.tail r9 (Step.notifyNone _ 1 rfl hno)
  have r11 := Steps.tail r10 (Step.push _ 1 8 2 rfl rfl)
  have r12 := Steps.tail r11 (Step.pushLock _ 1 8 2 rfl rfl)
  exact ⟨_, r12, rfl, rfl, rfl, rfl⟩

end QCEC.Props
