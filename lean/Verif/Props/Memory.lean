import Verif.Lemmas.Memory
/-!
# No decision diagram is used after it was freed (C71)
-/
namespace QCEC.Props
open QCEC QCEC.Mem

variable {α : Type}

theorem inv_empty : Inv (fun _ => 0) [] {} := ⟨rfl, fun _ => by simp, fun _ h => absurd h (by simp), fun _ h => by cases h⟩

/-- The record of a fault is never erased, whatever is done with the memory. -/
theorem fault_stays (L : Lib) (h : Heap) (hf : h.fault = true) (d e : Dd) :
    (h.use d).fault = true ∧ (h.result L).1.fault = true ∧ (h.multiply L d e).1.fault = true ∧ (h.incRef d).fault = true ∧
    (h.decRef d).fault = true ∧ (h.collect L).fault = true := by
  have hr : ∀ h : Heap, h.fault = true → (h.result L).1.fault = true := by
    intro h hf
    unfold Heap.result
    split
    · exact hf
    · split <;> exact hf
  have hu : ∀ (h : Heap) (d : Dd), h.fault = true → (h.use d).fault = true := fun h d hf => by simp [Heap.use, hf]
  refine ⟨hu h d hf, hr h hf, hr _ (hu _ _ (hu _ _ hf)), ?_, ?_, hf⟩
  · cases d with
    | fixed => exact hf
    | node a => exact hu h (.node a) hf
  · cases d with
    | fixed => exact hf
    | node a => simp [Heap.decRef, hu h (.node a) hf]

/-- The record tells exactly the two mistakes: using a freed diagram, and giving back a reference nobody holds. -/
theorem fault_iff (h : Heap) (hf : h.fault = false) (a : Nat) :
    ((h.use (.node a)).fault = true ↔ h.live a = false) ∧
    ((h.decRef (.node a)).fault = true ↔ h.live a = false ∨ h.refs a = 0) := by
  constructor
  · simp [Heap.use, hf, Heap.ok]
  · simp [Heap.decRef, Heap.use, hf, Heap.ok]

/-- C71: whatever simulations are performed with one checker, for whatever circuits, stimuli, application schemes, moments of being stopped
and choices of the package, no freed diagram is used and no reference given back that is not held. -/
theorem simulation_memory_safe (L : Lib) (partialEq : Bool) (ops1 ops2 : List α) (ancillary : Nat) (l : List (Sim α)) :
    (simulationChecker L partialEq ops1 ops2 ancillary l).1.fault = false := by
  obtain ⟨_, _, i⟩ := inv_simulations (L := L) partialEq ops1 ops2 ancillary l (inv_empty.result (L := L)).1
  exact i.fault

/-- C71: the references held after any number of simulations are two for every simulation that was stopped. -/
theorem simulation_references (L : Lib) (partialEq : Bool) (ops1 ops2 : List α) (ancillary : Nat) (l : List (Sim α)) :
    ∃ left : List Dd, left.length = 2 * (simulationChecker L partialEq ops1 ops2 ancillary l).2 ∧
      ∀ a, (simulationChecker L partialEq ops1 ops2 ancillary l).1.refs a = left.count (.node a) := by
  obtain ⟨left, hl, i⟩ := inv_simulations (L := L) partialEq ops1 ops2 ancillary l (inv_empty.result (L := L)).1
  exact ⟨left, hl, fun a => by rw [show (simulationChecker L partialEq ops1 ops2 ancillary l).1.refs a = _ from i.refs a]; simp⟩

/-- C71: in particular simulations that run to their end leave no reference behind, so that the package can free everything. -/
theorem completed_simulations_keep_nothing (L : Lib) (partialEq : Bool) (ops1 ops2 : List α) (ancillary : Nat) (l : List (Sim α))
    (hc : (simulationChecker L partialEq ops1 ops2 ancillary l).2 = 0) (a : Nat) :
    (simulationChecker L partialEq ops1 ops2 ancillary l).1.refs a = 0 := by
  obtain ⟨left, hl, hr⟩ := simulation_references L partialEq ops1 ops2 ancillary l
  rw [hc] at hl
  rw [hr, List.length_eq_zero_iff.1 hl]
  rfl

/-- No simulation that is never told to stop counts as stopped. -/
theorem unstopped_simulations_complete (L : Lib) (partialEq : Bool) (ops1 ops2 : List α) (ancillary : Nat) (l : List (Sim α))
    (hs : ∀ s ∈ l, ∀ n, s.ctl.stop n = false) : (simulationChecker L partialEq ops1 ops2 ancillary l).2 = 0 := by
  unfold simulationChecker
  generalize (Heap.result L {}).1 = h
  induction l generalizing h with
  | nil => rfl
  | cons s l ih =>
    unfold simulations
    simp only
    rw [ih fun t ht => hs t (List.mem_cons_of_mem _ ht)]
    have : (runSimulation L s.ctl partialEq ops1 ops2 s.fuel (stimulus L s.type ancillary h).1 (stimulus L s.type ancillary h).2).2 = true := by
      unfold runSimulation
      simp only
      rw [if_neg (by rw [hs s List.mem_cons_self]; simp)]
    rw [this]; rfl

/-- C71: the construction checker, run any number of times. -/
theorem construction_memory_safe (L : Lib) (partialEq : Bool) (ops1 ops2 : List α) (l : List (Ctl α × Nat)) :
    (runsConstruction L partialEq ops1 ops2 l {}).fault = false := by
  have key : ∀ (l : List (Ctl α × Nat)) (base : Nat → Nat) (h : Heap), Inv base [] h →
      (runsConstruction L partialEq ops1 ops2 l h).fault = false := by
    intro l
    induction l with
    | nil => exact fun _ _ i => i.fault
    | cons r l ih =>
      intro base h i
      obtain ⟨b, i'⟩ := i.runConstruction (L := L) r.1 partialEq ops1 ops2 r.2
      exact ih b _ i'
  exact key l _ _ inv_empty

/-- C71: the alternating checker with any application scheme, the lookahead scheme included, run any number of times. -/
theorem alternating_memory_safe (L : Lib) (ops1 ops2 : List α) (l : List (AltCtl α × Nat)) :
    (runsAlt L ops1 ops2 l {} none none).fault = false :=
  inv_runsAlt (base := fun _ => 0) ops1 ops2 l none none inv_empty

/-- C71: during an alternating check at most three diagrams are referenced: the functionality and the two operations looked at in advance. -/
theorem alternating_references (L : Lib) (c : AltCtl α) (ops1 ops2 : List α) (fuel : Nat) :
    ∃ left : List Dd, left.length ≤ 3 ∧ ∀ a, (runAlt L c ops1 ops2 fuel {} none none).h.refs a = left.count (.node a) := by
  have i := inv_runAlt (L := L) (base := fun _ => 0) c ops1 ops2 fuel none none inv_empty
  refine ⟨(runAlt L c ops1 ops2 fuel {} none none).d :: held (runAlt L c ops1 ops2 fuel {} none none), ?_, fun a => by rw [i.refs a]; simp⟩
  simp only [held, List.length_cons, List.length_append]
  have : ∀ o : Option Dd, o.toList.length ≤ 1 := fun o => by cases o <;> simp
  have h1 := this (runAlt L c ops1 ops2 fuel {} none none).op1
  have h2 := this (runAlt L c ops1 ops2 fuel {} none none).op2
  omega

namespace MemoryWitness

/-- A package whose results are always new and whose collections free all they can. -/
def eager : Lib where
  answer n := .node n
  frees _ _ := true
  reduces _ := true
  onIdentity _ := false
  swaps _ := 1
  gates _ := 2

/-- Never stopped, one operation of each circuit at a time. -/
def calm : Ctl Unit := { isSwap := fun _ => false, scheme := fun _ _ => (1, 1), stop := fun _ => false }

/-- Stopped at once. -/
def stopped : Ctl Unit := { calm with stop := fun _ => true }

/-- A simulation of two gates against three, in which diagrams are freed. -/
theorem simulation_case :
    (simulationChecker eager true [(), ()] [(), (), ()] 1 [⟨calm, .stabilizer, 10⟩, ⟨calm, .computationalBasis, 10⟩]).2 = 0 ∧
    (simulationChecker eager true [(), ()] [(), (), ()] 1 [⟨calm, .stabilizer, 10⟩, ⟨calm, .computationalBasis, 10⟩]).1.next > 20 ∧
    (simulationChecker eager true [(), ()] [(), (), ()] 1 [⟨calm, .stabilizer, 10⟩, ⟨calm, .computationalBasis, 10⟩]).1.live 3 = false := by
  refine ⟨?_, ?_, ?_⟩ <;> decide

/-- C71: a stopped simulation never gives back its two references. -/
theorem stopped_simulation_keeps :
    (simulationChecker eager false [(), ()] [(), (), ()] 0 [⟨stopped, .computationalBasis, 10⟩]).2 = 1 ∧
    (simulationChecker eager false [(), ()] [(), (), ()] 0 [⟨stopped, .computationalBasis, 10⟩]).1.refs 1 = 2 := by
  refine ⟨?_, ?_⟩ <;> decide

/-- Without the reference the diagram just computed would be freed and its next use a fault: the theorems above are about something. -/
theorem missing_reference_faults :
    (((Heap.result eager {}).1.collect eager).use (Heap.result eager {}).2).fault = true := by decide

/-- The lookahead scheme keeps operations referenced at the end of a run. -/
theorem lookahead_case :
    let c : AltCtl Unit := { calm with lookahead := true, skips := fun _ => false, first := fun _ => true }
    (runAlt eager c [()] [()] 10 {} none none).op2.isSome = true ∧ (runAlt eager c [()] [()] 10 {} none none).h.fault = false := by
  refine ⟨?_, ?_⟩ <;> decide

end MemoryWitness
end QCEC.Props
