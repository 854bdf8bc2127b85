import Verif.Spec.Setters
import Verif.Props.Kwargs
/-!
# C60: the setters of the manager

Each call sets exactly the documented options, and after any history of calls every option has the value written last.
-/
namespace QCEC.Props
open QCEC QCEC.Py QCEC.Spec QCEC.Spec.Py

/-- **C60**: one call writes the documented options, with the documented values, and leaves every other option alone. -/
theorem setter_writes (c : Configuration) (s : Setter) (o : Opt) :
    read (s.apply c) o = (((writes s).find? fun w => w.1 = o).map (·.2)).getD (read c o) := by
  cases s with
  | maxSims n => rcases n with _ | n <;> cases o <;> rfl
  | _ => cases o <;> rfl

/-- **C60**: the cost function is changed by the cost function setters only. -/
theorem setter_cost (c : Configuration) (s : Setter) :
    (s.apply c).application.costFunction = (writesCost s).getD c.application.costFunction := by
  cases s <;> rfl

theorem writes_nodup (s : Setter) : ((writes s).map (·.1)).Nodup := by
  cases s with
  | maxSims n => rcases n with _ | n <;> simp [writes]
  | _ => simp [writes]

theorem find_reverse_nodup {l : List (Opt × FieldVal)} (h : (l.map (·.1)).Nodup) (o : Opt) :
    l.reverse.find? (fun w => w.1 = o) = l.find? (fun w => w.1 = o) := by
  induction l with
  | nil => rfl
  | cons a l ih =>
    rw [List.map_cons, List.nodup_cons] at h
    rw [List.reverse_cons, List.find?_append, ih h.2, List.find?_cons]
    by_cases ha : a.1 = o
    · have : l.find? (fun w => w.1 = o) = none := by
        rw [List.find?_eq_none]
        intro w hw; simp only [decide_eq_true_eq]; intro hwo
        exact h.1 (List.mem_map.2 ⟨w, hw, hwo.trans ha.symm⟩)
      simp [this, ha]
    · simp [ha]

/-- **C60**: after any history of calls, an option has the value written to it last, and its old value if none of the calls writes it. -/
theorem setters_history (c : Configuration) (l : List Setter) (o : Opt) :
    read (applyAll c l) o = (lastWrite o l).getD (read c o) := by
  induction l generalizing c with
  | nil => rfl
  | cons s l ih =>
    change read (applyAll (s.apply c) l) o = _
    rw [ih, setter_writes]
    unfold lastWrite
    rw [List.flatMap_cons, List.reverse_append, List.find?_append, find_reverse_nodup (writes_nodup s)]
    cases (l.flatMap writes).reverse.find? (fun w => w.1 = o) <;> simp

/-- **C60**: the cost function in force is the one installed last, whatever else is called. -/
theorem setters_history_cost (c : Configuration) (l : List Setter) :
    (applyAll c l).application.costFunction = ((l.reverse.findSome? writesCost).getD c.application.costFunction) := by
  induction l generalizing c with
  | nil => rfl
  | cons s l ih =>
    change (applyAll (s.apply c) l).application.costFunction = _
    rw [ih, setter_cost, List.reverse_cons, List.findSome?_append]
    cases l.reverse.findSome? writesCost <;> cases hw : writesCost s <;> simp [List.findSome?, hw]

/-- **C60**: calls that write different options may be reordered. -/
theorem setters_commute (c : Configuration) (s t : Setter) (h : ∀ o ∈ (writes s).map (·.1), o ∉ (writes t).map (·.1))
    (hc : writesCost s = none ∨ writesCost t = none) : t.apply (s.apply c) = s.apply (t.apply c) := by
  apply config_ext
  · intro o
    simp only [setter_writes]
    cases hs : (writes s).find? fun w => w.1 = o with
    | none => simp
    | some a =>
      have ha := List.mem_of_find?_eq_some hs
      have ho : a.1 = o := by simpa using List.find?_some hs
      have hn : (writes t).find? (fun w => w.1 = o) = none := by
        rw [List.find?_eq_none]
        intro w hw; simp only [decide_eq_true_eq]; intro hwo
        exact h o (List.mem_map.2 ⟨a, ha, ho⟩) (List.mem_map.2 ⟨w, hw, hwo⟩)
      simp [hn]
  · simp only [setter_cost]
    rcases hc with hc | hc <;> simp [hc]

/-- **C60**, what a user may expect: setting the number of simulations to zero and back leaves the configuration as if the second call had
been the only one. -/
def MaxSimsLastCall : Prop := ∀ (c : Configuration) (m n : Nat), (c.setMaxSims m).setMaxSims n = c.setMaxSims n

/-- It does not hold: `setMaxSims(0)` also disables the simulation checker, and `setMaxSims(n)` does not re-enable it. -/
theorem maxSims_not_last_call : ¬ MaxSimsLastCall := by
  intro h
  have := congrArg (·.execution.runSimulationChecker) (h (Configuration.default 8 0) 0 5)
  simp [Configuration.setMaxSims, Configuration.default] at this

/-- It holds exactly for the histories that do not pass through zero, end in zero, or start with simulations disabled. -/
theorem maxSims_last_call_iff (c : Configuration) (m n : Nat) :
    (c.setMaxSims m).setMaxSims n = c.setMaxSims n ↔ (m ≠ 0 ∨ n = 0 ∨ c.execution.runSimulationChecker = false) := by
  rcases c with ⟨⟨e1, e2, e3, e4, e5, e6, e7, e8⟩, o, a, f, s, p⟩
  by_cases hm : m = 0 <;> by_cases hn : n = 0 <;> cases e6 <;> simp [Configuration.setMaxSims, hm, hn]

/-- **C60**, what a user may expect: `set_max_sims()` without an argument restores the default of a fresh configuration. -/
def MaxSimsDefaultRestores : Prop := ∀ hw, pythonDefaultMaxSims hw = computeMaxSims hw

/-- It does not hold on a machine that reports no or one hardware thread: the default argument wraps around to more than four billion
simulations, the case `computeMaxSims` takes care of. -/
theorem maxSims_default_wraps : pythonDefaultMaxSims 0 = 2 ^ 32 - 2 ∧ pythonDefaultMaxSims 1 = 2 ^ 32 - 1 ∧ ¬ MaxSimsDefaultRestores := by
  refine ⟨by decide, by decide, fun h => ?_⟩
  exact absurd (h 1) (by decide)

/-- It holds exactly if the machine reports at least two threads (a 32 bit number). -/
theorem maxSims_default_iff (hw : Nat) (h : hw < 2 ^ 32) : pythonDefaultMaxSims hw = computeMaxSims hw ↔ 2 ≤ hw := by
  unfold pythonDefaultMaxSims computeMaxSims
  split <;> omega

/-- A history meeting the theorems: profile, then scheme, then cost function for one checker. -/
theorem setters_case (c : Configuration) (f : CostKey → Nat) :
    let c' := applyAll c [.profile "p", .maxSims 0, .scheme .lookahead, .maxSims 3, .alternatingCost f]
    c'.application.alternatingScheme = .gateCost ∧ c'.application.constructionScheme = .lookahead ∧ c'.application.profile = "p" ∧
    c'.simulation.maxSims = 3 ∧ c'.execution.runSimulationChecker = false ∧ c'.application.costFunction = f := by
  refine ⟨rfl, rfl, rfl, rfl, rfl, rfl⟩

end QCEC.Props
