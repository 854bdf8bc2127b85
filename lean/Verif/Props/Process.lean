import Verif.Spec.Process
import Verif.Props.Prepare
/-!
# C83: the tolerance a manager runs with
-/
namespace QCEC.Props
open QCEC QCEC.Prep QCEC.Proc QCEC.Spec.Proc

variable {α : Type} {acts : α → Nat → Bool} {P : Passes (Circ α)}

theorem step_tolerance {p p' : Process} {c : Call α} (h : step acts P p c = some p') : p'.tolerance = (asked c).getD p.tolerance := by
  cases c with
  | construct cfg q1 q2 =>
    unfold step at h
    simp only at h
    split at h <;> simp only [Option.some.injEq, reduceCtorEq] at h <;> subst h <;> rfl
  | set i s =>
    unfold step at h
    simp only at h
    split at h
    · simp only [Option.some.injEq] at h
      subst h
      cases s <;> rfl
    · exact absurd h (by simp)
  | run i =>
    unfold step at h
    simp only at h
    split at h
    · simp only [Option.some.injEq] at h
      subst h
      rfl
    · exact absurd h (by simp)

/-- **C83.** The tolerance in force is the last one asked for, by whichever manager, also by one whose construction has failed. -/
theorem tolerance_in_force {l : List (Call α)} {p p' : Process} (h : exec acts P p l = some p') : p'.tolerance = (lastAsked l).getD p.tolerance := by
  induction l generalizing p with
  | nil => cases h; rfl
  | cons c l ih =>
    unfold exec at h
    split at h
    · rename_i q hq
      rw [ih h, step_tolerance hq]
      unfold lastAsked
      rw [List.reverse_cons, List.findSome?_append]
      cases l.reverse.findSome? asked <;> simp [List.findSome?]
      cases asked c <;> rfl
    · exact absurd h (by simp)

/-- The tolerance of manager `i` after a call. -/
theorem step_own {p p' : Process} {c : Call α} (h : step acts P p c = some p') {i : Nat} {g : Configuration} (hi : p.managers[i]? = some g) :
    ∃ g', p'.managers[i]? = some g' ∧ ((∀ t, c ≠ .set i (.tolerance t)) → g'.execution.numericalTolerance = g.execution.numericalTolerance) ∧
      (∀ t, c = .set i (.tolerance t) → g'.execution.numericalTolerance = t) := by
  have hlt : i < p.managers.length := by
    rw [List.getElem?_eq_some_iff] at hi
    exact hi.1
  cases c with
  | construct cfg q1 q2 =>
    unfold step at h
    simp only at h
    split at h <;> simp only [Option.some.injEq, reduceCtorEq] at h <;> subst h
    · exact ⟨g, by rw [List.getElem?_append_left hlt]; exact hi, fun _ => rfl, fun _ h => absurd h (by simp)⟩
    · exact ⟨g, hi, fun _ => rfl, fun _ h => absurd h (by simp)⟩
  | set j s =>
    unfold step at h
    simp only at h
    split at h
    · rename_i c hc
      simp only [Option.some.injEq] at h
      subst h
      by_cases hj : j = i
      · subst hj
        rw [hi] at hc
        cases hc
        refine ⟨s.apply g, by simp [hlt], fun hn => ?_, fun t ht => ?_⟩
        · cases s with
          | tolerance t => exact absurd rfl (hn t)
          | maxSims n => rcases n with _ | n <;> rfl
          | _ => rfl
        · simp only [Call.set.injEq, true_and] at ht
          subst ht
          rfl
      · refine ⟨g, by simp only; rw [List.getElem?_set_ne hj]; exact hi, fun _ => rfl, fun t ht => ?_⟩
        simp only [Call.set.injEq] at ht
        exact absurd ht.1 hj
    · exact absurd h (by simp)
  | run j =>
    unfold step at h
    simp only at h
    split at h
    · simp only [Option.some.injEq] at h
      subst h
      exact ⟨g, hi, fun _ => rfl, fun _ h => absurd h (by simp)⟩
    · exact absurd h (by simp)

/-- As long as nobody asks for a tolerance on behalf of another manager, the tolerance in force stays that of manager `i`. -/
theorem own_kept {l : List (Call α)} {i : Nat} (hl : ∀ c ∈ l, OnlyFor i c) {p p' : Process} {g : Configuration} (hi : p.managers[i]? = some g)
    (ht : p.tolerance = g.execution.numericalTolerance) (h : exec acts P p l = some p') :
    ∃ g', p'.managers[i]? = some g' ∧ p'.tolerance = g'.execution.numericalTolerance := by
  induction l generalizing p g with
  | nil => cases h; exact ⟨g, hi, ht⟩
  | cons c l ih =>
    unfold exec at h
    split at h
    · rename_i q hq
      obtain ⟨g', h1, h2, h3⟩ := step_own hq hi
      have hc := hl c (by simp)
      refine ih (fun c hc => hl c (by simp [hc])) h1 ?_ h
      rw [step_tolerance hq]
      by_cases hs : ∃ t, c = .set i (.tolerance t)
      · obtain ⟨t, rfl⟩ := hs
        rw [h3 t rfl]
        rfl
      · have hn : asked c = none := by
          cases c with
          | construct => exact absurd hc (by simp [OnlyFor])
          | run => rfl
          | set j s =>
            cases s with
            | tolerance t => exact absurd ⟨t, by rw [show j = i from hc]⟩ hs
            | _ => rfl
        rw [hn, h2 fun t e => hs ⟨t, e⟩]
        exact ht
    · exact absurd h (by simp)

theorem made_tolerance {cfg : Configuration} {q1 q2 : Circ α} {m : Made α} (h : Prep.construct acts P cfg q1 q2 = .made m) :
    m.cfg.execution.numericalTolerance = cfg.execution.numericalTolerance := by
  obtain ⟨k, _, e⟩ := construct_fallback h
  rw [e]

/-- **C83.** A manager runs with the tolerance its configuration shows, if since its construction nobody has asked for a tolerance on behalf of another
manager – neither by constructing one (successfully or not) nor by `set_tolerance`. -/
theorem own_tolerance_partial {p q p' : Process} {cfg : Configuration} {q1 q2 : Circ α} {l : List (Call α)}
    (hc : exec acts P p [.construct cfg q1 q2] = some q) (hn : q.managers.length = p.managers.length + 1)
    (hl : ∀ c ∈ l, OnlyFor p.managers.length c) (h : exec acts P q l = some p') :
    ∃ g, p'.managers[p.managers.length]? = some g ∧ p'.tolerance = g.execution.numericalTolerance := by
  unfold exec at hc
  split at hc
  · rename_i r hr
    cases hc
    unfold step at hr
    simp only at hr
    split at hr
    · rename_i m hm
      simp only [Option.some.injEq] at hr
      subst hr
      exact own_kept hl (g := m.cfg) (by simp) (made_tolerance hm).symm h
    · simp only [Option.some.injEq] at hr
      subst hr
      simp at hn
    · exact absurd hr (by simp)
  · exact absurd hc (by simp)

theorem options_kept {l : List (Call α)} {i : Nat} {p p' : Process} {g : Configuration} (hi : p.managers[i]? = some g) (h : exec acts P p l = some p') :
    p'.managers[i]? = some ((settersOf i l).foldl (fun c s => s.apply c) g) := by
  have hlt : i < p.managers.length := (List.getElem?_eq_some_iff.1 hi).1
  induction l generalizing p g with
  | nil =>
    cases h
    exact hi
  | cons c l ih =>
    unfold exec at h
    split at h
    · rename_i q hq
      cases c with
      | construct cfg q1 q2 =>
        unfold step at hq
        simp only at hq
        refine ih ?_ h ?_
        · split at hq <;> simp only [Option.some.injEq, reduceCtorEq] at hq <;> subst hq
          · rw [List.getElem?_append_left hlt]
            exact hi
          · exact hi
        · split at hq <;> simp only [Option.some.injEq, reduceCtorEq] at hq <;> subst hq
          · rw [List.length_append]
            omega
          · exact hlt
      | set j s =>
        unfold step at hq
        simp only at hq
        split at hq <;> simp only [Option.some.injEq, reduceCtorEq] at hq
        rename_i c hc
        subst hq
        have hlt' : i < (p.managers.set j (s.apply c)).length := by rw [List.length_set]; exact hlt
        by_cases e : j = i
        · subst e
          rw [hi] at hc
          cases hc
          rw [settersOf, if_pos rfl, List.foldl_cons]
          exact ih (by simp [hlt]) h hlt'
        · rw [settersOf, if_neg e]
          exact ih (by simpa [List.getElem?_set_ne e] using hi) h hlt'
      | run j =>
        unfold step at hq
        simp only at hq
        split at hq <;> simp only [Option.some.injEq, reduceCtorEq] at hq
        subst hq
        exact ih hi h hlt
    · exact absurd h (by simp)

/-- **C83.** Apart from the tolerance in force, managers do not influence each other: whatever a program does with other managers before and after, the options
of a manager are those its constructor gave it for its circuits, changed by the setters called for it. -/
theorem manager_options_own {pre post : List (Call α)} {p q p' : Process} {cfg : Configuration} {q1 q2 : Circ α} {m : Made α}
    (hq : exec acts P p pre = some q) (hm : Prep.construct acts P cfg q1 q2 = .made m) (h : exec acts P q (.construct cfg q1 q2 :: post) = some p') :
    p'.managers[q.managers.length]? = some ((settersOf q.managers.length post).foldl (fun c s => s.apply c) m.cfg) := by
  unfold exec at h
  split at h
  · rename_i r hr
    unfold step at hr
    simp only [hm, Option.some.injEq] at hr
    subst hr
    exact options_kept (by simp) h
  · exact absurd h (by simp)

/-- A constructor that throws leaves no manager behind. -/
theorem failed_construction {p p' : Process} {cfg : Configuration} {q1 q2 : Circ α} {e : String} (hm : Prep.construct acts P cfg q1 q2 = .threw e)
    (h : exec acts P p [.construct cfg q1 q2] = some p') : p'.managers = p.managers := by
  simp only [exec, step, hm, Option.some.injEq] at h
  subst h
  rfl

namespace ProcessWitness

/-- A circuit of `k` qubits with one operation. -/
def circ (k : Nat) : Circ Unit where
  ndata := k
  nancillae := 0
  initialLayout := (List.range k).map fun i => (i, i)
  outputPermutation := (List.range k).map fun i => (i, i)
  ancillary := List.replicate k false
  garbage := List.replicate k false
  ops := [()]

/-- Circuits on three qubits measure in the middle. -/
def passes : Passes (Circ Unit) where
  apply _ c := c
  empty _ := false
  dynamic c := c.ndata == 3
  variableFree _ := true

/-- The operation acts on all qubits. -/
def all : Unit → Nat → Bool := fun _ _ => true

/-- A configuration with a tolerance of `t`. -/
def tol (t : Rat) : Configuration := (Configuration.default 8 0).setTolerance t

/-- `own_tolerance_partial` applies: a manager with its own setters. -/
theorem alone : ∃ q p', exec all passes { tolerance := 7 } [.construct (tol 5) (circ 2) (circ 2)] = some q ∧ q.managers.length = 1 ∧
    exec all passes q [.run 0, .set 0 (.tolerance 9), .set 0 (.parallel false), .run 0] = some p' ∧ p'.tolerance = 9 ∧
    (p'.managers.map fun c => c.execution.numericalTolerance) = [9] :=
  ⟨_, _, rfl, rfl, rfl, rfl, rfl⟩

/-- **C83, witness.** The tolerance of a manager is not its own: a manager is constructed with tolerance 5; then another one is constructed with
tolerance 3, and although the first one still shows 5, it now runs with 3. -/
theorem other_manager : ∃ p', exec all passes { tolerance := 7 } [.construct (tol 5) (circ 2) (circ 2), .construct (tol 3) (circ 2) (circ 2)] = some p' ∧
    p'.tolerance = 3 ∧ (p'.managers.map fun c => c.execution.numericalTolerance) = [5, 3] :=
  ⟨_, rfl, rfl, rfl⟩

/-- **C83, witness.** The same happens if the construction of the other manager fails with an exception. -/
theorem failed_manager : ∃ p', exec all passes { tolerance := 7 } [.construct (tol 5) (circ 2) (circ 2), .construct (tol 3) (circ 3) (circ 3)] = some p' ∧
    p'.tolerance = 3 ∧ (p'.managers.map fun c => c.execution.numericalTolerance) = [5] :=
  ⟨_, rfl, rfl, rfl⟩

/-- `manager_options_own` applies: between two other managers, of which one cannot be constructed, with setters called for it and for others. -/
theorem options_met : ∃ m q p', exec all passes { tolerance := 7 } [.construct (tol 5) (circ 2) (circ 2), .construct (tol 3) (circ 3) (circ 3)] = some q ∧
    Prep.construct all passes (tol 4) (circ 2) (circ 2) = .made m ∧
    exec all passes q [.construct (tol 4) (circ 2) (circ 2), .set 0 (.parallel true), .construct (tol 6) (circ 2) (circ 2), .set 1 (.parallel false), .run 0]
      = some p' ∧ q.managers.length = 1 ∧ (p'.managers.map fun c => c.execution.parallel) = [true, false, true] :=
  ⟨_, _, _, rfl, rfl, rfl, rfl, rfl⟩

end ProcessWitness

end QCEC.Props
