import Verif.Model.DD
/-!
# Helper lemmas about the control flow of the DD checkers

`applyAll` is the specification of "all operations, once each, in order": the plain fold.
-/
namespace QCEC.DD
open QCEC

section
variable {α π ρ M D : Type}

/-- Specification: apply the operations of a list one after the other. -/
def applyAll (b : Backend α π ρ M D) (dir : Dir) : List α → π → D → π × D
  | [], p, d => (p, d)
  | op :: r, p, d => applyAll b dir r (b.applyOp dir op p d).1 (b.applyOp dir op p d).2

/-- What the remaining operations will make of the current object. -/
def Cur.future (b : Backend α π ρ M D) (dir : Dir) (c : Cur α π) (d : D) : π × D := applyAll b dir c.rest c.perm d

/-- `isDone()` never goes back from `true` to `false` (nobody resets the flag). -/
def Mono (stop : Nat → Bool) : Prop := ∀ i j, i ≤ j → stop i = true → stop j = true

/-- The application scheme, asked while both circuits have operations left, yields a defined pair and makes progress on at
least one circuit. -/
def Scheme.Good (sch : Scheme α π) (n1 n2 : Nat) : Prop :=
  ∀ c1 c2, c1.rest ≠ [] → c2.rest ≠ [] → c1.rest.length ≤ n1 → c2.rest.length ≤ n2 →
    ∃ a1 a2, sch c1 c2 = some (a1, a2) ∧ (0 < a1 ∨ 0 < a2)

theorem applyGate_future (b : Backend α π ρ M D) (dir : Dir) (c : Cur α π) (d : D) :
    (applyGate b dir c d).1.future b dir (applyGate b dir c d).2 = c.future b dir d := by
  unfold applyGate Cur.future
  cases h : c.rest with
  | nil => simp [h]
  | cons op r => simp [applyAll]

theorem applySwapsAux_future (b : Backend α π ρ M D) (dir : Dir) (l : List α) (p : π) (d : D) :
    (applySwapsAux b dir l p d).1.future b dir (applySwapsAux b dir l p d).2 = applyAll b dir l p d := by
  induction l generalizing p d with
  | nil => simp [applySwapsAux, Cur.future]
  | cons op r ih =>
    unfold applySwapsAux
    split
    · simp [ih, applyAll]
    · simp [Cur.future]

theorem applySwaps_future (b : Backend α π ρ M D) (dir : Dir) (c : Cur α π) (d : D) :
    (applySwaps b dir c d).1.future b dir (applySwaps b dir c d).2 = c.future b dir d :=
  applySwapsAux_future b dir c.rest c.perm d

theorem applySwaps_length (b : Backend α π ρ M D) (dir : Dir) (c : Cur α π) (d : D) :
    (applySwaps b dir c d).1.rest.length ≤ c.rest.length := applySwapsAux_length b dir c.rest c.perm d

theorem applySwapsAux_head (b : Backend α π ρ M D) (dir : Dir) (l : List α) (p : π) (d : D) (op : α) (r : List α)
    (h : (applySwapsAux b dir l p d).1.rest = op :: r) : b.isSwap op = false := by
  induction l generalizing p d with
  | nil => simp [applySwapsAux] at h
  | cons o t ih =>
    unfold applySwapsAux at h
    split at h
    · exact ih _ _ h
    · rename_i hs
      simp at h
      rw [← h.1]; simpa using hs

theorem applySwaps_head (b : Backend α π ρ M D) (dir : Dir) (c : Cur α π) (d : D) (op : α) (r : List α)
    (h : (applySwaps b dir c d).1.rest = op :: r) : b.isSwap op = false :=
  applySwapsAux_head b dir _ _ _ _ _ h

theorem applyGate_length (b : Backend α π ρ M D) (dir : Dir) (c : Cur α π) (d : D) :
    (applyGate b dir c d).1.rest.length = c.rest.length - 1 := by
  unfold applyGate
  cases h : c.rest with
  | nil => simp [h]
  | cons op r => simp

theorem advance_future (b : Backend α π ρ M D) (dir : Dir) (k : Nat) (c : Cur α π) (d : D) :
    (advance b dir k c d).1.future b dir (advance b dir k c d).2 = c.future b dir d := by
  induction k generalizing c d with
  | zero => simp [advance]
  | succ k ih =>
    unfold advance
    split
    · rfl
    · simp only [ih, applySwaps_future, applyGate_future]

theorem advance_length (b : Backend α π ρ M D) (dir : Dir) (k : Nat) (c : Cur α π) (d : D) :
    (advance b dir k c d).1.rest.length ≤ c.rest.length := by
  induction k generalizing c d with
  | zero => simp [advance]
  | succ k ih =>
    unfold advance
    split
    · exact Nat.le_refl _
    · have h1 := applyGate_length b dir c d
      have h2 := applySwaps_length b dir (applyGate b dir c d).1 (applyGate b dir c d).2
      exact Nat.le_trans (ih _ _) (Nat.le_trans h2 (by omega))

theorem advance_lt (b : Backend α π ρ M D) (dir : Dir) (k : Nat) (c : Cur α π) (d : D) (hk : 0 < k) (hc : c.rest ≠ []) :
    (advance b dir k c d).1.rest.length < c.rest.length := by
  cases k with
  | zero => omega
  | succ k =>
    unfold advance
    have hf : c.finished = false := by
      unfold Cur.finished; cases h : c.rest with
      | nil => exact absurd h hc
      | cons _ _ => rfl
    rw [if_neg (by simp [hf])]
    have : 0 < c.rest.length := List.length_pos_iff.mpr hc
    have h1 := applyGate_length b dir c d
    have h2 := applySwaps_length b dir (applyGate b dir c d).1 (applyGate b dir c d).2
    exact Nat.lt_of_le_of_lt (advance_length _ _ _ _ _) (Nat.lt_of_le_of_lt h2 (by omega))

theorem finishTask_spec (b : Backend α π ρ M D) (dir : Dir) (c : Cur α π) (d : D) :
    finishTask b dir c d = ({ rest := [], perm := (c.future b dir d).1 }, (c.future b dir d).2) := by
  fun_induction finishTask b dir c d with
  | case1 c d h r ih =>
    rw [ih]
    simp only [r, advance_future]
  | case2 c d h =>
    rcases c with ⟨rest, perm⟩
    simp [Cur.finished] at h
    subst h
    simp [Cur.future, applyAll]

theorem Mono.false_of_le {stop : Nat → Bool} (hm : Mono stop) {i j : Nat} (h : i ≤ j) (hj : stop j = false) :
    stop i = false := by
  cases hi : stop i with
  | false => rfl
  | true => rw [hm i j h hi] at hj; exact absurd hj (by simp)

theorem executeLoop_stopped (b : Backend α π ρ M D) (sch : Scheme α π) (stop : Nat → Bool) (fuel : Nat) (s : Two α π D)
    (hs : stop s.polls = true) :
    ∃ n, s.polls ≤ n ∧ executeLoop b sch stop (fuel + 1) s = .ok { s with polls := n } := by
  unfold executeLoop
  split
  · exact ⟨s.polls, Nat.le_refl _, rfl⟩
  · exact ⟨s.polls + 1, Nat.le_succ _, rfl⟩

theorem finished_iff (c : Cur α π) : c.finished = true ↔ c.rest = [] := by
  unfold Cur.finished; cases c.rest <;> simp

theorem finished_false_iff (c : Cur α π) : c.finished = false ↔ c.rest ≠ [] := by
  unfold Cur.finished; cases c.rest <;> simp

/-- The main loop of the construction/simulation checkers terminates and never loses or duplicates work. -/
theorem executeLoop_spec (b : Backend α π ρ M D) (sch : Scheme α π) (stop : Nat → Bool) (hm : Mono stop) (n1 n2 : Nat)
    (hg : sch.Good n1 n2) (fuel : Nat) (s : Two α π D) (h1 : s.c1.rest.length ≤ n1) (h2 : s.c2.rest.length ≤ n2)
    (hf : s.c1.rest.length + s.c2.rest.length + 2 ≤ fuel) :
    ∃ s', executeLoop b sch stop fuel s = .ok s' ∧ s'.c1.future b .left s'.d1 = s.c1.future b .left s.d1 ∧
      s'.c2.future b .left s'.d2 = s.c2.future b .left s.d2 ∧ s.polls ≤ s'.polls := by
  induction fuel generalizing s with
  | zero => omega
  | succ fuel ih =>
    unfold executeLoop
    by_cases hfin : (s.c1.finished || s.c2.finished) = true
    · rw [if_pos hfin]; exact ⟨s, rfl, rfl, rfl, Nat.le_refl _⟩
    · rw [if_neg hfin]
      by_cases hs0 : stop s.polls = true
      · rw [if_pos hs0]; exact ⟨_, rfl, rfl, rfl, Nat.le_succ _⟩
      · rw [if_neg hs0]
        simp only
        have e1 := applySwaps_future b .left s.c1 s.d1
        have e2 := applySwaps_future b .left s.c2 s.d2
        have l1 := applySwaps_length b .left s.c1 s.d1
        have l2 := applySwaps_length b .left s.c2 s.d2
        generalize applySwaps b .left s.c1 s.d1 = r1 at e1 l1
        generalize applySwaps b .left s.c2 s.d2 = r2 at e2 l2
        rcases r1 with ⟨c1, d1⟩
        rcases r2 with ⟨c2, d2⟩
        simp only at e1 e2 l1 l2 ⊢
        simp only [Bool.or_eq_true, not_or, Bool.not_eq_true, finished_false_iff] at hfin
        have hp1 : 0 < s.c1.rest.length := List.length_pos_iff.mpr hfin.1
        have hp2 : 0 < s.c2.rest.length := List.length_pos_iff.mpr hfin.2
        obtain ⟨fuel, rfl⟩ : ∃ f, fuel = f + 1 := ⟨fuel - 1, by omega⟩
        by_cases hfin' : (c1.finished || c2.finished) = true
        · rw [if_pos hfin']
          have : c1.rest.length + c2.rest.length < s.c1.rest.length + s.c2.rest.length := by
            simp only [Bool.or_eq_true, finished_iff] at hfin'
            rcases hfin' with h | h <;> simp only [h, List.length_nil] <;> omega
          obtain ⟨s', hs', f1, f2, hp⟩ := ih { c1 := c1, d1 := d1, c2 := c2, d2 := d2, polls := s.polls + 1 }
            (by simp only; omega) (by simp only; omega) (by simp only; omega)
          exact ⟨s', hs', by rw [f1, ← e1], by rw [f2, ← e2], by simp only at hp; omega⟩
        · rw [if_neg hfin']
          simp only [Bool.or_eq_true, not_or, Bool.not_eq_true, finished_false_iff] at hfin'
          by_cases hs1 : stop (s.polls + 1) = true
          · rw [if_pos hs1]
            obtain ⟨n, hn, hn'⟩ := executeLoop_stopped b sch stop fuel
              { c1 := c1, d1 := d1, c2 := c2, d2 := d2, polls := s.polls + 1 + 1 } (hm _ _ (by simp) hs1)
            exact ⟨_, hn', e1, e2, by simp only at hn ⊢; omega⟩
          · rw [if_neg hs1]
            obtain ⟨a1, a2, hsch, hpos⟩ := hg c1 c2 hfin'.1 hfin'.2 (by omega) (by omega)
            rw [hsch]
            simp only
            by_cases hst : stop (s.polls + 1 + 1 + 1) = true
            · -- stopped within this iteration: the next one ends the loop
              obtain ⟨n, hn, hn'⟩ := executeLoop_stopped b sch stop fuel
                { c1 := (if stop (s.polls + 1 + 1) = true then (c1, d1) else advance b .left a1 c1 d1).1
                  d1 := (if stop (s.polls + 1 + 1) = true then (c1, d1) else advance b .left a1 c1 d1).2
                  c2 := (if stop (s.polls + 1 + 1 + 1) = true then (c2, d2) else advance b .left a2 c2 d2).1
                  d2 := (if stop (s.polls + 1 + 1 + 1) = true then (c2, d2) else advance b .left a2 c2 d2).2
                  polls := s.polls + 1 + 1 + 2 } (hm _ _ (by simp) hst)
              refine ⟨_, hn', ?_, ?_, ?_⟩
              · cases stop (s.polls + 1 + 1)
                · simp [advance_future, e1]
                · simp [e1]
              · cases stop (s.polls + 1 + 1 + 1)
                · simp [advance_future, e2]
                · simp [e2]
              · simp only at hn ⊢; omega
            · have hst' : stop (s.polls + 1 + 1) = false :=
                hm.false_of_le (j := s.polls + 1 + 1 + 1) (by omega) (by simpa using hst)
              simp only [hst', Bool.not_eq_true] at hst ⊢
              simp only [hst, Bool.false_eq_true, if_false]
              have g1 := advance_future b .left a1 c1 d1
              have g2 := advance_future b .left a2 c2 d2
              have k1 := advance_length b .left a1 c1 d1
              have k2 := advance_length b .left a2 c2 d2
              have kk : (advance b .left a1 c1 d1).1.rest.length + (advance b .left a2 c2 d2).1.rest.length
                  < c1.rest.length + c2.rest.length := by
                rcases hpos with h | h
                · have := advance_lt b .left a1 c1 d1 h hfin'.1; omega
                · have := advance_lt b .left a2 c2 d2 h hfin'.2; omega
              obtain ⟨s', hs', f1, f2, hp⟩ := ih
                { c1 := (advance b .left a1 c1 d1).1, d1 := (advance b .left a1 c1 d1).2
                  c2 := (advance b .left a2 c2 d2).1, d2 := (advance b .left a2 c2 d2).2
                  polls := s.polls + 1 + 1 + 2 }
                (by simp only; omega) (by simp only; omega) (by simp only; omega)
              exact ⟨s', hs', by rw [f1, g1, e1], by rw [f2, g2, e2], by simp only at hp; omega⟩

/-- Specification of what an uninterrupted construction/simulation check computes for one circuit: all operations in order,
then the correction to the output permutation, the ancillary reduction and (for partial equivalence) the garbage reduction. -/
def finalObject (b : Backend α π ρ M D) (partialEq : Bool) (qc : Circuit α π ρ) (init : D) : D :=
  let r := applyAll b .left qc.ops qc.initialLayout init
  let d := b.reduceAncillae qc.ancillary true (b.changePerm true r.2 r.1 qc.outputPermutation).1
  if partialEq then b.reduceGarbage qc.garbage true d else d

theorem postprocessTask_polls (b : Backend α π ρ M D) (pe : Bool) (stop : Nat → Bool) (qc : Circuit α π ρ) (c : Cur α π)
    (d : D) (n : Nat) : n ≤ (postprocessTask b pe stop qc .left c d n).2.2 := by
  unfold postprocessTask
  simp only
  split
  · simp
  · split
    · simp
    · split <;> simp

theorem postprocessTask_spec (b : Backend α π ρ M D) (pe : Bool) (stop : Nat → Bool) (hm : Mono stop) (qc : Circuit α π ρ)
    (c : Cur α π) (d : D) (n : Nat) (h : stop (postprocessTask b pe stop qc .left c d n).2.2 = false) :
    (postprocessTask b pe stop qc .left c d n).2.1 =
      (let d := b.reduceAncillae qc.ancillary true (b.changePerm true d c.perm qc.outputPermutation).1
       if pe then b.reduceGarbage qc.garbage true d else d) ∧
    (postprocessTask b pe stop qc .left c d n).1.rest = c.rest := by
  unfold postprocessTask at h ⊢
  simp only [Dir.regular] at h ⊢
  by_cases h0 : stop n = true
  · rw [if_pos h0] at h; simp only at h; rw [hm _ _ (Nat.le_succ _) h0] at h; exact absurd h (by simp)
  · rw [if_neg h0] at h ⊢
    by_cases h1 : stop (n + 1) = true
    · rw [if_pos h1] at h; simp only at h; rw [hm _ _ (Nat.le_succ _) h1] at h; exact absurd h (by simp)
    · rw [if_neg h1]
      cases pe <;> simp

/-- Outcome of a construction/simulation run under an arbitrary stop signal. -/
theorem runTwo_spec (b : Backend α π ρ M D) (sch : Scheme α π) (pe : Bool) (verdict : D → D → Criterion)
    (stop : Nat → Bool) (hm : Mono stop) (prev : Criterion) (qc1 qc2 : Circuit α π ρ)
    (hg : sch.Good qc1.ops.length qc2.ops.length) (i1 i2 : D) (fuel : Nat)
    (hf : qc1.ops.length + qc2.ops.length + 2 ≤ fuel) :
    ∃ s : Two α π D, (stop s.polls = true ∧ runTwo b sch pe verdict stop prev qc1 qc2 i1 i2 fuel = .ok (prev, s)) ∨
      (stop s.polls = false ∧
       runTwo b sch pe verdict stop prev qc1 qc2 i1 i2 fuel =
        .ok (verdict (finalObject b pe qc1 i1) (finalObject b pe qc2 i2), s) ∧
       s.c1.rest = [] ∧ s.c2.rest = [] ∧ s.d1 = finalObject b pe qc1 i1 ∧ s.d2 = finalObject b pe qc2 i2) := by
  unfold runTwo
  obtain ⟨s0, h0, f1, f2, hp⟩ := executeLoop_spec b sch stop hm qc1.ops.length qc2.ops.length hg fuel
    { c1 := .start qc1, d1 := i1, c2 := .start qc2, d2 := i2, polls := 0 } (Nat.le_refl _) (Nat.le_refl _) hf
  rw [h0]
  simp only
  simp only at f1 f2
  generalize hs1 : finishBoth b stop s0 = s1
  generalize hs2 : postprocessBoth b pe stop qc1 qc2 s1 = s2
  refine ⟨s2, ?_⟩
  cases hst : stop s2.polls with
  | true => left; simp
  | false =>
    right
    have hfp : s1.polls = s0.polls + 2 := by rw [← hs1]; rfl
    have hpp : s1.polls + 2 ≤ s2.polls ∧
        (stop s1.polls = false → (postprocessTask b pe stop qc1 .left s1.c1 s1.d1 (s1.polls + 1)).2.2 < s2.polls) := by
      rw [← hs2]; unfold postprocessBoth; simp only
      have p1 := postprocessTask_polls b pe stop qc1 s1.c1 s1.d1 (s1.polls + 1)
      cases stop s1.polls <;> simp only [Bool.false_eq_true, if_false, if_true]
      · split
        · simp only; exact ⟨by omega, fun _ => by omega⟩
        · have p2 := postprocessTask_polls b pe stop qc2 s1.c2 s1.d2
            ((postprocessTask b pe stop qc1 .left s1.c1 s1.d1 (s1.polls + 1)).2.2 + 1)
          exact ⟨by omega, fun _ => by omega⟩
      · split
        · simp
        · have p2 := postprocessTask_polls b pe stop qc2 s1.c2 s1.d2 (s1.polls + 1 + 1)
          exact ⟨by omega, fun h => absurd h (by simp)⟩
    have hA : stop s0.polls = false := hm.false_of_le (by omega) hst
    have hB : stop (s0.polls + 1) = false := hm.false_of_le (j := s2.polls) (by omega) hst
    have hC : stop s1.polls = false := hm.false_of_le (j := s2.polls) (by omega) hst
    have hD := hpp.2 hC
    have hE : stop (postprocessTask b pe stop qc1 .left s1.c1 s1.d1 (s1.polls + 1)).2.2 = false :=
      hm.false_of_le (Nat.le_of_lt hD) hst
    have t1 := postprocessTask_spec b pe stop hm qc1 s1.c1 s1.d1 _ hE
    have hs1' : s1.c1 = { rest := [], perm := (applyAll b .left qc1.ops qc1.initialLayout i1).1 } ∧
        s1.d1 = (applyAll b .left qc1.ops qc1.initialLayout i1).2 ∧
        s1.c2 = { rest := [], perm := (applyAll b .left qc2.ops qc2.initialLayout i2).1 } ∧
        s1.d2 = (applyAll b .left qc2.ops qc2.initialLayout i2).2 := by
      rw [← hs1]
      unfold finishBoth
      simp only [hA, hB, Bool.false_eq_true, if_false, finishTask_spec]
      rw [f1, f2]
      simp [Cur.future, Cur.start]
    have hs2' : s2 = { c1 := (postprocessTask b pe stop qc1 .left s1.c1 s1.d1 (s1.polls + 1)).1
                       d1 := (postprocessTask b pe stop qc1 .left s1.c1 s1.d1 (s1.polls + 1)).2.1
                       c2 := (postprocessTask b pe stop qc2 .left s1.c2 s1.d2
                          ((postprocessTask b pe stop qc1 .left s1.c1 s1.d1 (s1.polls + 1)).2.2 + 1)).1
                       d2 := (postprocessTask b pe stop qc2 .left s1.c2 s1.d2
                          ((postprocessTask b pe stop qc1 .left s1.c1 s1.d1 (s1.polls + 1)).2.2 + 1)).2.1
                       polls := (postprocessTask b pe stop qc2 .left s1.c2 s1.d2
                          ((postprocessTask b pe stop qc1 .left s1.c1 s1.d1 (s1.polls + 1)).2.2 + 1)).2.2 } := by
      rw [← hs2]
      unfold postprocessBoth
      simp only [hC, hE, Bool.false_eq_true, if_false]
    have hF := hst
    rw [hs2'] at hF
    have t2 := postprocessTask_spec b pe stop hm qc2 s1.c2 s1.d2 _ hF
    have d1 : s2.d1 = finalObject b pe qc1 i1 := by
      rw [hs2']; simp only; rw [t1.1]; unfold finalObject; simp only [hs1'.1, hs1'.2.1]
    have d2 : s2.d2 = finalObject b pe qc2 i2 := by
      rw [hs2']; simp only; rw [t2.1]; unfold finalObject; simp only [hs1'.2.2.1, hs1'.2.2.2]
    refine ⟨rfl, ?_, ?_, ?_, d1, d2⟩
    · simp [d1, d2]
    · rw [hs2']; simp only; rw [t1.2, hs1'.1]
    · rw [hs2']; simp only; rw [t2.2, hs1'.2.2.1]

/-! ## The alternating loop: an invariant principle -/

/-- A property of (remaining 1, permutation 1, remaining 2, permutation 2, object) preserved by processing one operation from
either side and by skipping a pair of cancelling operations. -/
structure AltInv (b : Backend α π ρ M D) (isId : D → Bool) (opEq : α → α → Bool)
    (I : List α → π → List α → π → D → Prop) : Prop where
  left : ∀ op r1 p1 r2 p2 d, I (op :: r1) p1 r2 p2 d →
    I r1 (b.applyOp .left op p1 d).1 r2 p2 (b.applyOp .left op p1 d).2
  right : ∀ op r1 p1 r2 p2 d, I r1 p1 (op :: r2) p2 d →
    I r1 p1 r2 (b.applyOp .right op p2 d).1 (b.applyOp .right op p2 d).2
  skip : ∀ op1 op2 r1 p1 r2 p2 d, isId d = true → opEq op1 op2 = true → b.isSwap op1 = false → b.isSwap op2 = false →
    I (op1 :: r1) p1 (op2 :: r2) p2 d → I r1 p1 r2 p2 d

variable {b : Backend α π ρ M D} {isId : D → Bool} {opEq : α → α → Bool} {I : List α → π → List α → π → D → Prop}

theorem AltInv.applyGateL (h : AltInv b isId opEq I) (c1 c2 : Cur α π) (d : D) (hI : I c1.rest c1.perm c2.rest c2.perm d) :
    I (applyGate b .left c1 d).1.rest (applyGate b .left c1 d).1.perm c2.rest c2.perm (applyGate b .left c1 d).2 := by
  unfold applyGate
  cases hr : c1.rest with
  | nil => simpa [hr] using hI
  | cons op r => rw [hr] at hI; exact h.left _ _ _ _ _ _ hI

theorem AltInv.applyGateR (h : AltInv b isId opEq I) (c1 c2 : Cur α π) (d : D) (hI : I c1.rest c1.perm c2.rest c2.perm d) :
    I c1.rest c1.perm (applyGate b .right c2 d).1.rest (applyGate b .right c2 d).1.perm (applyGate b .right c2 d).2 := by
  unfold applyGate
  cases hr : c2.rest with
  | nil => simpa [hr] using hI
  | cons op r => rw [hr] at hI; exact h.right _ _ _ _ _ _ hI

theorem AltInv.swapsL (h : AltInv b isId opEq I) (c1 c2 : Cur α π) (d : D) (hI : I c1.rest c1.perm c2.rest c2.perm d) :
    I (applySwaps b .left c1 d).1.rest (applySwaps b .left c1 d).1.perm c2.rest c2.perm (applySwaps b .left c1 d).2 := by
  unfold applySwaps
  generalize c1.rest = l at *
  generalize c1.perm = p at *
  induction l generalizing p d with
  | nil => simpa [applySwapsAux] using hI
  | cons op r ih =>
    unfold applySwapsAux
    split
    · exact ih _ _ (h.left _ _ _ _ _ _ hI)
    · exact hI

theorem AltInv.swapsR (h : AltInv b isId opEq I) (c1 c2 : Cur α π) (d : D) (hI : I c1.rest c1.perm c2.rest c2.perm d) :
    I c1.rest c1.perm (applySwaps b .right c2 d).1.rest (applySwaps b .right c2 d).1.perm (applySwaps b .right c2 d).2 := by
  unfold applySwaps
  generalize c2.rest = l at *
  generalize c2.perm = p at *
  induction l generalizing p d with
  | nil => simpa [applySwapsAux] using hI
  | cons op r ih =>
    unfold applySwapsAux
    split
    · exact ih _ _ (h.right _ _ _ _ _ _ hI)
    · exact hI

theorem AltInv.advanceL (h : AltInv b isId opEq I) (k : Nat) (c1 c2 : Cur α π) (d : D)
    (hI : I c1.rest c1.perm c2.rest c2.perm d) :
    I (advance b .left k c1 d).1.rest (advance b .left k c1 d).1.perm c2.rest c2.perm (advance b .left k c1 d).2 := by
  induction k generalizing c1 d with
  | zero => simpa [advance] using hI
  | succ k ih =>
    unfold advance
    split
    · exact hI
    · exact ih _ _ (h.swapsL _ _ _ (h.applyGateL _ _ _ hI))

theorem AltInv.advanceR (h : AltInv b isId opEq I) (k : Nat) (c1 c2 : Cur α π) (d : D)
    (hI : I c1.rest c1.perm c2.rest c2.perm d) :
    I c1.rest c1.perm (advance b .right k c2 d).1.rest (advance b .right k c2 d).1.perm (advance b .right k c2 d).2 := by
  induction k generalizing c2 d with
  | zero => simpa [advance] using hI
  | succ k ih =>
    unfold advance
    split
    · exact hI
    · exact ih _ _ (h.swapsR _ _ _ (h.applyGateR _ _ _ hI))

theorem AltInv.finishL (h : AltInv b isId opEq I) (c1 c2 : Cur α π) (d : D)
    (hI : I c1.rest c1.perm c2.rest c2.perm d) :
    I (finishTask b .left c1 d).1.rest (finishTask b .left c1 d).1.perm c2.rest c2.perm (finishTask b .left c1 d).2 := by
  fun_induction finishTask b .left c1 d with
  | case1 c d _ r ih => exact ih (h.advanceL 1 _ _ _ hI)
  | case2 c d _ => exact hI

theorem AltInv.finishR (h : AltInv b isId opEq I) (c1 c2 : Cur α π) (d : D)
    (hI : I c1.rest c1.perm c2.rest c2.perm d) :
    I c1.rest c1.perm (finishTask b .right c2 d).1.rest (finishTask b .right c2 d).1.perm (finishTask b .right c2 d).2 := by
  fun_induction finishTask b .right c2 d with
  | case1 c d _ r ih => exact ih (h.advanceR 1 _ _ _ hI)
  | case2 c d _ => exact hI

theorem finishTask_rest (b : Backend α π ρ M D) (dir : Dir) (c : Cur α π) (d : D) :
    (finishTask b dir c d).1.rest = [] := by rw [finishTask_spec]

theorem altLoop_stopped (sch : AltScheme α π D) (stop : Nat → Bool) (fuel : Nat) (s : Alt α π M D)
    (hs : stop s.polls = true) :
    ∃ n, s.polls ≤ n ∧ altLoop b isId opEq sch stop (fuel + 1) s = .ok { s with polls := n } := by
  unfold altLoop
  split
  · exact ⟨s.polls, Nat.le_refl _, rfl⟩
  · exact ⟨s.polls + 1, Nat.le_succ _, rfl⟩

/-- The invariant as a property of the loop state. -/
def Alt.Holds (I : List α → π → List α → π → D → Prop) (s : Alt α π M D) : Prop :=
  I s.c1.rest s.c1.perm s.c2.rest s.c2.perm s.d

theorem rest_cons (c : Cur α π) (h : c.rest ≠ []) : ∃ op r, c.rest = op :: r := by
  cases hr : c.rest with
  | nil => exact absurd hr h
  | cons op r => exact ⟨op, r, rfl⟩

/-- The alternating loop with a counting scheme terminates and preserves the invariant. -/
theorem altLoop_counts_spec (hI : AltInv b isId opEq I) (f : Scheme α π) (stop : Nat → Bool) (hm : Mono stop) (n1 n2 : Nat)
    (hg : f.Good n1 n2) (fuel : Nat) (s : Alt α π M D) (h1 : s.c1.rest.length ≤ n1) (h2 : s.c2.rest.length ≤ n2)
    (hf : s.c1.rest.length + s.c2.rest.length + 2 ≤ fuel) (hs : s.Holds I) :
    ∃ s', altLoop b isId opEq (.counts f) stop fuel s = .ok s' ∧ s'.Holds I ∧ s.polls ≤ s'.polls := by
  induction fuel generalizing s with
  | zero => omega
  | succ fuel ih =>
    unfold altLoop
    by_cases hfin : (s.c1.finished || s.c2.finished) = true
    · rw [if_pos hfin]; exact ⟨s, rfl, hs, Nat.le_refl _⟩
    · rw [if_neg hfin]
      by_cases hs0 : stop s.polls = true
      · rw [if_pos hs0]; exact ⟨_, rfl, hs, Nat.le_succ _⟩
      · rw [if_neg hs0]
        simp only
        have e1 := hI.swapsL s.c1 s.c2 s.d hs
        have l1 := applySwaps_length b .left s.c1 s.d
        have q1 := applySwaps_head b .left s.c1 s.d
        generalize applySwaps b .left s.c1 s.d = r1 at e1 l1 q1
        rcases r1 with ⟨c1, d1⟩
        simp only at e1 l1 q1 ⊢
        have e2 := hI.swapsR c1 s.c2 d1 e1
        have l2 := applySwaps_length b .right s.c2 d1
        have q2 := applySwaps_head b .right s.c2 d1
        generalize applySwaps b .right s.c2 d1 = r2 at e2 l2 q2
        rcases r2 with ⟨c2, d2⟩
        simp only at e2 l2 q2 ⊢
        simp only [Bool.or_eq_true, not_or, Bool.not_eq_true, finished_false_iff] at hfin
        have hp1 : 0 < s.c1.rest.length := List.length_pos_iff.mpr hfin.1
        have hp2 : 0 < s.c2.rest.length := List.length_pos_iff.mpr hfin.2
        obtain ⟨fuel, rfl⟩ : ∃ f, fuel = f + 1 := ⟨fuel - 1, by omega⟩
        by_cases hfin' : (c1.finished || c2.finished) = true
        · rw [if_pos hfin']
          have : c1.rest.length + c2.rest.length < s.c1.rest.length + s.c2.rest.length := by
            simp only [Bool.or_eq_true, finished_iff] at hfin'
            rcases hfin' with h | h <;> simp only [h, List.length_nil] <;> omega
          obtain ⟨s', hs', hh, hp⟩ := ih { s with c1 := c1, c2 := c2, d := d2, polls := s.polls + 1 }
            (by simp only; omega) (by simp only; omega) (by simp only; omega) e2
          exact ⟨s', hs', hh, by simp only at hp; omega⟩
        · rw [if_neg hfin']
          simp only [Bool.or_eq_true, not_or, Bool.not_eq_true, finished_false_iff] at hfin'
          by_cases hs1 : stop (s.polls + 1) = true
          · rw [if_pos hs1]
            obtain ⟨n, hn, hn'⟩ := altLoop_stopped (b := b) (isId := isId) (opEq := opEq) (.counts f) stop fuel
              { s with c1 := c1, c2 := c2, d := d2, polls := s.polls + 1 + 1 } (hm _ _ (by simp) hs1)
            exact ⟨_, hn', e2, by simp only at hn ⊢; omega⟩
          · rw [if_neg hs1]
            by_cases hid : (isId d2 && gatesAreIdentical opEq c1 c2) = true
            · rw [if_pos hid]
              obtain ⟨op1, r1, hr1⟩ := rest_cons c1 hfin'.1
              obtain ⟨op2, r2, hr2⟩ := rest_cons c2 hfin'.2
              simp only [Bool.and_eq_true, gatesAreIdentical, hr1, hr2] at hid
              rw [hr1] at e2 l1 q1
              rw [hr2] at e2 l2 q2
              have e3 := hI.skip _ _ _ _ _ _ _ hid.1 hid.2 (q1 _ _ rfl) (q2 _ _ rfl) e2
              simp only [List.length_cons] at l1 l2
              obtain ⟨s', hs', hh, hp⟩ := ih
                { s with c1 := { c1 with rest := c1.rest.tail }, c2 := { c2 with rest := c2.rest.tail }, d := d2,
                         polls := s.polls + 1 + 1 }
                (by simp only [hr1, List.tail_cons]; omega) (by simp only [hr2, List.tail_cons]; omega)
                (by simp only [hr1, hr2, List.tail_cons]; omega)
                (by simp only [Alt.Holds, hr1, hr2, List.tail_cons]; exact e3)
              exact ⟨s', hs', hh, by simp only at hp; omega⟩
            · rw [if_neg hid]
              obtain ⟨a1, a2, hsch, hpos⟩ := hg c1 c2 hfin'.1 hfin'.2 (by omega) (by omega)
              rw [hsch]
              simp only
              by_cases hst : stop (s.polls + 1 + 1 + 1) = true
              · simp only [hst, if_true]
                have e3 : I (if stop (s.polls + 1 + 1) = true then (c1, d2) else advance b .left a1 c1 d2).1.rest
                    (if stop (s.polls + 1 + 1) = true then (c1, d2) else advance b .left a1 c1 d2).1.perm c2.rest c2.perm
                    (if stop (s.polls + 1 + 1) = true then (c1, d2) else advance b .left a1 c1 d2).2 := by
                  cases stop (s.polls + 1 + 1)
                  · simpa using hI.advanceL a1 c1 c2 d2 e2
                  · simpa using e2
                obtain ⟨n, hn, hn'⟩ := altLoop_stopped (b := b) (isId := isId) (opEq := opEq) (.counts f) stop fuel
                  { s with
                    c1 := (if stop (s.polls + 1 + 1) = true then (c1, d2) else advance b .left a1 c1 d2).1
                    c2 := c2
                    d := (if stop (s.polls + 1 + 1) = true then (c1, d2) else advance b .left a1 c1 d2).2
                    polls := s.polls + 1 + 1 + 2 } (hm _ _ (by simp) hst)
                exact ⟨_, hn', e3, by simp only at hn ⊢; omega⟩
              · have hst' : stop (s.polls + 1 + 1) = false :=
                  hm.false_of_le (j := s.polls + 1 + 1 + 1) (by omega) (by simpa using hst)
                simp only [Bool.not_eq_true] at hst
                simp only [hst, hst', Bool.false_eq_true, if_false]
                have e3 := hI.advanceL a1 c1 c2 d2 e2
                have k1 := advance_length b .left a1 c1 d2
                have g1 := fun h => advance_lt b .left a1 c1 d2 h hfin'.1
                generalize advance b .left a1 c1 d2 = t1 at e3 k1 g1
                have e4 := hI.advanceR a2 t1.1 c2 t1.2 e3
                have k2 := advance_length b .right a2 c2 t1.2
                have g2 := fun h => advance_lt b .right a2 c2 t1.2 h hfin'.2
                generalize advance b .right a2 c2 t1.2 = t2 at e4 k2 g2
                have kk : t1.1.rest.length + t2.1.rest.length < c1.rest.length + c2.rest.length := by
                  rcases hpos with h | h
                  · have := g1 h; omega
                  · have := g2 h; omega
                obtain ⟨s', hs', hh, hp⟩ := ih
                  { s with c1 := t1.1, c2 := t2.1, d := t2.2, polls := s.polls + 1 + 1 + 2 }
                  (by simp only; omega) (by simp only; omega) (by simp only; omega) e4
                exact ⟨s', hs', hh, by simp only at hp; omega⟩

/-- Contents of the lookahead caches: the matrix of the current operation under the current permutation. -/
def Alt.CachesOk (b : Backend α π ρ M D) (s : Alt α π M D) : Prop :=
  (∀ m, s.cached1 = some m → ∃ op r, s.c1.rest = op :: r ∧ b.isSwap op = false ∧ m = (b.getDD op s.c1.perm).1) ∧
  (∀ m, s.cached2 = some m → ∃ op r, s.c2.rest = op :: r ∧ b.isSwap op = false ∧ m = (b.getInv op s.c2.perm).1)

/-- Under the invariant no pending operation other than a plain SWAP changes the tracked permutation. -/
structure Stable (b : Backend α π ρ M D) (I : List α → π → List α → π → D → Prop) : Prop where
  left : ∀ op r1 p1 r2 p2 d, I (op :: r1) p1 r2 p2 d → b.isSwap op = false → (b.getDD op p1).2 = p1
  right : ∀ op r1 p1 r2 p2 d, I r1 p1 (op :: r2) p2 d → b.isSwap op = false → (b.getInv op p2).2 = p2

theorem applySwaps_noop (b : Backend α π ρ M D) (dir : Dir) (c : Cur α π) (d : D) (op : α) (r : List α)
    (hr : c.rest = op :: r) (h : b.isSwap op = false) : applySwaps b dir c d = (c, d) := by
  unfold applySwaps
  rw [hr]
  unfold applySwapsAux
  rw [if_neg (by simp [h])]
  rcases c with ⟨rest, perm⟩
  simp only at hr
  subst hr
  rfl

theorem lookaheadStep_spec (hI : AltInv b isId opEq I) (hst : Stable b I) (size : D → Nat) (s : Alt α π M D)
    (op1 op2 : α) (r1 r2 : List α) (hr1 : s.c1.rest = op1 :: r1) (hr2 : s.c2.rest = op2 :: r2)
    (q1 : b.isSwap op1 = false) (q2 : b.isSwap op2 = false) (hc : s.CachesOk b) (hs : s.Holds I) :
    ∃ s', lookaheadStep b size s = some s' ∧ s'.Holds I ∧ s'.CachesOk b ∧
      s'.c1.rest.length + s'.c2.rest.length < s.c1.rest.length + s.c2.rest.length ∧
      s'.c1.rest.length ≤ s.c1.rest.length ∧ s'.c2.rest.length ≤ s.c2.rest.length := by
  unfold Alt.Holds at hs
  rw [hr1, hr2] at hs
  have t1 := hst.left _ _ _ _ _ _ hs q1
  have t2 := hst.right _ _ _ _ _ _ hs q2
  have m1 : cachedOr s.cached1 s.c1.perm (b.getDD op1 s.c1.perm) = ((b.getDD op1 s.c1.perm).1, s.c1.perm) := by
    cases hcc : s.cached1 with
    | none => exact Prod.ext rfl t1
    | some m =>
      obtain ⟨op, r, ho, _, hm⟩ := hc.1 m hcc
      rw [hr1] at ho
      simp only [List.cons.injEq] at ho
      simp [cachedOr, hm, ho.1]
  have m2 : cachedOr s.cached2 s.c2.perm (b.getInv op2 s.c2.perm) = ((b.getInv op2 s.c2.perm).1, s.c2.perm) := by
    cases hcc : s.cached2 with
    | none => exact Prod.ext rfl t2
    | some m =>
      obtain ⟨op, r, ho, _, hm⟩ := hc.2 m hcc
      rw [hr2] at ho
      simp only [List.cons.injEq] at ho
      simp [cachedOr, hm, ho.1]
  have L := hI.left _ _ _ _ _ _ hs
  have R := hI.right _ _ _ _ _ _ hs
  simp only [Backend.applyOp] at L R
  rw [t1] at L
  rw [t2] at R
  unfold lookaheadStep
  rw [hr1, hr2]
  simp only [m1, m2]
  split
  · refine ⟨_, rfl, ?_, ?_, ?_⟩
    · simpa [Alt.Holds, hr2] using L
    · refine ⟨by simp, ?_⟩
      intro m hm
      simp only [Option.some.injEq] at hm
      exact ⟨op2, r2, hr2, q2, hm.symm⟩
    · simp [hr2]
  · refine ⟨_, rfl, ?_, ?_, ?_⟩
    · simpa [Alt.Holds, hr1] using R
    · refine ⟨?_, by simp⟩
      intro m hm
      simp only [Option.some.injEq] at hm
      exact ⟨op1, r1, hr1, q1, hm.symm⟩
    · simp [hr1]

/-- The alternating loop with the lookahead scheme terminates and preserves the invariant. -/
theorem altLoop_lookahead_spec (hI : AltInv b isId opEq I) (hS : Stable b I) (size : D → Nat) (stop : Nat → Bool)
    (hm : Mono stop) (fuel : Nat) (s : Alt α π M D)
    (hf : s.c1.rest.length + s.c2.rest.length + 2 ≤ fuel) (hc : s.CachesOk b) (hs : s.Holds I) :
    ∃ s', altLoop b isId opEq (.lookahead size) stop fuel s = .ok s' ∧ s'.Holds I ∧ s.polls ≤ s'.polls := by
  induction fuel generalizing s with
  | zero => omega
  | succ fuel ih =>
    unfold altLoop
    by_cases hfin : (s.c1.finished || s.c2.finished) = true
    · rw [if_pos hfin]; exact ⟨s, rfl, hs, Nat.le_refl _⟩
    · rw [if_neg hfin]
      by_cases hs0 : stop s.polls = true
      · rw [if_pos hs0]; exact ⟨_, rfl, hs, Nat.le_succ _⟩
      · rw [if_neg hs0]
        simp only
        have e1 := hI.swapsL s.c1 s.c2 s.d hs
        have l1 := applySwaps_length b .left s.c1 s.d
        have q1 := applySwaps_head b .left s.c1 s.d
        have n1 := applySwaps_noop b .left s.c1 s.d
        generalize applySwaps b .left s.c1 s.d = r1 at e1 l1 q1 n1
        rcases r1 with ⟨c1, d1⟩
        simp only at e1 l1 q1 n1 ⊢
        have e2 := hI.swapsR c1 s.c2 d1 e1
        have l2 := applySwaps_length b .right s.c2 d1
        have q2 := applySwaps_head b .right s.c2 d1
        have n2 := applySwaps_noop b .right s.c2 d1
        generalize applySwaps b .right s.c2 d1 = r2 at e2 l2 q2 n2
        rcases r2 with ⟨c2, d2⟩
        simp only at e2 l2 q2 n2 ⊢
        simp only [Bool.or_eq_true, not_or, Bool.not_eq_true, finished_false_iff] at hfin
        have hp1 : 0 < s.c1.rest.length := List.length_pos_iff.mpr hfin.1
        have hp2 : 0 < s.c2.rest.length := List.length_pos_iff.mpr hfin.2
        obtain ⟨fuel, rfl⟩ : ∃ f, fuel = f + 1 := ⟨fuel - 1, by omega⟩
        have hc' : ∀ n, Alt.CachesOk b { s with c1 := c1, c2 := c2, d := d2, polls := n } := by
          intro n
          refine ⟨?_, ?_⟩
          · intro m hm'
            obtain ⟨op, r, ho, hq, he⟩ := hc.1 m hm'
            have := n1 op r ho hq
            simp only [Prod.mk.injEq] at this
            simp only [this.1]
            exact ⟨op, r, ho, hq, he⟩
          · intro m hm'
            obtain ⟨op, r, ho, hq, he⟩ := hc.2 m hm'
            have := n2 op r ho hq
            simp only [Prod.mk.injEq] at this
            simp only [this.1]
            exact ⟨op, r, ho, hq, he⟩
        by_cases hfin' : (c1.finished || c2.finished) = true
        · rw [if_pos hfin']
          have : c1.rest.length + c2.rest.length < s.c1.rest.length + s.c2.rest.length := by
            simp only [Bool.or_eq_true, finished_iff] at hfin'
            rcases hfin' with h | h <;> simp only [h, List.length_nil] <;> omega
          obtain ⟨s', hs', hh, hp⟩ := ih { s with c1 := c1, c2 := c2, d := d2, polls := s.polls + 1 }
            (by simp only; omega) (hc' _) e2
          exact ⟨s', hs', hh, by simp only at hp; omega⟩
        · rw [if_neg hfin']
          simp only [Bool.or_eq_true, not_or, Bool.not_eq_true, finished_false_iff] at hfin'
          by_cases hs1 : stop (s.polls + 1) = true
          · rw [if_pos hs1]
            obtain ⟨n, hn, hn'⟩ := altLoop_stopped (b := b) (isId := isId) (opEq := opEq) (.lookahead size) stop fuel
              { s with c1 := c1, c2 := c2, d := d2, polls := s.polls + 1 + 1 } (hm _ _ (by simp) hs1)
            exact ⟨_, hn', e2, by simp only at hn ⊢; omega⟩
          · rw [if_neg hs1]
            obtain ⟨op1, r1, hr1⟩ := rest_cons c1 hfin'.1
            obtain ⟨op2, r2, hr2⟩ := rest_cons c2 hfin'.2
            obtain ⟨s', hs', hh, hcc, hlen, _⟩ := lookaheadStep_spec hI hS size
              { s with c1 := c1, c2 := c2, d := d2, polls := s.polls + 1 } op1 op2 r1 r2 hr1 hr2
              (q1 _ _ hr1) (q2 _ _ hr2) (hc' _) e2
            rw [hs']
            simp only at hlen ⊢
            obtain ⟨s'', hs'', hh', hp⟩ := ih { s' with polls := s.polls + 1 + 1 + 2 } (by simp only; omega) hcc hh
            exact ⟨s'', hs'', hh', by simp only at hp; omega⟩

/-- The scheme of an alternating check is usable: a counting scheme makes progress; lookahead needs that only plain SWAPs
change the tracked permutation. -/
def AltScheme.Ok (b : Backend α π ρ M D) (I : List α → π → List α → π → D → Prop) (n1 n2 : Nat) : AltScheme α π D → Prop
  | .counts f => f.Good n1 n2
  | .lookahead _ => Stable b I

/-- Outcome of an alternating run under an arbitrary stop signal. -/
theorem runAlt_spec (hI : AltInv b isId opEq I) (sch : AltScheme α π D) (verdict : D → Criterion) (stop : Nat → Bool)
    (hm : Mono stop) (prev : Criterion) (qc1 qc2 : Circuit α π ρ) (hg : sch.Ok b I qc1.ops.length qc2.ops.length) (init : D)
    (fuel : Nat) (hf : qc1.ops.length + qc2.ops.length + 2 ≤ fuel)
    (h0 : I qc1.ops qc1.initialLayout qc2.ops qc2.initialLayout init) :
    ∃ s : Alt α π M D, (stop s.polls = true ∧ runAlt b isId opEq sch verdict stop prev qc1 qc2 init fuel = .ok (prev, s)) ∨
      (stop s.polls = false ∧ runAlt b isId opEq sch verdict stop prev qc1 qc2 init fuel = .ok (verdict s.d, s) ∧
       ∃ p1 p2 d, I [] p1 [] p2 d ∧
        s.d = (b.changePerm false (b.changePerm true d p1 qc1.outputPermutation).1 p2 qc2.outputPermutation).1) := by
  unfold runAlt
  have key : ∃ s', altLoop b isId opEq sch stop fuel { c1 := .start qc1, c2 := .start qc2, d := init, polls := 0 } = .ok s' ∧
      s'.Holds I := by
    cases sch with
    | counts f =>
      obtain ⟨s', h, h', _⟩ := altLoop_counts_spec hI f stop hm _ _ hg fuel
        { c1 := .start qc1, c2 := .start qc2, d := init, polls := 0 } (Nat.le_refl _) (Nat.le_refl _) hf h0
      exact ⟨s', h, h'⟩
    | lookahead size =>
      obtain ⟨s', h, h', _⟩ := altLoop_lookahead_spec hI hg size stop hm fuel
        { c1 := .start qc1, c2 := .start qc2, d := init, polls := 0 } hf ⟨by simp, by simp⟩ h0
      exact ⟨s', h, h'⟩
  obtain ⟨s0, hs0, hh⟩ := key
  rw [hs0]
  simp only
  generalize hs1 : altFinish b stop s0 = s1
  generalize hs2 : altPostprocess b stop qc1 qc2 s1 = s2
  refine ⟨s2, ?_⟩
  cases hst : stop s2.polls with
  | true => left; simp
  | false =>
    right
    have hp1 : s1.polls = s0.polls + 1 := by rw [← hs1]; rfl
    have hp2 : s2.polls = s1.polls + 1 := by rw [← hs2]; rfl
    have hA : stop s0.polls = false := hm.false_of_le (j := s2.polls) (by omega) hst
    have hB : stop s1.polls = false := hm.false_of_le (j := s2.polls) (by omega) hst
    refine ⟨rfl, by simp, s1.c1.perm, s1.c2.perm, s1.d, ?_, ?_⟩
    · rw [← hs1]
      unfold altFinish
      simp only [hA, Bool.false_eq_true, if_false]
      have e1 := hI.finishL s0.c1 s0.c2 s0.d hh
      have e2 := hI.finishR _ _ _ e1
      rw [finishTask_rest, finishTask_rest] at e2
      exact e2
    · rw [← hs2]
      unfold altPostprocess
      simp only [hB, Bool.false_eq_true, if_false, Dir.regular]

end
end QCEC.DD
