import Verif.Model.Rerun
import Verif.Props.DDWitness
/-!
# C75: running a checker object again
-/
namespace QCEC.Props
open QCEC QCEC.DD QCEC.Sem QCEC.Spec Matrix

section
variable {α π ρ M D : Type}

/-- A verdict of a history of runs: the undisturbed verdict `v`, or the initial `NoInformation` if every run so far was told to stop. -/
def EachIs (v : Criterion) (l : List Criterion) : Prop := ∀ c ∈ l, c = .noInformation ∨ c = v

/-- If every run of the object returns `v` or what is stored, so does a history of runs. -/
theorem runsOf_each {O : Type} {f : O → Res (Criterion × O)} {stored : O → Criterion} {P : O → Prop} {v : Criterion}
    (hf : ∀ o, P o → ∃ c o', f o = .ok (c, o') ∧ P o' ∧ stored o' = c ∧ (c = stored o ∨ c = v)) (k : Nat) (o : O) (hP : P o)
    (ho : stored o = .noInformation ∨ stored o = v) : ∃ l o', runsOf f k o = .ok (l, o') ∧ l.length = k ∧ EachIs v l := by
  induction k generalizing o with
  | zero => exact ⟨[], o, rfl, rfl, by simp [EachIs]⟩
  | succ k ih =>
    obtain ⟨c, o', h1, h2, h3, h4⟩ := hf o hP
    have hc : c = .noInformation ∨ c = v := by
      rcases h4 with h | h
      · rw [h]; exact ho
      · exact Or.inr h
    obtain ⟨l, o'', k1, k2, k3⟩ := ih o' h2 (by rw [h3]; exact hc)
    refine ⟨c :: l, o'', ?_, by simp [k2], ?_⟩
    · simp [runsOf, h1, k1]
    · intro x hx
      rcases List.mem_cons.1 hx with rfl | hx
      · exact hc
      · exact k3 x hx

/-- If every run of the object returns `v`, so does a history of runs. -/
theorem runsOf_all {O : Type} {f : O → Res (Criterion × O)} {P : O → Prop} {v : Criterion}
    (hf : ∀ o, P o → ∃ o', f o = .ok (v, o') ∧ P o') (k : Nat) (o : O) (hP : P o) :
    ∃ o', runsOf f k o = .ok (List.replicate k v, o') := by
  induction k generalizing o with
  | zero => exact ⟨o, rfl⟩
  | succ k ih =>
    obtain ⟨o', h1, h2⟩ := hf o hP
    obtain ⟨o'', h3⟩ := ih o' h2
    exact ⟨o'', by simp [runsOf, h1, h3, List.replicate_succ]⟩

theorem shift_mono {stop : Nat → Bool} (h : Mono stop) (n : Nat) : Mono fun i => stop (n + i) :=
  fun _ _ hij hi => h _ _ (Nat.add_le_add_left hij n) hi

/-! ## Construction checker -/

/-- **C75** (construction checker, any package, any scheme): however often the checker object is run and whenever it is told to stop, each
run returns `v`, the verdict an undisturbed first run returns, or – only if it was told to stop – `NoInformation`. -/
theorem rerun_construction (b : Backend α π ρ M D) (sch : Scheme α π) (pe : Bool) (verdict : D → D → Criterion) (stop : Nat → Bool)
    (hm : Mono stop) (qc1 qc2 : Circuit α π ρ) (hg : sch.Good qc1.ops.length qc2.ops.length) (i1 i2 : D) (fuel : Nat)
    (hf : qc1.ops.length + qc2.ops.length + 2 ≤ fuel) (k : Nat) :
    ∃ v s, runTwo b sch pe verdict (fun _ => false) .noInformation qc1 qc2 i1 i2 fuel = .ok (v, s) ∧
      (∃ l o', runsOf (TwoObject.run b sch pe verdict stop qc1 qc2 i1 i2 fuel) k {} = .ok (l, o') ∧ l.length = k ∧ EachIs v l) ∧
      ((∀ i, stop i = false) → ∃ o', runsOf (TwoObject.run b sch pe verdict stop qc1 qc2 i1 i2 fuel) k {} = .ok (List.replicate k v, o')) := by
  obtain ⟨s, h | h⟩ := runTwo_spec b sch pe verdict (fun _ => false) (fun _ _ _ h => h) .noInformation qc1 qc2 hg i1 i2 fuel hf
  · exact absurd h.1 (by simp)
  · refine ⟨_, s, h.2.1, ?_, fun hs => ?_⟩
    · refine runsOf_each (stored := TwoObject.equivalence) (P := fun _ => True) ?_ k ({} : TwoObject) trivial (Or.inl rfl)
      intro o _
      obtain ⟨s', h' | h'⟩ := runTwo_spec b sch pe verdict (fun i => stop (o.polls + i)) (shift_mono hm _) o.equivalence qc1 qc2 hg i1 i2
        fuel hf
      · exact ⟨_, ⟨_, o.polls + s'.polls + 1⟩, by unfold TwoObject.run; rw [h'.2], trivial, rfl, Or.inl rfl⟩
      · exact ⟨_, ⟨_, o.polls + s'.polls + 1⟩, by unfold TwoObject.run; rw [h'.2.1], trivial, rfl, Or.inr rfl⟩
    · refine runsOf_all (P := fun _ => True) ?_ k ({} : TwoObject) trivial
      intro o _
      obtain ⟨s', h' | h'⟩ := runTwo_spec b sch pe verdict (fun i => stop (o.polls + i)) (shift_mono hm _) o.equivalence qc1 qc2 hg i1 i2
        fuel hf
      · have := h'.1
        rw [hs] at this
        cases this
      · exact ⟨⟨_, o.polls + s'.polls + 1⟩, by unfold TwoObject.run; rw [h'.2.1], trivial⟩

/-! ## Alternating checker -/

theorem altLoop_counts_caches (b : Backend α π ρ M D) (isId : D → Bool) (opEq : α → α → Bool) (f : Scheme α π) (stop : Nat → Bool) :
    ∀ (fuel : Nat) (s s' : Alt α π M D), altLoop b isId opEq (.counts f) stop fuel s = .ok s' →
      s'.cached1 = s.cached1 ∧ s'.cached2 = s.cached2 := by
  intro fuel
  induction fuel with
  | zero => intro s s' h; simp [altLoop] at h
  | succ fuel ih =>
    intro s s' h
    unfold altLoop at h
    split at h
    · cases h; exact ⟨rfl, rfl⟩
    · split at h
      · cases h; exact ⟨rfl, rfl⟩
      · simp only at h
        split at h
        · obtain ⟨a, b⟩ := ih _ _ h; exact ⟨a, b⟩
        · split at h
          · obtain ⟨a, b⟩ := ih _ _ h; exact ⟨a, b⟩
          · split at h
            · obtain ⟨a, b⟩ := ih _ _ h; exact ⟨a, b⟩
            · split at h
              · cases h
              · obtain ⟨a, b⟩ := ih _ _ h; exact ⟨a, b⟩

/-- A run of an object without cached operations is a run of a fresh checker with the stored verdict. -/
theorem object_run (b : Backend α π ρ M D) (isId : D → Bool) (opEq : α → α → Bool) (sch : AltScheme α π D) (verdict : D → Criterion)
    (stop : Nat → Bool) (qc1 qc2 : Circuit α π ρ) (init : D) (fuel : Nat) (o : AltObject M) (h1 : o.cached1 = none) (h2 : o.cached2 = none) :
    o.run b isId opEq sch verdict stop qc1 qc2 init fuel =
      match runAlt b isId opEq sch verdict (fun i => stop (o.polls + i)) o.equivalence qc1 qc2 init fuel with
      | .outOfFuel => .outOfFuel
      | .ub => .ub
      | .ok (v, s) => .ok (v, { equivalence := v, cached1 := s.cached1, cached2 := s.cached2, polls := o.polls + s.polls + 1 }) := by
  unfold AltObject.run runAlt
  rw [h1, h2]
  cases altLoop b isId opEq sch (fun i => stop (o.polls + i)) fuel
    { c1 := .start qc1, c2 := .start qc2, d := init, cached1 := none, cached2 := none, polls := 0 } with
  | outOfFuel => rfl
  | ub => rfl
  | ok s =>
    simp only
    split
    · rfl
    · rfl

theorem runAlt_counts_caches (b : Backend α π ρ M D) (isId : D → Bool) (opEq : α → α → Bool) (f : Scheme α π) (verdict : D → Criterion)
    (stop : Nat → Bool) (prev : Criterion) (qc1 qc2 : Circuit α π ρ) (init : D) (fuel : Nat) (v : Criterion) (s : Alt α π M D)
    (h : runAlt b isId opEq (.counts f) verdict stop prev qc1 qc2 init fuel = .ok (v, s)) : s.cached1 = none ∧ s.cached2 = none := by
  unfold runAlt at h
  split at h
  · cases h
  · cases h
  · rename_i s0 hl
    have hc := altLoop_counts_caches b isId opEq f stop fuel _ _ hl
    simp only at h
    split at h <;> (cases h; exact hc)

/-- **C75** (alternating checker with a scheme other than lookahead, any package): runs of the object that nobody tells to stop all return
the verdict of the first. -/
theorem rerun_alternating_undisturbed (b : Backend α π ρ M D) (isId : D → Bool) (opEq : α → α → Bool) (f : Scheme α π)
    (verdict : D → Criterion) (qc1 qc2 : Circuit α π ρ) (init : D) (fuel : Nat) {v : Criterion} {s : Alt α π M D}
    (h : runAlt b isId opEq (.counts f) verdict (fun _ => false) .noInformation qc1 qc2 init fuel = .ok (v, s)) (k : Nat) :
    ∃ o', runsOf (AltObject.run b isId opEq (.counts f) verdict (fun _ => false) qc1 qc2 init fuel) k {} = .ok (List.replicate k v, o') := by
  refine runsOf_all (P := fun o => o.cached1 = none ∧ o.cached2 = none) ?_ k ({} : AltObject M) ⟨rfl, rfl⟩
  rintro o ⟨h1, h2⟩
  have hprev : runAlt b isId opEq (.counts f) verdict (fun _ => false) o.equivalence qc1 qc2 init fuel = .ok (v, s) := by
    rw [← h]
    unfold runAlt
    split <;> rfl
  have hc := runAlt_counts_caches b isId opEq f verdict _ _ qc1 qc2 init fuel v s hprev
  exact ⟨⟨v, s.cached1, s.cached2, o.polls + s.polls + 1⟩, by
    rw [object_run b isId opEq _ verdict _ qc1 qc2 init fuel o h1 h2]; simp only [hprev], hc.1, hc.2⟩

end

variable {n : Nat}

/-- **C75** (alternating checker with a scheme other than lookahead, exact arithmetic): however often the object is run and whenever it is
told to stop, each run returns the right verdict `v` about the circuits (C04), or – only if it was told to stop – `NoInformation`. -/
theorem rerun_alternating (garb) (qc1 qc2 : QC n) (ω1 ω2 : Equiv.Perm (Fin n)) (h1 : WellFormed qc1 ω1) (h2 : WellFormed qc2 ω2)
    (T : ExactTests n) (opEq : Op n → Op n → Bool) (init : Mat n) (hc : SkipSafeFrom init opEq qc1 qc2) (f)
    (hs : AltConfigured qc1 qc2 (.counts f : AltScheme (Op n) _ (Mat n))) (verdict : Mat n → Criterion) (stop : Nat → Bool) (hm : Mono stop)
     (fuel : Nat) (hf : qc1.ops.length + qc2.ops.length + 2 ≤ fuel) (k : Nat) :
    ∃ l o', runsOf (AltObject.run (exactMatrix n garb) T.isId opEq (.counts f) verdict stop qc1 qc2 init fuel) k {} = .ok (l, o') ∧
      l.length = k ∧ EachIs (verdict (funcOf qc1 ω1 * init * (funcOf qc2 ω2)ᴴ)) l := by
  refine runsOf_each (stored := AltObject.equivalence) (P := fun o => o.cached1 = none ∧ o.cached2 = none) ?_ k ({} : AltObject (Mat n)) ⟨rfl, rfl⟩ (Or.inl rfl)
  rintro o ⟨k1, k2⟩
  obtain ⟨v, s, hr, h⟩ := alternating_outcome_from garb qc1 qc2 ω1 ω2 h1 h2 T opEq (.counts f) init (fun _ => hc) hs verdict
    (fun i => stop (o.polls + i)) (shift_mono hm _) o.equivalence fuel hf
  have hcc := runAlt_counts_caches _ _ _ _ _ _ _ _ _ _ _ _ _ hr
  refine ⟨v, ⟨v, s.cached1, s.cached2, o.polls + s.polls + 1⟩, by
    rw [object_run _ _ _ _ _ _ _ _ _ _ o k1 k2]; simp only [hr], hcc, rfl, ?_⟩
  rcases h with h | h
  · exact Or.inl h.2
  · right; rw [h.2.2, h.2.1]

/-- **C75** (alternating checker with a scheme other than lookahead): if nobody tells the object to stop, all its runs return the same
verdict, and it is the correct one about the circuits. -/
theorem rerun_alternating_correct (garb) (qc1 qc2 : QC n) (ω1 ω2 : Equiv.Perm (Fin n)) (h1 : WellFormed qc1 ω1) (h2 : WellFormed qc2 ω2)
    (T : ExactTests n) (opEq : Op n → Op n → Bool) (hc : SkipSafe opEq qc1 qc2) (f)
    (hs : AltConfigured qc1 qc2 (.counts f : AltScheme (Op n) _ (Mat n)))
    (hidle : ∀ q : Fin n, qc1.ancillary.getD q.val false = true → qc2.ancillary.getD q.val false = true →
      Idle qc1 ω1 q ∨ Idle qc2 ω2 q) (k : Nat) :
    ∃ v, Correct v (altAncillary n qc1.ancillary qc2.ancillary) qc1 ω1 qc2 ω2 ∧
      ∃ o', runsOf (AltObject.run (exactMatrix n garb) T.isId opEq (.counts f) (altVerdict T.close T.wOne) (fun _ => false) qc1 qc2
        (altInit (exactMatrix n garb) 1 n qc1 qc2) (qc1.ops.length + qc2.ops.length + 2)) k {} = .ok (List.replicate k v, o') := by
  obtain ⟨v, s, hr, hv⟩ := alternating_verdict_correct_partial garb qc1 qc2 ω1 ω2 h1 h2 T opEq (.counts f) (fun _ => hc) hs .noInformation hidle
  exact ⟨v, hv, rerun_alternating_undisturbed _ _ _ _ _ _ _ _ _ hr k⟩

end QCEC.Props
