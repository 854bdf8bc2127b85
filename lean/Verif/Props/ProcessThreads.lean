import Verif.Spec.ProcessThreads
import Verif.Props.Process
/-!
# C83: managers used by several threads
-/
namespace QCEC.Props
open QCEC QCEC.Prep QCEC.Proc QCEC.Spec.Proc

variable {α : Type} {acts : α → Nat → Bool} {P : Passes (Circ α)}

theorem exec_append {l l' : List (Call α)} {p q : Process} (h : exec acts P p l = some q) : exec acts P p (l ++ l') = exec acts P q l' := by
  induction l generalizing p with
  | nil => cases h; rfl
  | cons c l ih =>
    unfold exec at h
    rw [List.cons_append, exec]
    cases hs : step acts P p c with
    | none => rw [hs] at h; exact absurd h (by simp)
    | some r =>
      rw [hs] at h
      exact ih h

theorem exec_one {c : Call α} {p q : Process} (h : step acts P p c = some q) : exec acts P p [c] = some q := by
  simp only [exec, h]

/-- **C83.** What threads do together, the calls do one after another in some order: the tolerance in force is the last one any thread asked for. -/
theorem concurrent_linearised {s s' : Threads α} (h : TSteps acts P s s') :
    ∃ l, exec acts P s.proc l = some s'.proc ∧ s'.proc.tolerance = (lastAsked l).getD s.proc.tolerance := by
  suffices ∃ l, exec acts P s.proc l = some s'.proc by
    obtain ⟨l, hl⟩ := this
    exact ⟨l, hl, tolerance_in_force hl⟩
  induction h with
  | refl => exact ⟨[], rfl⟩
  | tail _ st ih =>
    obtain ⟨l, hl⟩ := ih
    cases st with
    | construct t th cfg q1 q2 rest m p' ht hr htodo hm hs => exact ⟨l ++ [_], by rw [exec_append hl]; exact exec_one hs⟩
    | throw t th cfg q1 q2 rest e p' ht hr htodo hm hs => exact ⟨l ++ [_], by rw [exec_append hl]; exact exec_one hs⟩
    | set t th k i x rest p' ht hr htodo hk hs => exact ⟨l ++ [_], by rw [exec_append hl]; exact exec_one hs⟩
    | begin t th k i rest p' ht hr htodo hk hs => exact ⟨l ++ [_], by rw [exec_append hl]; exact exec_one hs⟩
    | finish => exact ⟨l, hl⟩

/-- All managers have tolerance `τ`, it is in force if there are any, and nobody will ask for another one. -/
structure Uniform (τ : Rat) (s : Threads α) : Prop where
  managers : ∀ g ∈ s.proc.managers, g.execution.numericalTolerance = τ
  inForce : s.proc.managers ≠ [] → s.proc.tolerance = τ
  asks : ∀ th ∈ s.threads, AsksOnly τ th.todo

theorem asksOnly_tail {τ : Rat} {c : Call α} {l : List (Call α)} (h : AsksOnly τ (c :: l)) : AsksOnly τ l := fun d hd => h d (by simp [hd])

theorem Uniform.threads {τ : Rat} {s : Threads α} (h : Uniform τ s) {t : Nat} {th : Thread α} (ht : s.threads[t]? = some th) (th' : Thread α)
    (hn : AsksOnly τ th.todo → AsksOnly τ th'.todo) : ∀ x ∈ s.threads.set t th', AsksOnly τ x.todo := by
  intro x hx
  rcases List.mem_or_eq_of_mem_set hx with hx | rfl
  · exact h.asks x hx
  · exact hn (h.asks th (List.mem_of_getElem? ht))

theorem uniform_step {τ : Rat} {s s' : Threads α} (h : Uniform τ s) (st : TStep acts P s s') : Uniform τ s' := by
  cases st with
  | construct t th cfg q1 q2 rest m p' ht hr htodo hm hs =>
    have hth := h.asks th (List.mem_of_getElem? ht)
    rw [htodo] at hth
    have hτ := hth _ (List.mem_cons_self ..) _ rfl
    simp only [step, hm, Option.some.injEq] at hs
    subst hs
    refine ⟨fun g hg => ?_, fun _ => hτ, h.threads ht _ fun _ => asksOnly_tail hth⟩
    simp only [List.mem_append, List.mem_singleton] at hg
    rcases hg with hg | rfl
    · exact h.managers g hg
    · rw [made_tolerance hm, hτ]
  | throw t th cfg q1 q2 rest e p' ht hr htodo hm hs =>
    have hth := h.asks th (List.mem_of_getElem? ht)
    rw [htodo] at hth
    have hτ := hth _ (List.mem_cons_self ..) _ rfl
    simp only [step, hm, Option.some.injEq] at hs
    subst hs
    exact ⟨h.managers, fun _ => hτ, h.threads ht _ fun _ => asksOnly_tail hth⟩
  | set t th k i x rest p' ht hr htodo hk hs =>
    have hth := h.asks th (List.mem_of_getElem? ht)
    rw [htodo] at hth
    have hτ := hth _ (List.mem_cons_self ..)
    have htol := step_tolerance hs
    have hs' := hs
    unfold step at hs
    simp only at hs
    split at hs <;> simp only [Option.some.injEq, reduceCtorEq] at hs
    rename_i c hc
    subst hs
    have hne : s.proc.managers ≠ [] := by
      intro h0
      rw [h0] at hc
      simp at hc
    refine ⟨fun g hg => ?_, fun _ => ?_, h.threads ht _ fun _ => asksOnly_tail hth⟩
    · rcases List.mem_or_eq_of_mem_set hg with hg | rfl
      · exact h.managers g hg
      · obtain ⟨g', e1, e2, e3⟩ := step_own hs' hc
        have hlt : i < s.proc.managers.length := (List.getElem?_eq_some_iff.1 hc).1
        simp only [List.getElem?_set_self hlt, Option.some.injEq] at e1
        subst e1
        by_cases hx : ∃ t, x = .tolerance t
        · obtain ⟨t, rfl⟩ := hx
          rw [e3 t rfl]
          exact hτ t rfl
        · rw [e2 fun t e => hx ⟨t, by cases e; rfl⟩]
          exact h.managers c (List.mem_of_getElem? hc)
    · rw [htol]
      cases x with
      | tolerance t => exact hτ t rfl
      | _ => exact h.inForce hne
  | begin t th k i rest p' ht hr htodo hk hs =>
    have hth := h.asks th (List.mem_of_getElem? ht)
    rw [htodo] at hth
    unfold step at hs
    simp only at hs
    split at hs <;> simp only [Option.some.injEq, reduceCtorEq] at hs
    subst hs
    exact ⟨h.managers, h.inForce, h.threads ht _ fun _ => asksOnly_tail hth⟩
  | finish t th i ht hr => exact ⟨h.managers, h.inForce, h.threads ht _ id⟩

/-- **C83.** If all threads ask for the same tolerance, then every manager runs with the tolerance of its configuration, however the threads' calls overlap. -/
theorem concurrent_tolerance {τ tol : Rat} {programs : List (List (Call α))} (hp : ∀ l ∈ programs, AsksOnly τ l) {s : Threads α}
    (h : TSteps acts P (.start tol programs) s) : ¬ ForeignRun s := by
  have hu : Uniform τ s := by
    induction h with
    | refl =>
      refine ⟨by simp [Threads.start], by simp [Threads.start], fun th hth => ?_⟩
      simp only [Threads.start, List.mem_map] at hth
      obtain ⟨l, hl, rfl⟩ := hth
      exact hp l hl
    | tail _ st ih => exact uniform_step ih st
  rintro ⟨th, -, i, g, -, hg, hne⟩
  have hm := List.mem_of_getElem? hg
  exact hne (by rw [hu.managers g hm, hu.inForce (List.ne_nil_of_mem hm)])

/-- **C83.** Two threads that construct a manager each, with different tolerances, and run it – two calls of `verify()` –: the first may run with the tolerance
of the second, even if no two runs overlap. -/
theorem concurrent_foreign {cfg1 cfg2 : Configuration} {a1 a2 b1 b2 : Circ α} {m1 m2 : Made α} (tol : Rat)
    (h1 : Prep.construct acts P cfg1 a1 a2 = .made m1) (h2 : Prep.construct acts P cfg2 b1 b2 = .made m2)
    (hne : cfg1.execution.numericalTolerance ≠ cfg2.execution.numericalTolerance) :
    ∃ s, TSteps acts P (.start tol [[.construct cfg1 a1 a2, .run 0], [.construct cfg2 b1 b2, .run 0]]) s ∧ ForeignRun s ∧ OneAtATime s := by
  let s1 : Threads α := ⟨{ tolerance := cfg1.execution.numericalTolerance, managers := [m1.cfg] },
    [{ todo := [.run 0], own := [0] }, { todo := [.construct cfg2 b1 b2, .run 0] }]⟩
  let s2 : Threads α := ⟨{ tolerance := cfg2.execution.numericalTolerance, managers := [m1.cfg, m2.cfg] },
    [{ todo := [.run 0], own := [0] }, { todo := [.run 0], own := [1] }]⟩
  let s3 : Threads α := ⟨{ tolerance := cfg2.execution.numericalTolerance, managers := [m1.cfg, m2.cfg] },
    [{ todo := [], own := [0], running := some 0 }, { todo := [.run 0], own := [1] }]⟩
  have e1 : TStep acts P (.start tol [[.construct cfg1 a1 a2, .run 0], [.construct cfg2 b1 b2, .run 0]]) s1 :=
    .construct _ 0 { todo := [.construct cfg1 a1 a2, .run 0] } cfg1 a1 a2 [.run 0] m1 _ rfl rfl rfl h1 (by simp only [step, h1]; rfl)
  have e2 : TStep acts P s1 s2 :=
    .construct _ 1 { todo := [.construct cfg2 b1 b2, .run 0] } cfg2 b1 b2 [.run 0] m2 _ rfl rfl rfl h2 (by simp only [step, h2]; rfl)
  have e3 : TStep acts P s2 s3 :=
    .begin _ 0 { todo := [.run 0], own := [0] } 0 0 [] _ rfl rfl rfl rfl rfl
  refine ⟨s3, (((TSteps.refl _).tail e1).tail e2).tail e3, ⟨_, List.mem_cons_self .., 0, m1.cfg, rfl, rfl, ?_⟩, ?_⟩
  · show cfg2.execution.numericalTolerance ≠ m1.cfg.execution.numericalTolerance
    rw [made_tolerance h1]
    exact hne.symm
  · intro t t' th th' ht ht' hr hr'
    have key : ∀ (t : Nat) (th : Thread α), s3.threads[t]? = some th → th.running ≠ none → t = 0 := by
      intro t th ht hr
      match t, ht with
      | 0, _ => rfl
      | 1, ht =>
        simp only [s3, List.getElem?_cons_succ, List.getElem?_cons_zero, Option.some.injEq] at ht
        subst ht
        exact absurd rfl hr
      | t + 2, ht => simp [s3] at ht
    rw [key t th ht hr, key t' th' ht' hr']

namespace ProcessWitness

/-- `concurrent_foreign` applies: a run with tolerance 3 instead of 5. -/
theorem threads_interfere : ∃ s, TSteps all passes (.start 7 [[.construct (tol 5) (circ 2) (circ 2), .run 0], [.construct (tol 3) (circ 2) (circ 2), .run 0]]) s ∧
    ForeignRun s ∧ OneAtATime s := by
  have h : ∀ t : Rat, ∃ m, Prep.construct all passes (tol t) (circ 2) (circ 2) = .made m := fun t => ⟨_, rfl⟩
  obtain ⟨m1, h1⟩ := h 5
  obtain ⟨m2, h2⟩ := h 3
  refine concurrent_foreign 7 h1 h2 ?_
  show (5 : Rat) ≠ 3
  decide

/-- `concurrent_tolerance` applies: two threads with the same tolerance, one of which changes another option and sets the tolerance again; both are running. -/
theorem threads_agree : ∃ s, TSteps all passes (.start 7 [[.construct (tol 5) (circ 2) (circ 2), .run 0],
      [.construct (tol 5) (circ 2) (circ 2), .set 0 (.tolerance 5), .run 0]]) s ∧
    (s.threads.map fun th => th.running) = [some 0, some 1] ∧ ¬ ForeignRun s := by
  obtain ⟨m, hm⟩ : ∃ m, Prep.construct all passes (tol 5) (circ 2) (circ 2) = .made m := ⟨_, rfl⟩
  let P0 : List (List (Call Unit)) := [[.construct (tol 5) (circ 2) (circ 2), .run 0],
    [.construct (tol 5) (circ 2) (circ 2), .set 0 (.tolerance 5), .run 0]]
  have hask : ∀ l ∈ P0, AsksOnly 5 l := by
    intro l hl c hc t ht
    simp only [P0, List.mem_cons, List.not_mem_nil, or_false] at hl
    rcases hl with rfl | rfl <;> simp only [List.mem_cons, List.not_mem_nil, or_false] at hc
    · rcases hc with rfl | rfl
      · exact (Option.some.inj ht).symm
      · cases ht
    · rcases hc with rfl | rfl | rfl
      · exact (Option.some.inj ht).symm
      · exact (Option.some.inj ht).symm
      · cases ht
  have hex : ∃ s, TSteps all passes (.start 7 P0) s ∧ (s.threads.map fun th => th.running) = [some 0, some 1] := by
    let s1 : Threads Unit := ⟨{ tolerance := 5, managers := [m.cfg] },
      [{ todo := [.run 0], own := [0] }, { todo := [.construct (tol 5) (circ 2) (circ 2), .set 0 (.tolerance 5), .run 0] }]⟩
    let s2 : Threads Unit := ⟨{ tolerance := 5, managers := [m.cfg, m.cfg] },
      [{ todo := [.run 0], own := [0] }, { todo := [.set 0 (.tolerance 5), .run 0], own := [1] }]⟩
    let s3 : Threads Unit := ⟨{ tolerance := 5, managers := [m.cfg, m.cfg] },
      [{ todo := [], own := [0], running := some 0 }, { todo := [.set 0 (.tolerance 5), .run 0], own := [1] }]⟩
    let s4 : Threads Unit := ⟨{ tolerance := 5, managers := [m.cfg, (Setter.tolerance 5).apply m.cfg] },
      [{ todo := [], own := [0], running := some 0 }, { todo := [.run 0], own := [1] }]⟩
    let s5 : Threads Unit := ⟨{ tolerance := 5, managers := [m.cfg, (Setter.tolerance 5).apply m.cfg] },
      [{ todo := [], own := [0], running := some 0 }, { todo := [], own := [1], running := some 1 }]⟩
    have e1 : TStep all passes (.start 7 P0) s1 :=
      .construct _ 0 { todo := [.construct (tol 5) (circ 2) (circ 2), .run 0] } (tol 5) (circ 2) (circ 2) [.run 0] m _ rfl rfl rfl hm
        (by simp only [step, hm]; rfl)
    have e2 : TStep all passes s1 s2 :=
      .construct _ 1 { todo := [.construct (tol 5) (circ 2) (circ 2), .set 0 (.tolerance 5), .run 0] } (tol 5) (circ 2) (circ 2) _ m _ rfl rfl rfl hm
        (by simp only [step, hm]; rfl)
    have e3 : TStep all passes s2 s3 := .begin _ 0 { todo := [.run 0], own := [0] } 0 0 [] _ rfl rfl rfl rfl rfl
    have e4 : TStep all passes s3 s4 :=
      .set _ 1 { todo := [.set 0 (.tolerance 5), .run 0], own := [1] } 0 1 (.tolerance 5) [.run 0] _ rfl rfl rfl rfl rfl
    have e5 : TStep all passes s4 s5 := .begin _ 1 { todo := [.run 0], own := [1] } 0 1 [] _ rfl rfl rfl rfl rfl
    exact ⟨s5, (((((TSteps.refl _).tail e1).tail e2).tail e3).tail e4).tail e5, rfl⟩
  obtain ⟨s, h1, h2⟩ := hex
  exact ⟨s, h1, h2, concurrent_tolerance hask h1⟩

end ProcessWitness

end QCEC.Props
