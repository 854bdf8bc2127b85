import Verif.Props.Session
import Verif.Props.SessionWitness
/-!
# C70, C78: null entries in the list of checkers

A run that an exception leaves can leave a null entry in the list of checkers; a later run that reads the list is undefined.
-/
namespace QCEC.Props
open QCEC QCEC.Mgr QCEC.Par QCEC.Session

theorem table_of_slots {l : List Slot} : none ∉ l.map entry ↔ ∀ x ∈ l, x.built = true := by
  constructor
  · intro h x hx
    by_contra hb
    exact h (List.mem_map.2 ⟨x, hx, by simp [entry, hb]⟩)
  · intro h hm
    obtain ⟨x, hx, he⟩ := List.mem_map.1 hm
    simp [entry, h x hx] at he

theorem built_at_end {penv : ParEnv} {s s' : PState} (h : Steps penv s s') (h0 : s.main ≠ .ended .returned) (he : s'.main = .ended .returned) :
    ∀ x ∈ s'.slots, x.built = true := by
  cases h with
  | refl => exact absurd he h0
  | tail _ st =>
    cases st with
    | join hm hf =>
      rename_i b _
      have he : (MPc.ended (if ∀ x ∈ b.slots, x.built = true then PEnding.returned else PEnding.undefinedBehaviour)) = .ended .returned := he
      by_cases hb : ∀ x ∈ b.slots, x.built = true
      · exact hb
      · rw [if_neg hb] at he
        cases he
    | pop i x q hm hq hx hf =>
      have : (if (handle _ _ x.kind x.eq).2 = .stop then MPc.signalling 0 else .wait) = .ended .returned := he
      split at this <;> cases this
    | popThrows => cases he
    | timeout => cases he
    | signal => cases he
    | signalledAll => cases he
    | unwind => cases he
    | constructTerminates => cases he
    | construct i x hx hp hm => exact absurd he (hm _)
    | constructThrows i x hx hp hb ht hz hm => exact absurd he (hm _)
    | stimulusThrows i x hx hp hk ht hm => exact absurd he (hm _)
    | begin i x hx hp hd hm => exact absurd he (hm _)
    | skip i x hx hp hd hm => exact absurd he (hm _)
    | runReturns i x c hx hp hc hm => exact absurd he (hm _)
    | runThrows i x hx hp ht hm => exact absurd he (hm _)
    | push i x hx hp hm => exact absurd he (hm _)

theorem launchAgain_running (zxOk : Bool) (c : Configuration) (res : Results) (old : List Slot) :
    (launchAgain zxOk c res old).main ≠ .ended .returned := by
  show (if castsFail (launchKinds zxOk c) old = true then MPc.ended .undefinedBehaviour else
    (if effectiveThreads zxOk c < (launchKinds zxOk c).length then .ended .undefinedBehaviour else if zxGivesUp zxOk c then .joining else .wait)) ≠ _
  split
  · simp
  · split
    · simp
    · split <;> simp

/-- **C70**: a run that returns leaves no null entries in the list of checkers, if it found none – or if it was a parallel one. -/
theorem returned_no_null {env : Env} {penv : ParEnv} {time : Rat} {o o' : Obj} {e : Ends} (h : Run env penv time o e o') (he : e ≠ .threw)
    (hn : none ∉ o.table ∨ mode env o.cfg = .parallel) : none ∉ o'.table := by
  cases h with
  | returned fuel s h hn' =>
    have h1 : none ∉ o.table := by
      rcases hn with hn | hn
      · exact hn
      · rcases hn' with h1 | h1 | h1
        · exact h1
        · rw [h1] at hn; cases hn
        · rw [h1] at hn; cases hn
    show none ∉ (if none ∈ o.table then o.table else s.checkers.map some)
    rw [if_neg h1]
    simp
  | threw => exact absurd rfl he
  | parallel old p hm ho h hp => exact table_of_slots.2 (built_at_end h (launchAgain_running _ _ _ _) hp)
  | parallelThrew => exact absurd rfl he

/-- The calls since the last `reset()`. -/
def sinceReset : List (Obj × Label) → List (Obj × Label)
  | [] => []
  | (_, .reset) :: _ => []
  | c :: t => c :: sinceReset t

/-- **C70**: null entries only come from a run that an exception left, and `reset()` removes them. -/
theorem null_after_exception {qc1 qc2 : Info} {plain cfg : Configuration} {tp : Rat} {t : List (Obj × Label)} {o : Obj}
    (h : Trace (construct qc1 qc2 plain cfg tp) t o) (hn : none ∈ o.table) :
    ∃ b time log, (b, Label.run time .threw log) ∈ sinceReset t := by
  induction h with
  | nil => simp [construct] at hn
  | @cons t o o' l h hc ih =>
    cases hc with
    | set s =>
      obtain ⟨b, time, log, hb⟩ := ih hn
      exact ⟨b, time, log, List.mem_cons_of_mem _ hb⟩
    | optimize =>
      obtain ⟨b, time, log, hb⟩ := ih hn
      exact ⟨b, time, log, List.mem_cons_of_mem _ hb⟩
    | reset => simp [Obj.reset] at hn
    | run _ env penv time e hempty hr =>
      by_cases he : e = .threw
      · subst he
        exact ⟨o, time, o'.log, List.mem_cons_self⟩
      · have h1 : none ∈ o.table := by
          by_contra h1
          exact returned_no_null hr he (.inl h1) hn
        obtain ⟨b, time, log, hb⟩ := ih h1
        exact ⟨b, time, log, List.mem_cons_of_mem _ hb⟩

namespace SessionWitness

/-- Alternating and construction checker in parallel. -/
def two : Configuration := parCfg false true true false 0 2 0

theorem failing_run : ∃ p, execAll (answering .equivalent .equivalent .equivalent) (fun k => k == .alternating)
      (launchAgain true two {} []) ([.constructThrows 0, .push 0, .popThrows] ++ [.construct 1, .begin 1, .runReturns 1 .equivalent, .push 1, .unwind]) = some p ∧
    p.main = .ended .threw ∧ p.slots.map entry = [none, some .construction] ∧ p.cfg = two :=
  ⟨_, rfl, rfl, rfl, rfl⟩

/-- **C70**, after an exception: the constructor of a checker throws in a parallel run, the exception reaches the caller; the user switches to the
sequential flow and runs again without `reset()`: this run cannot return (it dereferences the null entry when it collects the reports). -/
theorem exception_then_undefined : ∃ t o, Trace (construct left right (Configuration.default 8 0) two 2) t o ∧ none ∈ o.table ∧
    o.cfg.execution.parallel = false ∧ (∀ env penv time e o', mode env o.cfg = .sequential → e ≠ .threw → ¬ Run env penv time o e o') ∧ ∃ env : Env, mode env o.cfg = .sequential := by
  obtain ⟨p, hp, he, ht, hc⟩ := failing_run
  refine ⟨_, _, .cons (.cons .nil (.run _ _ passing (listEnv (answering .equivalent .equivalent .equivalent) (fun k => k == .alternating)) 7 .threw ?_
    (.parallelThrew [] p rfl rfl (execAll_steps _ hp) he))) (.set _ (.parallel false)), ?_, rfl, ?_, passing, ?_⟩
  · show false = true ↔ (3 = 0 ∧ 5 = 0)
    simp
  · show none ∈ p.slots.map entry
    rw [ht]
    simp
  · intro env penv time e o' hm hthrew hr
    have hnone : (none : Option Kind) ∈ p.slots.map entry := by rw [ht]; simp
    cases hr with
    | returned fuel s h hn =>
      rcases hn with hn | hn | hn
      · exact hn hnone
      · rw [hn] at hm; cases hm
      · rw [hn] at hm; cases hm
    | threw fuel s h hn => exact hthrew rfl
    | parallel old p hm' => rw [hm'] at hm; cases hm
    | parallelThrew old p hm' => rw [hm'] at hm; cases hm
  · show mode passing (Setter.apply p.cfg (.parallel false)) = .sequential
    rw [hc]
    rfl

end SessionWitness
end QCEC.Props
