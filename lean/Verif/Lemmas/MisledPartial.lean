import Verif.Lemmas.Misled
import Verif.Spec.VerifyPartialDecides
/-!
# Runs with partial equivalence of circuits that do not mislead the alternating checker
-/
namespace QCEC.Props
open QCEC QCEC.Mgr QCEC.Prep QCEC.Spec QCEC.Spec.Wide QCEC.Wide QCEC.Sem QCEC.DD

variable {m n : Nat}

/-- Runs depend on the answers of the enabled checkers only. -/
theorem runs_mono {A B : Kind → Criterion → Prop} {cfg : Configuration} {e : Prop} {v : Criterion} (hab : ∀ k c, Enabled cfg k → A k c → B k c)
    (h : Runs A cfg e v) : Runs B cfg e v := by
  cases h with
  | nothing env fuel s' hm h => exact .nothing env fuel s' hm h
  | empty env fuel s' he hm h => exact .empty env fuel s' he hm h
  | sequential env fuel s' hm h hans => exact .sequential env fuel s' hm h fun e a b => hab _ _ b (hans e a b)
  | parallel env s hreach hr hans => exact .parallel env s hreach hr fun k c a b => hab k c a (hans k c a b)
  | timed env fuel grow D cap p t s' hm hf h he hans => exact .timed env fuel grow D cap p t s' hm hf h he fun e a b => hab _ _ b (hans e a b)
  | composed env D c h hr hans => exact .composed env D c h hr fun k c a b => hab k c a (hans k c a b)
  | delayed env s h hr hans => exact .delayed env s h hr fun k c a b => hab k c a (hans k c a b)

theorem calmRuns_mono {A B : Bool → Kind → Criterion → Prop} {cfg : Configuration} {e : Prop} {v : Criterion}
    (hab : ∀ q k c, Enabled cfg k → A q k c → B q k c) (h : CalmRuns A cfg e v) : CalmRuns B cfg e v := by
  cases h with
  | nothing env fuel s' hm h => exact .nothing env fuel s' hm h
  | empty env fuel s' he hm h => exact .empty env fuel s' he hm h
  | sequential env fuel s' hm ht h hans => exact .sequential env fuel s' hm ht h fun e a b => hab _ _ _ b (hans e a b)
  | parallel env quiet s hp hq hrun hr ht hans hquiet =>
    exact .parallel env quiet s hp hq hrun hr ht (fun k c a b => hab _ k c a (hans k c a b)) fun k c a b => hab _ k c a (hquiet k c a b)

/-- The setting with an alternating checker that cancels nothing. -/
def PBase.calm (S : PBase m n) : PBase m n := { S with opEq := fun _ _ => false, schA := .counts S.schC, confA := .counts _ S.confC }

theorem calm_answers (S : PBase m n) {quiet : Bool} {k : Kind} {c : Criterion} (hk : k ≠ .alternating) (h : PAnswer S quiet k c) :
    PAnswer (PBase.calm S) quiet k c := by
  induction h with
  | alternating => exact absurd rfl hk
  | construction stop hm hq fuel hf c s h => exact .construction (S := PBase.calm S) stop hm hq fuel hf c s h
  | simulation c h => exact .simulation c h
  | simulationAgain prev c _ h ih => exact .simulationAgain prev c (ih (by simp)) h
  | zx c h =>
    refine .zx c ?_
    cases h with
    | zx hr1 hr2 hc1 hc2 outs1 outs2 ho1 ho2 M g θ hR hg done hq c h =>
      exact .zx (S := (PBase.calm S).toMixed) hr1 hr2 hc1 hc2 outs1 outs2 ho1 ho2 M g θ hR hg done hq c h

/-- Unless the prepared circuits mislead the alternating checker, the answers of the enabled checkers are those in a setting in which it is safe. -/
theorem partial_setting {c1 c2 : Circ WOp} {cfg : Configuration} {setters : List Param.Setter} {lib : Library}
    (hP : ∀ p ∈ planned cfg.optimizations true, Faithful lib.passes p) {M : Made WOp} (h : Prep.construct lib.acts lib.passes cfg c1 c2 = .made M)
    (S : PBase m n) {e1 e2 : Nat → Fin n} (w1 : Wired M.qc1) (w2 : Wired M.qc2) (hn1 : Numbered e1 M.qc1 S.qc1) (hn2 : Numbered e2 M.qc2 S.qc2)
    (hsch : Follows S.toMixed M.cfg) (hop : ∀ a ∈ M.qc1.ops, ∀ b ∈ M.qc2.ops, S.opEq (a.on e1) (b.on e2) = true → a = b)
    (hno : ¬ Misled lib c1 c2 cfg setters) (hg : S.SameGarbage) :
    ∃ T : PSetting m n, T.qc1 = S.qc1 ∧ T.qc2 = S.qc2 ∧
      ∀ quiet k c, Enabled (afterSetters M.cfg setters) k → PAnswer S quiet k c → PAnswer T.toPBase quiet k c := by
  by_cases hen : Enabled (afterSetters M.cfg setters) .alternating
  · exact ⟨⟨S, (safe_of_not_misled hP h S.toMixed w1 w2 hn1 hn2 hsch hop hno hen).1, hg⟩, rfl, rfl, fun _ _ _ _ h => h⟩
  · refine ⟨⟨PBase.calm S, ⟨fun _ => .disjoint fun _ _ _ _ => rfl, fun h => absurd trivial h⟩, hg⟩, rfl, rfl, fun quiet k c hk h => ?_⟩
    refine calm_answers S ?_ h
    rintro rfl
    exact hen hk

end QCEC.Props
