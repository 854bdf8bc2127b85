import Verif.Props.ParallelWitness
import Verif.Props.Report
/-!
# The reports of the checkers in the parallel flow (C59)
-/
namespace QCEC.Props
open QCEC QCEC.Mgr QCEC.Spec QCEC.Par

/-- The checkers reported at the end of a parallel run: `run` goes over the whole table, `EquivalenceCheckingManager.cpp:339-343`. -/
def _root_.QCEC.Par.PState.reported (s : PState) : List Kind := s.slots.map (·.kind)

theorem returned_built {env : ParEnv} {cfg : Configuration} {res : Results} {s : PState} (h : Reachable env cfg res s) :
    s.main = .ended .returned → ∀ x ∈ s.slots, x.built = true := by
  refine h.induct (P := fun s => s.main = .ended .returned → ∀ x ∈ s.slots, x.built = true) ?_ ?_
  · intro hm
    unfold launch at hm
    simp only at hm
    split at hm <;> (try split at hm) <;> simp at hm
  · intro s s' _ ih hst hm
    cases hst
    case join hj hf =>
      simp only at hm
      split at hm
      · assumption
      · simp at hm
    case pop i x q hmw hq hx hf =>
      exfalso
      revert hm
      simp only [PState.popped]
      split <;> simp
    all_goals first
      | (exfalso; simp_all [PState.upd]; done)

theorem log_launched {env : ParEnv} {cfg : Configuration} {res : Results} {s : PState} (h : Reachable env cfg res s) :
    ∀ e ∈ s.log, e.kind ∈ launchKinds env.zxTransformable cfg := by
  have : Base env cfg s ∧ ∀ e ∈ s.log, e.kind ∈ launchKinds env.zxTransformable cfg := by
    refine h.induct (P := fun s => Base env cfg s ∧ ∀ e ∈ s.log, e.kind ∈ launchKinds env.zxTransformable cfg) ?_ ?_
    · exact ⟨launch_base _ _ _, by simp [launch]⟩
    · rintro s s' _ ⟨hb, ih⟩ hst
      refine ⟨step_base hb hst, ?_⟩
      cases hst
      case pop i x q hmw hq hx hf =>
        intro e he
        simp only [PState.popped] at he
        rcases List.mem_append.mp he with he | he
        · exact ih e he
        · rw [List.mem_singleton.mp he, ← hb.kinds]
          exact List.mem_map_of_mem (List.mem_of_getElem? hx)
      all_goals exact ih
  exact this.2

theorem count_definitive_le (zxOk : Bool) (cfg : Configuration) (k : Kind) (hk : k ≠ .simulation) :
    (launchKinds zxOk cfg).count k ≤ 1 := by
  unfold launchKinds
  rw [List.count_append, List.count_replicate]
  have : ((Kind.simulation == k) = true) = False := by simp; exact fun h => hk h.symm
  simp only [this, if_false]
  unfold definitiveKinds
  split <;> split <;> split <;> cases k <;> simp_all <;> decide

/-- **C59** (parallel, first run of a manager): when the run returns, every entry of the table exists, and the entries – these are
reported, once each – are checkers that are enabled: each of the definitive checkers at most once, and at most `maxSims` simulation
checkers, not more than there are threads; every checker whose completion was handled is among them. -/
theorem parallel_reports {env : ParEnv} {cfg : Configuration} {res : Results} {s : PState} (h : Reachable env cfg res s)
    (hr : s.main = .ended .returned) :
    (∀ x ∈ s.slots, x.built = true) ∧ (∀ k ∈ s.reported, Enabled cfg k) ∧
    (∀ k, k ≠ .simulation → s.reported.count k ≤ 1) ∧ s.reported.count .simulation ≤ cfg.simulation.maxSims ∧
    (∀ e ∈ s.log, e.kind ∈ s.reported) := by
  have hb := reachable_base h
  have hrep : s.reported = launchKinds env.zxTransformable cfg := hb.kinds
  refine ⟨returned_built h hr, ?_, ?_, ?_, ?_⟩
  · intro k hk
    rw [hrep] at hk
    exact enabled_of_launch (mem_launchKinds hk)
  · intro k hk
    rw [hrep]
    exact count_definitive_le _ _ _ hk
  · rw [hrep]
    unfold launchKinds
    rw [List.count_append, List.count_replicate]
    have h0 : (definitiveKinds env.zxTransformable cfg).count .simulation = 0 :=
      List.count_eq_zero.mpr fun hm => (mem_definitiveKinds hm).2 rfl
    have := simsToStart_le env.zxTransformable cfg
    simp only [h0, beq_self_eq_true, if_true]
    omega
  · intro e he
    rw [hrep]
    exact log_launched h e he

/-! ## C20: a further parallel run without `reset()` -/

/-- The simulation refutes; the alternating checker, when it is told to stop, returns the verdict it had before (C50), which is none. -/
def stopping : Kind → List Criterion
  | .simulation => [.notEquivalent]
  | .alternating => [.noInformation]
  | _ => []

/-- In the first run the simulation refutes while the alternating checker is running. -/
def firstRun : List Move :=
  [.construct 0, .begin 0] ++ full 1 .notEquivalent ++ [.signal, .signal, .signal, .runReturns 0 .noInformation, .push 0, .join]

/-- In the second run the alternating checker, which has been told to stop and never was told otherwise, answers first. -/
def secondRun : List Move :=
  [.construct 1] ++ full 0 .noInformation ++ [.skip 1, .push 1, .signal, .signal, .signal, .join]

/-- The two runs one after the other, without `reset()`: the states at the end of each. -/
def twoRuns : Option (PState × PState) :=
  match execAll stopping (fun _ => false) (launch true (parCfg true true false false 1 2 0) {}) firstRun with
  | none => none
  | some s =>
    match execAll stopping (fun _ => false) (launchAgain true (parCfg true true false false 1 2 0) s.results s.slots) secondRun with
    | none => none
    | some t => some (s, t)

/-- **C20, without `reset()`**: a second parallel run finds the checkers of the first one, all of which have been told to stop: the
alternating checker returns at once without a verdict, and this makes the run give up although the first run – of the same manager
with the same configuration – had refuted the equivalence. -/
theorem parallel_rerun_loses_verdict :
    let env := listEnv stopping fun _ => false
    let cfg := parCfg true true false false 1 2 0
    ∃ s t, Reachable env cfg {} s ∧ s.main = .ended .returned ∧ s.results.equivalence = .notEquivalent ∧
      Steps env (launchAgain env.zxTransformable cfg s.results s.slots) t ∧ t.main = .ended .returned ∧
      t.results.equivalence = .noInformation ∧
      -- the answer comes from a checker that had already been told to stop and repeats its old verdict
      (∃ x, s.slots[0]? = some x ∧ x.kind = .alternating ∧ x.signalled = true ∧ x.eq = .noInformation) ∧
      t.log = [⟨.alternating, .noInformation⟩] := by
  have hx : twoRuns.map (fun p => (p.1.main, p.1.results.equivalence, p.2.main, p.2.results.equivalence,
      (p.1.slots[0]?).map fun x => (x.kind, x.signalled, x.eq), p.2.log)) =
      some (.ended .returned, .notEquivalent, .ended .returned, .noInformation, some (.alternating, true, .noInformation),
        [⟨.alternating, .noInformation⟩]) := rfl
  cases ht : twoRuns with
  | none => rw [ht] at hx; simp at hx
  | some p =>
    obtain ⟨s, t⟩ := p
    rw [ht] at hx
    simp only [Option.map_some, Option.some.injEq, Prod.mk.injEq] at hx
    unfold twoRuns at ht
    split at ht
    · simp at ht
    · rename_i s1 hs1
      split at ht
      · simp at ht
      · rename_i t1 ht1
        simp only [Option.some.injEq, Prod.mk.injEq] at ht
        obtain ⟨rfl, rfl⟩ := ht
        refine ⟨s1, t1, execAll_steps _ hs1, hx.1, hx.2.1, execAll_steps _ ht1, hx.2.2.1, hx.2.2.2.1, ?_, hx.2.2.2.2.2⟩
        cases hsl : s1.slots[0]? with
        | none => rw [hsl] at hx; simp at hx
        | some x =>
          rw [hsl] at hx
          have := hx.2.2.2.2.1
          simp only [Option.map_some, Option.some.injEq, Prod.mk.injEq] at this
          exact ⟨x, rfl, this.1, this.2.1, this.2.2⟩

end QCEC.Props
