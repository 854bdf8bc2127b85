import Verif.Lemmas.ParallelQueueFinite
import Verif.Props.ParallelWitness
/-!
# The parallel flow with its queue (C63)

Here the threads of a parallel run use the queue of `include/ThreadSafeQueue.hpp` step by step (`Verif/Model/ParallelQueue.lean`).
All theorems quantify over all interleavings, checker behaviours, configurations and deadlines.
-/
namespace QCEC.Props
open QCEC QCEC.Mgr QCEC.Par
open QCEC.Queue (Pc Node QState set_same set_other)
open QCEC.ParQ (CState IdleStep Stuck later reachable_cinv stuck_shape)

/-! ## Safety -/

/-- **C63**: whatever a run with the real queue does to results, verdict, counters and checkers, the run with an atomic FIFO queue can
do too.  Hence every theorem about `Par.Reachable` (C13, C14, C16-C21, C61) holds of it. -/
theorem composed_refines {env : ParEnv} {D : Nat} {cfg : Configuration} {res : Results} {c : CState}
    (h : ParQ.Reachable env D cfg res c) : Par.Reachable env cfg res c.p := (reachable_cinv h).par

/-- **C63**: the ids the main thread receives are those the workers pushed, in the same order, each exactly once; those it has not
received yet are what the atomic queue contains. -/
theorem composed_ids {env : ParEnv} {D : Nat} {cfg : Configuration} {res : Results} {c : CState}
    (h : ParQ.Reachable env D cfg res c) : c.q.returned.map (·.2) ++ c.p.queue.map some = c.q.pushed.map some := by
  have hc := reachable_cinv h
  rw [queue_single_consumer_order (c := 0) (fun t ht => ht) hc.queue, hc.ghost, ← List.map_append, List.take_append_drop]

theorem now_mono {C : Nat → Prop} {V : Type} {s s' : QState V} (h : Queue.Step C s s') : s.now ≤ s'.now := by
  cases h <;> first | exact Nat.le_refl _ | exact Nat.le_succ _

theorem popNull_late {C : Nat → Prop} {V : Type} {s : QState V} (h : Queue.Reachable C s) {t : Nat} {d : Option Nat}
    (ht : s.pc t = .popNull d) : ∃ x, d = some x ∧ x ≤ s.now := by
  unfold Queue.Reachable at h
  induction h with
  | refl => simp [Queue.init] at ht
  | @tail b s hs hst ih =>
    by_cases hp : b.pc t = .popNull d
    · obtain ⟨x, h1, h2⟩ := ih hp
      exact ⟨x, h1, Nat.le_trans h2 (now_mono hst)⟩
    · obtain ⟨_, x, h1, h2⟩ := queue_null_only_if_empty hs hst hp ht
      exact ⟨x, h1, Nat.le_trans h2 (now_mono hst)⟩

/-- **C63**: a run gives up waiting only when the deadline has passed. -/
theorem composed_gives_up_late {env : ParEnv} {D : Nat} {cfg : Configuration} {res : Results} {c : CState}
    (h : ParQ.Reachable env D cfg res c) (ht : c.p.timedOut = true) : cfg.execution.timeout > 0 ∧ D ≤ c.q.now := by
  unfold ParQ.Reachable at h
  generalize ha : ({ p := launch env.zxTransformable cfg res, q := Queue.init } : CState) = a at h
  induction h with
  | refl => subst ha; simp [launch] at ht
  | @tail b c hs hst ih =>
    subst ha
    have hc := reachable_cinv (show ParQ.Reachable env D cfg res b from hs)
    cases hst with
    | flow p' hst hq hw =>
      refine ih ?_
      cases hst with
      | timeout hm hto =>
        have := hw (Or.inl hm)
        rw [hm] at this; simp at this
      | _ => exact ht
    | inner q' hst hp hr hi hn hm =>
      obtain ⟨h1, h2⟩ := ih ht
      exact ⟨h1, Nat.le_trans h2 (now_mono hst)⟩
    | expired d hpc hm =>
      have hrole := hc.role 0
      rw [hpc] at hrole
      obtain ⟨_, _, hd, hne⟩ := hrole
      have hto : b.p.cfg.execution.timeout > 0 := by
        by_contra hn
        apply hne
        rw [hd]; unfold ParQ.deadlineOf; rw [if_neg hn]
      obtain ⟨x, hx, hle⟩ := popNull_late hc.queue hpc
      have : x = D := by
        rw [hd] at hx; unfold ParQ.deadlineOf at hx; rw [if_pos hto] at hx; cases hx; rfl
      subst this
      rw [(reachable_base hc.par).conf, (launch_flags ..).2.2] at hto
      exact ⟨hto, hle⟩
    | _ => exact ih ht

/-- **C63**: when the run has returned or thrown, no thread is inside the queue any more, so it can be destroyed. -/
theorem composed_queue_unused {env : ParEnv} {D : Nat} {cfg : Configuration} {res : Results} {c : CState}
    (h : ParQ.Reachable env D cfg res c) (he : c.p.main = .ended .returned ∨ c.p.main = .ended .threw) (t : Nat) :
    c.q.pc t = .idle := by
  unfold ParQ.Reachable at h
  cases h with
  | refl =>
    rfl
  | @tail b _ hs hst =>
    have hc := reachable_cinv (show ParQ.Reachable env D cfg res b from hs)
    have quiet : (∀ i, i < b.p.slots.length → b.q.pc (i + 1) = .idle) → ¬ ParQ.waiting b.p → b.q.pc t = .idle := by
      intro h1 h2
      by_cases h0 : t = 0
      · subst h0; exact ParQ.waiting_idle (hc.role 0) h2
      · by_contra hne
        obtain ⟨i, x, rfl, hlt, _⟩ := (hc.role t).worker_lt h0 hne
        exact hne (h1 i hlt)
    cases hst with
    | flow p' hst hq hw =>
      exfalso
      change p'.main = _ ∨ p'.main = _ at he
      have dead : ∀ e, b.p.main ≠ .ended e := fun e he' => ended_final he' hst
      cases hst with
      | constructTerminates i x hx hp hb ht hz hm => simp at he
      | pop i x q hm hq hx hf =>
        simp only [PState.popped] at he
        split at he <;> simp at he
      | popThrows i x q hm hq hx hf => simp at he
      | timeout hm ht => simp at he
      | signal i x hm hx => simp at he
      | signalledAll i hm hi => simp at he
      | join hm hf =>
        rcases hw (Or.inr (Or.inl hm)) with h' | h'
        · rw [hm] at h'; simp at h'
        · rcases he with he | he <;> rw [h'] at he <;> simp at he
      | unwind hm hf =>
        rcases hw (Or.inr (Or.inr hm)) with h' | h'
        · rw [hm] at h'; simp at h'
        · rcases he with he | he <;> rw [h'] at he <;> simp at he
      | _ => rcases he with he | he <;> exact dead _ he
    | inner q' hst hp hr hi hn hm => rcases he with he | he <;> exact absurd he (hm _)
    | startPush i n x hx hp ht hn hm => rcases he with he | he <;> exact absurd he (hm _)
    | link i n ht hm => rcases he with he | he <;> exact absurd he (hm _)
    | startPop hm ht => rcases he with he | he <;> rw [hm] at he <;> simp at he
    | got i o k v n x ht hn hd hw hx hf hm =>
      exfalso
      simp only [PState.popped] at he
      split at he <;> simp at he
    | gotException i o k v n x ht hn hd hw hx hf hm => simp at he
    | expired d ht hm => simp at he
    | join hm hf ht => exact quiet ht (by simp [ParQ.waiting, hm])
    | unwind hm hf ht => exact quiet ht (by simp [ParQ.waiting, hm])

/-! ## Termination -/

/-- **C63**: in every infinite execution nothing but time passing and spurious wake-ups of the main thread happens from some point on:
the threads of a run make finitely many steps. -/
theorem composed_finite {env : ParEnv} {D : Nat} {cfg : Configuration} {res : Results} (f : Nat → CState)
    (h0 : ParQ.Reachable env D cfg res (f 0)) (h : ∀ n, ParQ.Step env D (f n) (f (n + 1))) :
    ∀ N, ∃ n, N ≤ n ∧ IdleStep (f n) (f (n + 1)) := by
  intro N
  by_contra hne
  have hreach : ∀ n, ParQ.Reachable env D cfg res (f n) := by
    intro n
    induction n with
    | zero => exact h0
    | succ n ih => exact ParQ.Steps.tail ih (h n)
  refine ParQ.no_infinite_progress (fun n => f (N + n)) (hreach N) fun n => ⟨h (N + n), fun hi => hne ⟨N + n, by omega, hi⟩⟩

/-- **C63**: with a timeout, a run whose checks all end never gets stuck: at the latest when the deadline has passed, a thread can go
on. -/
theorem composed_timeout_returns {env : ParEnv} {D : Nat} {cfg : Configuration} {res : Results} {c : CState} (hr : RunsEnd env)
    (ht : cfg.execution.timeout > 0) (h : ParQ.Reachable env D cfg res c) (hs : Stuck env D c) : ∃ e, c.p.main = .ended e := by
  by_contra hne
  have hm : ∀ e, c.p.main ≠ .ended e := fun e he => hne ⟨e, he⟩
  have := (stuck_shape hr h hs hm).2.1
  rw [(reachable_base (reachable_cinv h).par).conf, (launch_flags ..).2.2] at this
  exact this ht

/-- The main thread sleeps although ids are waiting for it: their notifications were sent between its look at the queue and its
falling asleep. -/
structure WakeUpLost (cfg : Configuration) (c : CState) : Prop where
  noTimeout : ¬ cfg.execution.timeout > 0
  waits : c.p.main = .wait
  asleep : c.q.pc 0 = .asleep none false
  idsWaiting : c.p.queue ≠ []
  allFinished : ∀ x ∈ c.p.slots, x.finished = true

/-- **C63**: without a timeout a run whose checks all end gets stuck only as described by `WaitsForever` (C15) or by `WakeUpLost`. -/
theorem composed_stuck {env : ParEnv} {D : Nat} {cfg : Configuration} {res : Results} {c : CState} (hp : ParCfg cfg)
    (hz : ZXAnswers env) (hr : RunsEnd env) (h1 : res.startedSimulations = 0) (h2 : res.performedSimulations = 0)
    (h : ParQ.Reachable env D cfg res c) (hs : Stuck env D c) :
    (∃ e, c.p.main = .ended e) ∨ WaitsForever cfg c.p ∨ WakeUpLost cfg c := by
  by_cases hm : ∀ e, c.p.main ≠ .ended e
  · right
    obtain ⟨hw, hto, hpc, hfin, e, he, hlost⟩ := stuck_shape hr h hs hm
    have hc := reachable_cinv h
    have hb := reachable_base hc.par
    by_cases hq : c.p.queue = []
    · left
      have hidle : ∀ x ∈ c.p.slots, x.pc = .idle := by
        intro x hx
        have := hfin x hx
        simp only [Slot.finished, Bool.or_eq_true, decide_eq_true_eq] at this
        rcases this with h | h
        · obtain ⟨i, hi⟩ := List.mem_iff_getElem?.mp hx
          have := (hb.queue i).mpr ⟨x, hi, h⟩
          rw [hq] at this
          simp at this
        · exact h
      have stuck : ∀ s', ¬ Par.Step env c.p s' := by
        intro s' hst
        have none : ∀ {i : Nat} {x : Slot} {w : WPc}, c.p.slots[i]? = some x → x.pc = w → w ≠ .idle → False := by
          intro i x w hx hw hne
          exact hne (hw ▸ hidle x (List.mem_of_getElem? hx))
        cases hst with
        | construct i x hx hp => exact none hx hp (by simp)
        | constructThrows i x hx hp => exact none hx hp (by simp)
        | constructTerminates i x hx hp => exact none hx hp (by simp)
        | stimulusThrows i x hx hp => exact none hx hp (by simp)
        | begin i x hx hp => exact none hx hp (by simp)
        | skip i x hx hp => exact none hx hp (by simp)
        | runReturns i x v hx hp => exact none hx hp (by simp)
        | runThrows i x hx hp => exact none hx hp (by simp)
        | push i x hx hp => exact none hx hp (by simp)
        | pop i x q hm' hq' => rw [hq] at hq'; simp at hq'
        | popThrows i x q hm' hq' => rw [hq] at hq'; simp at hq'
        | timeout hm' ht => exact hto ht
        | signal i x hm' => rw [hw] at hm'; simp at hm'
        | signalledAll i hm' => rw [hw] at hm'; simp at hm'
        | join hm' => rw [hw] at hm'; simp at hm'
        | unwind hm' => rw [hw] at hm'; simp at hm'
      rcases parallel_ends_partial hp hz hr h1 h2 hc.par stuck with ⟨e, he⟩ | h'
      · exact absurd he (hm e)
      · exact h'
    · right
      refine ⟨?_, hw, by rw [he, hlost hq], hq, hfin⟩
      rw [hb.conf, (launch_flags ..).2.2] at hto
      exact hto
  · left
    by_contra hne
    exact hm fun e he => hne ⟨e, he⟩

end QCEC.Props
