import Verif.Model.ParallelQueue
import Verif.Props.Parallel
import Verif.Props.Queue
/-!
# The parallel flow with its queue refines the flow with an atomic queue
-/
namespace QCEC.ParQ
open QCEC QCEC.Mgr QCEC.Par QCEC.Props
open QCEC.Queue (Pc Node QState flight set_same set_other)

/-- The main thread has not left the loop, or the run is over. -/
def waiting (p : PState) : Prop := p.main = .wait ∨ ∃ e, p.main = .ended e

/-- What a thread inside the queue is doing there. -/
def Role (D : Nat) (p : PState) (t : Nat) : Pc Nat → Prop
  | .idle => True
  | .pushLock v _ | .pushData v _ | .pushNext v _ | .pushTail v _ =>
    ∃ i x, t = i + 1 ∧ v = i ∧ p.slots[i]? = some x ∧ x.pc = .pushing
  | .pushUnlock | .pushNotify => ∃ i x, t = i + 1 ∧ p.slots[i]? = some x ∧ x.pc = .queued
  | .popLock d | .popCheck d | .popSleep d | .asleep d _ => t = 0 ∧ waiting p ∧ d = deadlineOf D p
  | .popLate d => t = 0 ∧ waiting p ∧ some d = deadlineOf D p
  | .popFinal d _ | .popNull d => t = 0 ∧ waiting p ∧ d = deadlineOf D p ∧ d ≠ none
  | .popTake | .popUnlock _ _ _ | .popRead _ _ _ => t = 0 ∧ waiting p

theorem Role.mono {D : Nat} {p p' : PState} {t : Nat} {pc : Pc Nat} (h : Role D p t pc)
    (h1 : ∀ i x, t = i + 1 → p.slots[i]? = some x → x.pc = .pushing ∨ x.pc = .queued → ∃ x', p'.slots[i]? = some x' ∧ x'.pc = x.pc)
    (h2 : t = 0 → waiting p → waiting p') (h3 : p'.cfg = p.cfg) : Role D p' t pc := by
  have hd : deadlineOf D p' = deadlineOf D p := by unfold deadlineOf; rw [h3]
  have push : ∀ v, (∃ i x, t = i + 1 ∧ v = i ∧ p.slots[i]? = some x ∧ x.pc = .pushing) →
      ∃ i x, t = i + 1 ∧ v = i ∧ p'.slots[i]? = some x ∧ x.pc = .pushing := by
    rintro v ⟨i, x, ht, hv, hx, hp⟩
    obtain ⟨x', hx', hp'⟩ := h1 i x ht hx (Or.inl hp)
    exact ⟨i, x', ht, hv, hx', by rw [hp', hp]⟩
  have queued : (∃ i x, t = i + 1 ∧ p.slots[i]? = some x ∧ x.pc = .queued) →
      ∃ i x, t = i + 1 ∧ p'.slots[i]? = some x ∧ x.pc = .queued := by
    rintro ⟨i, x, ht, hx, hp⟩
    obtain ⟨x', hx', hp'⟩ := h1 i x ht hx (Or.inr hp)
    exact ⟨i, x', ht, hx', by rw [hp', hp]⟩
  cases pc <;> simp only [Role] at h ⊢
  all_goals first
    | exact push _ h
    | exact queued h
    | exact ⟨h.1, h2 h.1 h.2.1, h.2.2.1.trans hd.symm, h.2.2.2⟩
    | exact ⟨h.1, h2 h.1 h.2.1, h.2.2.trans hd.symm⟩
    | exact ⟨h.1, h2 h.1 h.2⟩

/-- Steps of the queue other than the linking ones keep the roles. -/
theorem role_inner {D : Nat} {p : PState} {q q' : QState Nat} (h : ∀ t, Role D p t (q.pc t)) (hst : Queue.Step consumer q q')
    (hp : q'.pushed = q.pushed) (hr : q'.returned = q.returned) (hi : ∀ t, q.pc t = .idle → q'.pc t = .idle) :
    ∀ t, Role D p t (q'.pc t) := by
  have one : ∀ {t : Nat} {x : Pc Nat}, q'.pc = Queue.set q.pc t x → Role D p t x → ∀ t', Role D p t' (q'.pc t') := by
    intro t x hpc hx t'
    rw [hpc]
    by_cases htt : t' = t
    · subst htt; rw [set_same]; exact hx
    · rw [set_other _ _ htt]; exact h t'
  cases hst with
  | tick => exact h
  | push t v n hpc hn =>
    have := hi t hpc
    change Queue.set q.pc t _ t = _ at this
    rw [set_same] at this; simp at this
  | pop t dl hpc hc =>
    have := hi t hpc
    change Queue.set q.pc t _ t = _ at this
    rw [set_same] at this; simp at this
  | pushTail t v n hpc =>
    have := congrArg List.length hp
    simp at this
  | popRead t o k v x hpc hx =>
    have := congrArg List.length hr
    simp at this
  | notifyOne t t' dl e hpc hs =>
    intro u
    change Role D p u (Queue.set (Queue.set q.pc t _) t' _ u)
    by_cases h1 : u = t'
    · subst h1; rw [set_same]
      have := h u; rw [hs] at this; exact this
    · rw [set_other _ _ h1]
      by_cases h2 : u = t
      · subst h2; rw [set_same]; trivial
      · rw [set_other _ _ h2]; exact h u
  | pushLock t v n hpc hf => refine one (t := t) rfl ?_; have := h t; rw [hpc] at this; exact this
  | pushData t v n x hpc hx => refine one (t := t) rfl ?_; have := h t; rw [hpc] at this; exact this
  | pushNext t v n x hpc hx => refine one (t := t) rfl ?_; have := h t; rw [hpc] at this; exact this
  | pushUnlock t hpc => refine one (t := t) rfl ?_; have := h t; rw [hpc] at this; exact this
  | notifyNone t hpc hs => exact one (t := t) rfl trivial
  | popLock t dl hpc hf => refine one (t := t) rfl ?_; have := h t; rw [hpc] at this; exact this
  | checkEmpty t dl hpc hf he => refine one (t := t) rfl ?_; have := h t; rw [hpc] at this; exact this
  | checkFull t dl hpc hf he =>
    refine one (t := t) rfl ?_
    have := h t; rw [hpc] at this
    split
    · exact ⟨this.1, this.2.1⟩
    · rename_i hne; exact ⟨this.1, this.2.1, this.2.2, hne⟩
  | sleep t dl hpc => refine one (t := t) rfl ?_; have := h t; rw [hpc] at this; exact this
  | spurious t dl e hpc => refine one (t := t) rfl ?_; have := h t; rw [hpc] at this; exact this
  | deadline t d e hpc hd => refine one (t := t) rfl ?_; have := h t; rw [hpc] at this; exact this
  | popLate t d hpc hf =>
    refine one (t := t) rfl ?_; have := h t; rw [hpc] at this; exact ⟨this.1, this.2.1, this.2.2, by simp⟩
  | finalEmpty t d l hpc hf he => refine one (t := t) rfl ?_; have := h t; rw [hpc] at this; exact this
  | finalFull t d l hpc hf he => refine one (t := t) rfl ?_; have := h t; rw [hpc] at this; exact ⟨this.1, this.2.1⟩
  | popNull t d hpc => exact one (t := t) rfl trivial
  | popTake t x m hpc hx hm => refine one (t := t) rfl ?_; have := h t; rw [hpc] at this; exact this
  | popUnlock t o k v hpc => refine one (t := t) rfl ?_; have := h t; rw [hpc] at this; exact this

/-- The slots of the workers that push or have pushed do not change in the other steps. -/
theorem flow_slots {env : ParEnv} {s s' : PState} (h : Par.Step env s s') (hq : s'.queue = s.queue) {i : Nat} {x : Slot}
    (hx : s.slots[i]? = some x) (hp : x.pc = .pushing ∨ x.pc = .queued) : ∃ x', s'.slots[i]? = some x' ∧ x'.pc = x.pc := by
  have upd : ∀ {j : Nat} {y : Slot} {f : Slot → Slot}, s.slots[j]? = some y → y.pc ≠ .pushing → y.pc ≠ .queued →
      s'.slots = s.slots.modify j f → ∃ x', s'.slots[i]? = some x' ∧ x'.pc = x.pc := by
    intro j y f hy h1 h2 h3
    refine ⟨x, ?_, rfl⟩
    rw [h3, getElem?_modify_iff]
    refine ⟨x, hx, ?_⟩
    rw [if_neg]
    rintro rfl
    rw [hx] at hy; cases hy
    rcases hp with hp | hp
    · exact h1 hp
    · exact h2 hp
  cases h with
  | construct j y hy hp' hm => exact upd hy (by simp [hp']) (by simp [hp']) rfl
  | constructThrows j y hy hp' hb ht hz hm => exact upd hy (by simp [hp']) (by simp [hp']) rfl
  | constructTerminates j y hy hp' hb ht hz hm => exact ⟨x, hx, rfl⟩
  | stimulusThrows j y hy hp' hk ht hm => exact upd hy (by simp [hp']) (by simp [hp']) rfl
  | begin j y hy hp' hd hm => exact upd hy (by simp [hp']) (by simp [hp']) rfl
  | skip j y hy hp' hd hm => exact upd hy (by simp [hp']) (by simp [hp']) rfl
  | runReturns j y c hy hp' hc hm => exact upd hy (by simp [hp']) (by simp [hp']) rfl
  | runThrows j y hy hp' ht hm => exact upd hy (by simp [hp']) (by simp [hp']) rfl
  | push j y hy hp' hm => simp at hq
  | pop j y q hm hq' hy hf => simp [PState.popped, hq'] at hq
  | popThrows j y q hm hq' hy hf => simp [hq'] at hq
  | timeout hm ht => exact ⟨x, hx, rfl⟩
  | signal j y hm hy =>
    refine ⟨if j = i then { x with signalled := x.signalled || x.built } else x, ?_, by split <;> rfl⟩
    show (s.slots.modify j _)[i]? = _
    rw [getElem?_modify_iff]
    exact ⟨x, hx, rfl⟩
  | signalledAll j hm hi => exact ⟨x, hx, rfl⟩
  | join hm hf => exact ⟨x, hx, rfl⟩
  | unwind hm hf => exact ⟨x, hx, rfl⟩

/-- Invariant: both components are executions of their own systems, and the ghost queue is what the pops will return. -/
structure CInv (env : ParEnv) (D : Nat) (cfg : Configuration) (res : Results) (c : CState) : Prop where
  queue : Queue.Reachable consumer c.q
  par : Par.Reachable env cfg res c.p
  role : ∀ t, Role D c.p t (c.q.pc t)
  ghost : c.p.queue = c.q.pushed.drop c.q.returned.length

theorem waiting_idle {D : Nat} {p : PState} {pc : Pc Nat} (h : Role D p 0 pc) (hw : ¬ waiting p) : pc = .idle := by
  cases pc <;> simp only [Role] at h <;> first
    | rfl
    | (obtain ⟨i, x, ht, _⟩ := h; simp at ht)
    | exact absurd h.2.1 hw
    | exact absurd h.2 hw

/-- The id a pop is about to return is the oldest one not returned yet. -/
theorem CInv.head {env : ParEnv} {D : Nat} {cfg : Configuration} {res : Results} {c : CState} (h : CInv env D cfg res c)
    {o k : Nat} {v : Option Nat} (ht : c.q.pc 0 = .popRead o k v) {n : Node Nat} (hn : c.q.heap o = some n) :
    ∃ i, n.data = some i ∧ c.p.queue = i :: c.q.pushed.drop (c.q.returned.length + 1) := by
  obtain ⟨_, _, l, hi⟩ := Queue.reachable_inv h.queue
  have hown := (hi.own 0 o ⟨v, none⟩ (by rw [ht]; rfl)).1
  rw [hn] at hown
  cases hown
  have hfl : flight (c.q.pc 0) = some (k, v) := by rw [ht]; rfl
  obtain ⟨hk, hlen⟩ := (single_positions (c := 0) (fun t ht => ht) h.queue).2.1 k v hfl
  have hv := (Queue.reachable_pinv h.queue).inFlight 0 k v hfl
  have htk := (Queue.reachable_contents h.queue).2
  rw [htk, List.getElem?_map, List.getElem?_take] at hv
  split at hv
  · cases hx : c.q.pushed[k]? with
    | none => rw [hx] at hv; simp at hv
    | some w =>
      rw [hx] at hv
      simp only [Option.map_some, Option.some.injEq] at hv
      refine ⟨w, hv.symm, ?_⟩
      rw [h.ghost, ← hk]
      obtain ⟨hlt, hw⟩ := List.getElem?_eq_some_iff.mp hx
      rw [List.drop_eq_getElem_cons hlt, hw]
  · simp at hv

theorem step_cinv {env : ParEnv} {D : Nat} {cfg : Configuration} {res : Results} {c c' : CState} (h : CInv env D cfg res c)
    (hst : Step env D c c') : CInv env D cfg res c' := by
  have hb := reachable_base h.par
  cases hst with
  | flow p' hs hq hw =>
    refine ⟨h.queue, .tail h.par hs, fun t => ?_, by rw [← h.ghost]; exact hq⟩
    have hc : p'.cfg = c.p.cfg := (reachable_base (Par.Steps.tail h.par hs)).conf.trans hb.conf.symm
    refine (h.role t).mono (fun i x _ hx hp => flow_slots hs hq hx hp) (fun _ hwt => ?_) hc
    rcases hwt with hwt | ⟨e, he⟩
    · rcases hw (Or.inl hwt) with h' | h'
      · exact Or.inl (h'.trans hwt)
      · exact Or.inr ⟨_, h'⟩
    · exact absurd hs (ended_final he)
  | inner q' hs hp hr hi hn hm =>
    exact ⟨.tail h.queue hs, h.par, role_inner h.role hs hp hr hi, by rw [hp, hr]; exact h.ghost⟩
  | startPush i n x hx hp ht hn hm =>
    refine ⟨.tail h.queue (.push c.q (i + 1) i n ht hn), h.par, fun t => ?_, h.ghost⟩
    show Role D c.p t (Queue.set c.q.pc (i + 1) _ t)
    by_cases hti : t = i + 1
    · subst hti; rw [set_same]; exact ⟨i, x, rfl, rfl, hx, hp⟩
    · rw [set_other _ _ hti]; exact h.role t
  | link i n ht hm =>
    have hrole := h.role (i + 1)
    rw [ht] at hrole
    obtain ⟨i', x, hii, _, hx, hp⟩ := hrole
    have : i' = i := by omega
    subst this
    refine ⟨.tail h.queue (.pushTail c.q (i' + 1) i' n ht), .tail h.par (.push c.p i' x hx hp hm), fun t => ?_, ?_⟩
    · show Role D _ t (Queue.set c.q.pc (i' + 1) _ t)
      by_cases hti : t = i' + 1
      · subst hti; rw [set_same]
        exact ⟨i', { x with pc := .queued }, rfl, (getElem?_modify_iff ..).mpr ⟨x, hx, by rw [if_pos rfl]⟩, rfl⟩
      · rw [set_other _ _ hti]
        refine (h.role t).mono (fun j y htj hy _ => ⟨y, ?_, rfl⟩) (fun _ hw => hw) rfl
        refine (getElem?_modify_iff ..).mpr ⟨y, hy, ?_⟩
        rw [if_neg]; omega
    · show c.p.queue ++ [i'] = (c.q.pushed ++ [i']).drop c.q.returned.length
      have hle : c.q.returned.length ≤ c.q.pushed.length := by
        have := congrArg List.length (queue_single_consumer_order (c := 0) (fun t ht => ht) h.queue)
        simp at this
        omega
      rw [List.drop_append_of_le_length hle, h.ghost]
  | startPop hm ht =>
    refine ⟨.tail h.queue (.pop c.q 0 _ ht rfl), h.par, fun t => ?_, h.ghost⟩
    show Role D c.p t (Queue.set c.q.pc 0 _ t)
    by_cases h0 : t = 0
    · subst h0; rw [set_same]; exact ⟨rfl, Or.inl hm, rfl⟩
    · rw [set_other _ _ h0]; exact h.role t
  | got i o k v n x ht hn hd hw hx hf hm =>
    obtain ⟨w, hw', hq⟩ := h.head ht hn
    rw [hd] at hw'; cases hw'
    have hqq : c.p.queue = i :: c.p.queue.tail := by rw [hq]; rfl
    refine ⟨.tail h.queue (.popRead c.q 0 o k v n ht hn), .tail h.par (.pop c.p i x _ hm hqq hx hf), fun t => ?_, ?_⟩
    · show Role D _ t (Queue.set c.q.pc 0 _ t)
      by_cases h0 : t = 0
      · subst h0; rw [set_same]; trivial
      · rw [set_other _ _ h0]
        by_cases hti : t = i + 1
        · subst hti; rw [hw]; trivial
        · refine (h.role t).mono (fun j y htj hy _ => ⟨y, ?_, rfl⟩) (fun h => absurd h h0) rfl
          refine (getElem?_modify_iff ..).mpr ⟨y, hy, ?_⟩
          rw [if_neg]; omega
    · show c.p.queue.tail = c.q.pushed.drop (c.q.returned ++ [_]).length
      rw [hq, List.length_append]; rfl
  | gotException i o k v n x ht hn hd hw hx hf hm =>
    obtain ⟨w, hw', hq⟩ := h.head ht hn
    rw [hd] at hw'; cases hw'
    have hqq : c.p.queue = i :: c.p.queue.tail := by rw [hq]; rfl
    refine ⟨.tail h.queue (.popRead c.q 0 o k v n ht hn), .tail h.par (.popThrows c.p i x _ hm hqq hx hf), fun t => ?_, ?_⟩
    · show Role D _ t (Queue.set c.q.pc 0 _ t)
      by_cases h0 : t = 0
      · subst h0; rw [set_same]; trivial
      · rw [set_other _ _ h0]
        by_cases hti : t = i + 1
        · subst hti; rw [hw]; trivial
        · refine (h.role t).mono (fun j y htj hy _ => ⟨y, ?_, rfl⟩) (fun h => absurd h h0) rfl
          refine (getElem?_modify_iff ..).mpr ⟨y, hy, ?_⟩
          rw [if_neg]; omega
    · show c.p.queue.tail = c.q.pushed.drop (c.q.returned ++ [_]).length
      rw [hq, List.length_append]; rfl
  | expired d ht hm =>
    have hrole := h.role 0
    rw [ht] at hrole
    have hto : c.p.cfg.execution.timeout > 0 := by
      obtain ⟨_, _, hd, hne⟩ := hrole
      by_contra hn
      apply hne
      rw [hd]; unfold deadlineOf; rw [if_neg hn]
    refine ⟨.tail h.queue (.popNull c.q 0 d ht), .tail h.par (.timeout c.p hm hto), fun t => ?_, h.ghost⟩
    show Role D _ t (Queue.set c.q.pc 0 _ t)
    by_cases h0 : t = 0
    · subst h0; rw [set_same]; trivial
    · rw [set_other _ _ h0]
      exact (h.role t).mono (fun j y htj hy _ => ⟨y, hy, rfl⟩) (fun h => absurd h h0) rfl
  | join hm hf ht =>
    refine ⟨h.queue, .tail h.par (.join c.p hm hf), fun t => ?_, h.ghost⟩
    exact (h.role t).mono (fun j y htj hy _ => ⟨y, hy, rfl⟩) (fun _ _ => Or.inr ⟨_, rfl⟩) rfl
  | unwind hm hf ht =>
    refine ⟨h.queue, .tail h.par (.unwind c.p hm hf), fun t => ?_, h.ghost⟩
    exact (h.role t).mono (fun j y htj hy _ => ⟨y, hy, rfl⟩) (fun _ _ => Or.inr ⟨_, rfl⟩) rfl

theorem reachable_cinv {env : ParEnv} {D : Nat} {cfg : Configuration} {res : Results} {c : CState}
    (h : Reachable env D cfg res c) : CInv env D cfg res c := by
  unfold Reachable at h
  generalize ha : ({ p := launch env.zxTransformable cfg res, q := Queue.init } : CState) = a at h
  induction h with
  | refl =>
    subst ha
    exact ⟨.refl _, .refl _, fun t => trivial, rfl⟩
  | tail _ hst ih => exact step_cinv ih hst

end QCEC.ParQ
