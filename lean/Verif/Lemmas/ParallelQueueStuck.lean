import Verif.Lemmas.ParallelQueue
/-!
# Where a parallel run with its queue can stop
-/
namespace QCEC.ParQ
open QCEC QCEC.Mgr QCEC.Par QCEC.Props
open QCEC.Queue (Pc Node QState flight set_same set_other holdsTail holdsHead)

/-- Nothing but time passing or a spurious wake-up of the main thread. -/
def IdleStep (c c' : CState) : Prop :=
  c'.p = c.p ∧ (c'.q = { c.q with now := c.q.now + 1 } ∨
    ∃ dl e, c.q.pc 0 = .asleep dl e ∧ c'.q = c.q.goto 0 (.popLock dl))

/-- The same state `k` time units later. -/
def later (k : Nat) (c : CState) : CState := { c with q := { c.q with now := c.q.now + k } }

/-- However much time passes, nothing happens except that the main thread may wake up spuriously. -/
def Stuck (env : ParEnv) (D : Nat) (c : CState) : Prop := ∀ k c', Step env D (later k c) c' → IdleStep (later k c) c'

theorem heap_bound {C : Nat → Prop} {V : Type} {s : QState V} (h : Queue.Reachable C s) : ∃ B, ∀ n, B ≤ n → s.heap n = none := by
  unfold Queue.Reachable at h
  have ext : ∀ (heap : Nat → Option (Node V)) (a : Nat) (x : Option (Node V)), (∃ B, ∀ n, B ≤ n → heap n = none) →
      ∃ B, ∀ n, B ≤ n → Queue.set heap a x n = none := by
    rintro heap a x ⟨B, hB⟩
    refine ⟨max B (a + 1), fun n hn => ?_⟩
    rw [set_other _ _ (by omega)]
    exact hB n (by omega)
  induction h with
  | refl => exact ext _ 0 _ ⟨0, fun _ _ => rfl⟩
  | tail _ hst ih =>
    cases hst with
    | push t v n hp hn => exact ext _ n _ ih
    | pushData t v n x hp hx => exact ext _ _ _ ih
    | pushNext t v n x hp hx => exact ext _ _ _ ih
    | popTake t x m hp hx hm => exact ext _ _ _ ih
    | popRead t o k v x hp hx => exact ext _ _ _ ih
    | _ => exact ih

/-- Inner steps of one thread. -/
theorem inner_one {env : ParEnv} {D : Nat} {c : CState} {q' : QState Nat} (h : Queue.Step consumer c.q q') {u : Nat} {x : Pc Nat}
    (hpc : q'.pc = Queue.set c.q.pc u x) (hp : q'.pushed = c.q.pushed) (hr : q'.returned = c.q.returned) (hi : c.q.pc u ≠ .idle)
    (hn : ∀ d, c.q.pc u ≠ .popNull d) (hm : ∀ e, c.p.main ≠ .ended e) : Step env D c { c with q := q' } := by
  refine .inner c q' h hp hr (fun t ht => ?_) (fun t d ht => ?_) hm
  · rw [hpc, set_other _ _ (by rintro rfl; exact hi ht)]; exact ht
  · rw [hpc, set_other _ _ (by rintro rfl; exact hn d ht)]; exact ht

/-- A worker that is inside the queue can go on, or another one can. -/
theorem worker_progress {env : ParEnv} {D : Nat} {c : CState} (hq : Queue.Reachable consumer c.q) (hr : ∀ t, Role D c.p t (c.q.pc t))
    (hm : ∀ e, c.p.main ≠ .ended e) {t : Nat} (ht : c.q.pc t ≠ .idle) (h0 : t ≠ 0) :
    ∃ c' u, Step env D c c' ∧ u ≠ 0 ∧ c'.q.pc u ≠ c.q.pc u := by
  obtain ⟨hl, hT, l, hi⟩ := Queue.reachable_inv hq
  have nz : ∀ u, holdsTail (c.q.pc u) → u ≠ 0 := by
    rintro u hu rfl
    have := hr 0
    cases hpc : c.q.pc 0 <;> rw [hpc] at hu this <;> first
      | exact hu
      | (obtain ⟨i, x, h, _⟩ := this; simp at h)
  have hTail : ∀ u, holdsTail (c.q.pc u) → ∃ c' u, Step env D c c' ∧ u ≠ 0 ∧ c'.q.pc u ≠ c.q.pc u := by
    intro u hu
    cases hpc : c.q.pc u with
    | pushData v n =>
      refine ⟨_, u, inner_one (Queue.Step.pushData c.q u v n _ hpc hi.last) (u := u) rfl rfl rfl (by simp [hpc]) (by simp [hpc]) hm,
        nz u hu, ?_⟩
      show Queue.set c.q.pc u _ u ≠ _; rw [set_same, hpc]; simp
    | pushNext v n =>
      refine ⟨_, u, inner_one (Queue.Step.pushNext c.q u v n _ hpc hi.last) (u := u) rfl rfl rfl (by simp [hpc]) (by simp [hpc]) hm,
        nz u hu, ?_⟩
      show Queue.set c.q.pc u _ u ≠ _; rw [set_same, hpc]; simp
    | pushTail v n =>
      have := hr u
      rw [hpc] at this
      obtain ⟨i, x, rfl, rfl, hx, hp⟩ := this
      refine ⟨_, v + 1, .link c v n hpc hm, by omega, ?_⟩
      show Queue.set c.q.pc (v + 1) _ (v + 1) ≠ _; rw [set_same, hpc]; simp
    | pushUnlock =>
      refine ⟨_, u, inner_one (Queue.Step.pushUnlock c.q u hpc) (u := u) rfl rfl rfl (by simp [hpc]) (by simp [hpc]) hm,
        nz u hu, ?_⟩
      show Queue.set c.q.pc u _ u ≠ _; rw [set_same, hpc]; simp
    | _ => rw [hpc] at hu; exact absurd hu (fun h => h)
  cases hmx : c.q.tailMutex with
  | some u => exact hTail u ((hl.tail u).mpr hmx)
  | none =>
    have hnt : ¬ holdsTail (c.q.pc t) := fun hh => by have := (hl.tail t).mp hh; rw [hmx] at this; simp at this
    have hrt := hr t
    cases hpc : c.q.pc t with
    | pushLock v n =>
      refine ⟨_, t, inner_one (Queue.Step.pushLock c.q t v n hpc hmx) (u := t) rfl rfl rfl (by simp [hpc]) (by simp [hpc]) hm, h0, ?_⟩
      show Queue.set c.q.pc t _ t ≠ _; rw [set_same, hpc]; simp
    | pushNotify =>
      by_cases hs : ∃ t' dl e, c.q.pc t' = .asleep dl e
      · obtain ⟨t', dl, e, hs⟩ := hs
        have hne : t ≠ t' := by rintro rfl; rw [hpc] at hs; simp at hs
        refine ⟨{ c with q := (c.q.goto t .idle).goto t' (.popLock dl) }, t,
          .inner c _ (Queue.Step.notifyOne c.q t t' dl e hpc hs) rfl rfl ?_ ?_ hm, h0, ?_⟩
        · intro u hu
          show Queue.set (Queue.set c.q.pc t _) t' _ u = _
          rw [set_other _ _ (by rintro rfl; rw [hs] at hu; simp at hu), set_other _ _ (by rintro rfl; rw [hpc] at hu; simp at hu)]
          exact hu
        · intro u d hu
          show Queue.set (Queue.set c.q.pc t _) t' _ u = _
          rw [set_other _ _ (by rintro rfl; rw [hs] at hu; simp at hu), set_other _ _ (by rintro rfl; rw [hpc] at hu; simp at hu)]
          exact hu
        · show Queue.set (Queue.set c.q.pc t _) t' _ t ≠ _
          rw [set_other _ _ hne, set_same, hpc]; simp
      · refine ⟨_, t, inner_one (Queue.Step.notifyNone c.q t hpc (fun t' dl e hh => hs ⟨t', dl, e, hh⟩)) (u := t) rfl rfl rfl
          (by simp [hpc]) (by simp [hpc]) hm, h0, ?_⟩
        show Queue.set c.q.pc t _ t ≠ _; rw [set_same, hpc]; simp
    | idle => exact absurd hpc ht
    | pushData v n => rw [hpc] at hnt; exact absurd trivial hnt
    | pushNext v n => rw [hpc] at hnt; exact absurd trivial hnt
    | pushTail v n => rw [hpc] at hnt; exact absurd trivial hnt
    | pushUnlock => rw [hpc] at hnt; exact absurd trivial hnt
    | _ => rw [hpc] at hrt; exact absurd hrt.1 h0

/-- When the workers are outside the queue, the main thread inside the queue can go on unless it is asleep. -/
theorem main_progress {env : ParEnv} {D : Nat} {cfg : Configuration} {res : Results} {c : CState} (h : CInv env D cfg res c)
    (hm : ∀ e, c.p.main ≠ .ended e) (hw : ∀ t, t ≠ 0 → c.q.pc t = .idle) (h0 : c.q.pc 0 ≠ .idle) (ha : ∀ dl e, c.q.pc 0 ≠ .asleep dl e) :
    ∃ c', Step env D c c' ∧ c'.q.pc 0 ≠ c.q.pc 0 := by
  obtain ⟨hl, hT, l, hi⟩ := Queue.reachable_inv h.queue
  have htm : c.q.tailMutex = none := by
    cases hmx : c.q.tailMutex with
    | none => rfl
    | some u =>
      have := (hl.tail u).mpr hmx
      have hr := h.role u
      by_cases hu : u = 0
      · subst hu
        cases hpc : c.q.pc 0 <;> rw [hpc] at this hr <;> first
          | exact absurd this (fun h => h)
          | (obtain ⟨i, x, h, _⟩ := hr; simp at h)
      · rw [hw u hu] at this; exact absurd this (fun h => h)
  have hhm : ¬ holdsHead (c.q.pc 0) → c.q.headMutex = none := by
    intro hn
    cases hmx : c.q.headMutex with
    | none => rfl
    | some u =>
      have := (hl.head u).mpr hmx
      by_cases hu : u = 0
      · subst hu; exact absurd this hn
      · rw [hw u hu] at this; exact absurd this (fun h => h)
  have hmain : c.p.main = .wait := by
    have hr := h.role 0
    by_contra hne
    exact h0 (waiting_idle hr (by rintro (h | ⟨e, he⟩); exacts [hne h, hm e he]))
  have hrole := h.role 0
  cases hpc : c.q.pc 0 with
  | idle => exact absurd hpc h0
  | asleep dl e => exact absurd hpc (ha dl e)
  | pushLock v n => rw [hpc] at hrole; obtain ⟨i, x, h, _⟩ := hrole; simp at h
  | pushData v n => rw [hpc] at hrole; obtain ⟨i, x, h, _⟩ := hrole; simp at h
  | pushNext v n => rw [hpc] at hrole; obtain ⟨i, x, h, _⟩ := hrole; simp at h
  | pushTail v n => rw [hpc] at hrole; obtain ⟨i, x, h, _⟩ := hrole; simp at h
  | pushUnlock => rw [hpc] at hrole; obtain ⟨i, x, h, _⟩ := hrole; simp at h
  | pushNotify => rw [hpc] at hrole; obtain ⟨i, x, h, _⟩ := hrole; simp at h
  | popLock dl =>
    refine ⟨_, inner_one (Queue.Step.popLock c.q 0 dl hpc (hhm (by simp [hpc, holdsHead]))) (u := 0) rfl rfl rfl (by simp [hpc])
      (by simp [hpc]) hm, ?_⟩
    simp [QState.goto, set_same, readNode]
  | popCheck dl =>
    cases he : c.q.isEmpty with
    | true =>
      refine ⟨_, inner_one (Queue.Step.checkEmpty c.q 0 dl hpc htm he) (u := 0) rfl rfl rfl (by simp [hpc]) (by simp [hpc]) hm, ?_⟩
      simp [QState.goto, set_same, readNode]
    | false =>
      refine ⟨_, inner_one (Queue.Step.checkFull c.q 0 dl hpc htm he) (u := 0) rfl rfl rfl (by simp [hpc]) (by simp [hpc]) hm, ?_⟩
      simp only [QState.goto, set_same]; split <;> simp
  | popSleep dl =>
    refine ⟨_, inner_one (Queue.Step.sleep c.q 0 dl hpc) (u := 0) rfl rfl rfl (by simp [hpc]) (by simp [hpc]) hm, ?_⟩
    simp [QState.goto, set_same, readNode]
  | popLate d =>
    refine ⟨_, inner_one (Queue.Step.popLate c.q 0 d hpc (hhm (by simp [hpc, holdsHead]))) (u := 0) rfl rfl rfl (by simp [hpc])
      (by simp [hpc]) hm, ?_⟩
    simp [QState.goto, set_same, readNode]
  | popFinal d late =>
    cases he : c.q.isEmpty with
    | true =>
      refine ⟨_, inner_one (Queue.Step.finalEmpty c.q 0 d late hpc htm he) (u := 0) rfl rfl rfl (by simp [hpc]) (by simp [hpc]) hm, ?_⟩
      simp [QState.goto, set_same, readNode]
    | false =>
      refine ⟨_, inner_one (Queue.Step.finalFull c.q 0 d late hpc htm he) (u := 0) rfl rfl rfl (by simp [hpc]) (by simp [hpc]) hm, ?_⟩
      simp [QState.goto, set_same, readNode]
  | popTake =>
    obtain ⟨x, m, _, hx, hxm, _⟩ := (queue_memory_safe h.queue 0).2.1 hpc
    refine ⟨_, inner_one (Queue.Step.popTake c.q 0 x m hpc hx hxm) (u := 0) rfl rfl rfl (by simp [hpc]) (by simp [hpc]) hm, ?_⟩
    simp [QState.goto, set_same, readNode]
  | popUnlock o k v =>
    refine ⟨_, inner_one (Queue.Step.popUnlock c.q 0 o k v hpc) (u := 0) rfl rfl rfl (by simp [hpc]) (by simp [hpc]) hm, ?_⟩
    simp [QState.goto, set_same, readNode]
  | popNull d =>
    refine ⟨_, .expired c d hpc hmain, ?_⟩
    simp [QState.goto, set_same, readNode]
  | popRead o k v =>
    obtain ⟨x, w, hx, _⟩ := (queue_memory_safe h.queue 0).2.2 o k v hpc
    obtain ⟨i, hd, hqq⟩ := h.head hpc hx
    obtain ⟨y, hy, hyp⟩ := ((reachable_base h.par).queue i).mp (by rw [hqq]; simp)
    cases hf : y.failed with
    | false =>
      refine ⟨_, .got c i o k v x y hpc hx hd (hw _ (by omega)) hy hf hmain, ?_⟩
      simp [QState.goto, set_same, readNode]
    | true =>
      refine ⟨_, .gotException c i o k v x y hpc hx hd (hw _ (by omega)) hy hf hmain, ?_⟩
      simp [QState.goto, set_same, readNode]

theorem idle_pc {c c' : CState} (h : IdleStep c c') {u : Nat} (hu : u ≠ 0) : c'.q.pc u = c.q.pc u := by
  obtain ⟨_, h | ⟨dl, e, _, h⟩⟩ := h
  · rw [h]
  · rw [h]; show Queue.set c.q.pc 0 _ u = _; rw [set_other _ _ hu]

theorem idle_pc0 {c c' : CState} (h : IdleStep c c') (ha : ∀ dl e, c.q.pc 0 ≠ .asleep dl e) : c'.q.pc 0 = c.q.pc 0 := by
  obtain ⟨_, h | ⟨dl, e, hs, h⟩⟩ := h
  · rw [h]
  · exact absurd hs (ha dl e)

theorem later_reachable {env : ParEnv} {D : Nat} {cfg : Configuration} {res : Results} {c : CState} (h : Reachable env D cfg res c)
    (hm : ∀ e, c.p.main ≠ .ended e) (k : Nat) : Reachable env D cfg res (later k c) := by
  induction k with
  | zero => exact h
  | succ k ih =>
    exact Steps.tail ih (.inner (later k c) { (later k c).q with now := (later k c).q.now + 1 } (.tick _) rfl rfl (fun _ h => h)
      (fun _ _ h => h) hm)

/-- Where a run can stop. -/
theorem stuck_shape {env : ParEnv} {D : Nat} {cfg : Configuration} {res : Results} {c : CState} (hr : RunsEnd env)
    (h : Reachable env D cfg res c) (hs : Stuck env D c) (hm : ∀ e, c.p.main ≠ .ended e) :
    c.p.main = .wait ∧ ¬ c.p.cfg.execution.timeout > 0 ∧ (∀ t, t ≠ 0 → c.q.pc t = .idle) ∧
    (∀ x ∈ c.p.slots, x.finished = true) ∧ ∃ e, c.q.pc 0 = .asleep none e ∧ (c.p.queue ≠ [] → e = false) := by
  have hc := reachable_cinv h
  have hb := reachable_base hc.par
  have hs0 : ∀ c', Step env D c c' → IdleStep c c' := hs 0
  -- the workers are outside the queue
  have hw : ∀ t, t ≠ 0 → c.q.pc t = .idle := by
    intro t ht
    by_contra hne
    obtain ⟨c', u, hst, hu, hch⟩ := worker_progress (env := env) hc.queue hc.role hm hne ht
    exact hch (idle_pc (hs0 c' hst) hu)
  -- the workers have ended
  have flow : ∀ {i : Nat} {x : Slot} {f : Slot → Slot}, c.p.slots[i]? = some x → (f x).pc ≠ x.pc →
      ¬ Par.Step env c.p (c.p.upd i f) := by
    intro i x f hx hne hst
    have := (hs0 _ (.flow c (c.p.upd i f) hst rfl (fun _ => Or.inl rfl))).1
    have h2 : (c.p.slots.modify i f)[i]? = c.p.slots[i]? := congrArg (fun p : PState => p.slots[i]?) this
    rw [List.getElem?_modify, hx] at h2
    simp only [Option.map_eq_map, Option.map_some, Option.some.injEq, if_true] at h2
    exact hne (by rw [h2])
  have hfin : ∀ x ∈ c.p.slots, x.finished = true := by
    intro x hx
    obtain ⟨i, hi⟩ := List.mem_iff_getElem?.mp hx
    cases hp : x.pc with
    | start => exact absurd (Par.Step.construct c.p i x hi hp hm) (flow hi (by simp [hp]))
    | built =>
      cases hd : c.p.done with
      | false => exact absurd (Par.Step.begin c.p i x hi hp hd hm) (flow hi (by simp [hp]))
      | true => exact absurd (Par.Step.skip c.p i x hi hp hd hm) (flow hi (by simp [hp]))
    | running =>
      obtain ⟨v, hv⟩ := hr x.kind
      exact absurd (Par.Step.runReturns c.p i x v hi hp hv hm) (flow hi (by simp [hp]))
    | pushing =>
      exfalso
      obtain ⟨B, hB⟩ := heap_bound hc.queue
      have hst : Step env D c { c with q := startPush c.q i B } :=
        .startPush c i B x hi hp (hw _ (by omega)) (hB B (Nat.le_refl _)) hm
      have := idle_pc (hs0 _ hst) (u := i + 1) (by omega)
      rw [hw _ (by omega)] at this
      simp [startPush, QState.goto, set_same] at this
    | queued => simp [Slot.finished, hp]
    | idle => simp [Slot.finished, hp]
  have hend : ∀ i, i < c.p.slots.length → c.q.pc (i + 1) = .idle := fun i _ => hw _ (by omega)
  have hmain : c.p.main = .wait := by
    cases hmn : c.p.main with
    | wait => rfl
    | signalling i =>
      exfalso
      cases hx : c.p.slots[i]? with
      | none =>
        have := (hs0 _ (.flow c _ (Par.Step.signalledAll c.p i hmn (List.getElem?_eq_none_iff.mp hx)) rfl (by simp [hmn]))).1
        have := congrArg PState.main this
        rw [hmn] at this; simp at this
      | some x =>
        have := (hs0 _ (.flow c _ (Par.Step.signal c.p i x hmn hx) rfl (by simp [hmn]))).1
        have := congrArg PState.main this
        rw [hmn] at this; simp at this
    | joining =>
      exfalso
      have := congrArg PState.main (hs0 _ (.join c hmn hfin hend)).1
      rw [hmn] at this; simp at this
    | unwinding =>
      exfalso
      have := congrArg PState.main (hs0 _ (.unwind c hmn hfin hend)).1
      rw [hmn] at this; simp at this
    | ended e => exact absurd hmn (hm e)
  have h0 : c.q.pc 0 ≠ .idle := by
    intro h0
    have := idle_pc0 (hs0 _ (.startPop c hmain h0)) (by simp [h0])
    rw [h0] at this
    simp [QState.goto, set_same] at this
  have hsl : ∃ dl e, c.q.pc 0 = .asleep dl e := by
    by_contra hn
    have ha : ∀ dl e, c.q.pc 0 ≠ .asleep dl e := fun dl e he => hn ⟨dl, e, he⟩
    obtain ⟨c', hst, hch⟩ := main_progress hc hm hw h0 ha
    exact hch (idle_pc0 (hs0 c' hst) ha)
  obtain ⟨dl, e, he⟩ := hsl
  have hrole := hc.role 0
  rw [he] at hrole
  have hto : ¬ c.p.cfg.execution.timeout > 0 := by
    intro ht
    have hdl : dl = some D := by rw [hrole.2.2]; unfold deadlineOf; rw [if_pos ht]
    subst hdl
    have hst : Step env D (later D c) { (later D c) with q := (later D c).q.goto 0 (.popLate D) } :=
      inner_one (Queue.Step.deadline (later D c).q 0 D e he (by simp [later])) (u := 0) rfl rfl rfl
        (by show c.q.pc 0 ≠ _; rw [he]; simp) (by show ∀ d, c.q.pc 0 ≠ _; rw [he]; simp) hm
    obtain ⟨_, h2 | ⟨dl', e', _, h2⟩⟩ := hs D _ hst
    · have := congrArg (fun q : QState Nat => q.now) h2
      simp [QState.goto] at this
    · have := congrArg (fun q : QState Nat => q.pc 0) h2
      simp [QState.goto, set_same] at this
  have hdl : dl = none := by rw [hrole.2.2]; unfold deadlineOf; rw [if_neg hto]
  subst hdl
  refine ⟨hmain, hto, hw, hfin, e, he, fun hne => ?_⟩
  cases e with
  | false => rfl
  | true =>
    exfalso
    have hlen := (single_positions (c := 0) (fun t ht => ht) hc.queue).2.2 (by rw [he]; rfl)
    obtain ⟨t, ht⟩ := queue_wakeup_partial (c := 0) (fun t ht => ht) hc.queue he (Queue.reachable_contents hc.queue).1 (by
      rw [hlen, ← hc.ghost]; exact hne)
    by_cases h0 : t = 0
    · subst h0; rw [he] at ht; simp at ht
    · rw [hw t h0] at ht; simp at ht

end QCEC.ParQ
