import Verif.Props.ParallelQueueHang
/-!
# Everything the parallel flow can do with an atomic queue, it can do with its queue (C63)
-/
namespace QCEC.Props
open QCEC QCEC.Mgr QCEC.Par
open QCEC.Queue (Pc Node QState set_same set_other holdsTail holdsHead)
open QCEC.ParQ (CState IdleStep Stuck later reachable_cinv)

/-- No thread is inside the queue. -/
def AllOutside (c : CState) : Prop := ∀ t, c.q.pc t = .idle

/-- The main thread, which is inside the queue alone, makes a step there. -/
theorem main_inner {env : ParEnv} {D : Nat} {cfg : Configuration} {res : Results} {c : CState} {x y : Pc Nat}
    (h : ParQ.Reachable env D cfg res c) (hm : c.p.main = .wait) (hx : c.q.pc 0 = x) (ho : ∀ t, t ≠ 0 → c.q.pc t = .idle)
    {q' : QState Nat} (hst : Queue.Step ParQ.consumer c.q q') (hpc : q'.pc = Queue.set c.q.pc 0 y)
    (hp : q'.pushed = c.q.pushed) (hr : q'.returned = c.q.returned) (hi : x ≠ .idle) (hn : ∀ d, x ≠ .popNull d) :
    ParQ.Reachable env D cfg res { c with q := q' } ∧ q'.pc 0 = y ∧ ∀ t, t ≠ 0 → q'.pc t = .idle := by
  refine ⟨.tail h (ParQ.inner_one hst hpc hp hr (by rw [hx]; exact hi) (by rw [hx]; exact hn) (by simp [hm])), ?_, fun t ht => ?_⟩
  · rw [hpc, set_same]
  · rw [hpc, set_other _ _ ht]; exact ho t ht

theorem free_mutexes {env : ParEnv} {D : Nat} {cfg : Configuration} {res : Results} {c : CState}
    (h : ParQ.Reachable env D cfg res c) (ho : ∀ t, t ≠ 0 → c.q.pc t = .idle) :
    c.q.tailMutex = none ∧ (¬ holdsHead (c.q.pc 0) → c.q.headMutex = none) := by
  obtain ⟨hl, _⟩ := Queue.reachable_inv (reachable_cinv h).queue
  constructor
  · cases hm : c.q.tailMutex with
    | none => rfl
    | some u =>
      have := (hl.tail u).mpr hm
      by_cases h0 : u = 0
      · subst h0
        have hr := (reachable_cinv h).role 0
        cases hpc : c.q.pc 0 <;> rw [hpc] at this hr <;> first
          | exact absurd this (fun h => h)
          | (obtain ⟨i, x, h, _⟩ := hr; simp at h)
      · rw [ho u h0] at this; exact absurd this (fun h => h)
  · intro hn
    cases hm : c.q.headMutex with
    | none => rfl
    | some u =>
      have := (hl.head u).mpr hm
      by_cases h0 : u = 0
      · subst h0; exact absurd this hn
      · rw [ho u h0] at this; exact absurd this (fun h => h)

/-- The main thread takes the oldest id out of the queue. -/
theorem main_takes {env : ParEnv} {D : Nat} {cfg : Configuration} {res : Results} {c : CState} {i : Nat} {l : List Nat}
    (h : ParQ.Reachable env D cfg res c) (ha : AllOutside c) (hm : c.p.main = .wait) (hq : c.p.queue = i :: l) :
    ∃ c' o k v n, ParQ.Reachable env D cfg res c' ∧ c'.p = c.p ∧ c'.q.pc 0 = .popRead o k v ∧ c'.q.heap o = some n ∧
      n.data = some i ∧ ∀ t, t ≠ 0 → c'.q.pc t = .idle := by
  have h1 : ParQ.Reachable env D cfg res { c with q := c.q.goto 0 (.popLock (ParQ.deadlineOf D c.p)) } := .tail h (.startPop c hm (ha 0))
  have o1 : ∀ t, t ≠ 0 → (c.q.goto 0 (.popLock (ParQ.deadlineOf D c.p))).pc t = .idle := by
    intro t ht
    show Queue.set c.q.pc 0 (.popLock (ParQ.deadlineOf D c.p)) t = _
    rw [set_other _ _ ht]; exact ha t
  have z1 : (c.q.goto 0 (.popLock (ParQ.deadlineOf D c.p))).pc 0 = .popLock (ParQ.deadlineOf D c.p) := by
    simp [QState.goto, set_same]
  have f1 := free_mutexes h1 o1
  obtain ⟨h2, z2, o2⟩ := main_inner h1 hm z1 o1 (Queue.Step.popLock _ 0 _ z1 (f1.2 (by rw [z1]; exact fun h => h))) rfl rfl rfl
    (by simp) (by simp)
  -- the queue is not empty
  have full : ∀ {c' : CState}, ParQ.Reachable env D cfg res c' → c'.p = c.p → Queue.flight (c'.q.pc 0) = none → c'.q.isEmpty = false := by
    intro c' hc' hp hfl
    have hci := reachable_cinv hc'
    have hlen := (single_positions (c := 0) (fun t ht => ht) hci.queue).2.2 hfl
    have hcon := (Queue.reachable_contents hci.queue).1
    rw [hlen, ← hci.ghost, hp, hq] at hcon
    have := Queue.contents_nil_iff hcon
    simp only [QState.isEmpty, decide_eq_false_iff_not]
    exact fun h => by simpa using this.mpr h
  have f2 := free_mutexes h2 o2
  obtain ⟨h3, z3, o3⟩ := main_inner h2 hm z2 o2 (Queue.Step.checkFull _ 0 _ z2 f2.1 (full h2 rfl (by rw [z2]; rfl))) rfl rfl rfl
    (by simp) (by simp)
  -- up to the critical section that moves the head
  have h4 : ∃ c4 : CState, ParQ.Reachable env D cfg res c4 ∧ c4.p = c.p ∧ c4.q.pc 0 = .popTake ∧ ∀ t, t ≠ 0 → c4.q.pc t = .idle := by
    by_cases hd : ParQ.deadlineOf D c.p = none
    · exact ⟨_, h3, rfl, z3.trans (if_pos hd), o3⟩
    · have z3 := z3.trans (if_neg hd)
      have f3 := free_mutexes h3 o3
      obtain ⟨h4, z4, o4⟩ := main_inner h3 hm z3 o3 (Queue.Step.finalFull _ 0 _ _ z3 f3.1 (full h3 rfl (by rw [z3]; rfl))) rfl rfl rfl
        (by simp) (by simp)
      exact ⟨_, h4, rfl, z4, o4⟩
  obtain ⟨c4, h4, p4, z4, o4⟩ := h4
  have hm4 : c4.p.main = .wait := by rw [p4]; exact hm
  obtain ⟨x, m, _, hx, hxm, _⟩ := (queue_memory_safe (reachable_cinv h4).queue 0).2.1 z4
  obtain ⟨h5, z5, o5⟩ := main_inner h4 hm4 z4 o4 (Queue.Step.popTake _ 0 x m z4 hx hxm) rfl rfl rfl (by simp) (by simp)
  obtain ⟨h6, z6, o6⟩ := main_inner h5 hm4 z5 o5 (Queue.Step.popUnlock _ 0 _ _ _ z5) rfl rfl rfl (by simp) (by simp)
  obtain ⟨n, w, hn, _⟩ := (queue_memory_safe (reachable_cinv h6).queue 0).2.2 _ _ _ z6
  obtain ⟨j, hj, hqj⟩ := (reachable_cinv h6).head z6 hn
  have : j = i := by
    have : c4.p.queue = j :: _ := hqj
    rw [p4, hq] at this
    exact (List.cons.inj this).1.symm
  subst this
  exact ⟨_, _, _, _, n, h6, p4, z6, hn, hj, o6⟩

/-- One step with the atomic queue can be done with the real one, from outside the queue to outside the queue. -/
theorem step_simulated {env : ParEnv} {D : Nat} {cfg : Configuration} {res : Results} {c : CState} {s : PState}
    (h : ParQ.Reachable env D cfg res c) (ha : AllOutside c) (hst : Par.Step env c.p s) (ht : ¬ cfg.execution.timeout > 0) :
    ∃ c', ParQ.Reachable env D cfg res c' ∧ AllOutside c' ∧ c'.p = s := by
  have simple : s.queue = c.p.queue →
      (c.p.main = .wait ∨ c.p.main = .joining ∨ c.p.main = .unwinding → s.main = c.p.main ∨ s.main = .ended .terminated) →
      ∃ c', ParQ.Reachable env D cfg res c' ∧ AllOutside c' ∧ c'.p = s :=
    fun hq hw => ⟨_, .tail h (.flow c s hst hq hw), ha, rfl⟩
  have hread : ∀ {c' : CState} {o k : Nat} {n : Node Nat}, (∀ t, t ≠ 0 → c'.q.pc t = .idle) →
      ∀ t, (ParQ.readNode c'.q o k n).pc t = .idle := by
    intro c' o k n ho t
    show Queue.set c'.q.pc 0 .idle t = _
    by_cases h0 : t = 0
    · subst h0; rw [set_same]
    · rw [set_other _ _ h0]; exact ho t h0
  cases hst with
  | construct i x hx hp hm => exact simple rfl (fun _ => Or.inl rfl)
  | constructThrows i x hx hp hb ht hz hm => exact simple rfl (fun _ => Or.inl rfl)
  | constructTerminates i x hx hp hb ht hz hm => exact simple rfl (fun _ => Or.inr rfl)
  | stimulusThrows i x hx hp hk ht hm => exact simple rfl (fun _ => Or.inl rfl)
  | begin i x hx hp hd hm => exact simple rfl (fun _ => Or.inl rfl)
  | skip i x hx hp hd hm => exact simple rfl (fun _ => Or.inl rfl)
  | runReturns i x v hx hp hc hm => exact simple rfl (fun _ => Or.inl rfl)
  | runThrows i x hx hp ht hm => exact simple rfl (fun _ => Or.inl rfl)
  | push i x hx hp hm =>
    obtain ⟨c', h', hp'⟩ := Dozing.push (z := .idle) (i := i) ⟨h, hm, ha 0, by simp, ha _, fun t _ _ => ha t⟩ hx hp
    refine ⟨c', h'.reach, fun t => ?_, hp'⟩
    by_cases h0 : t = 0
    · subst h0; exact h'.zero
    · by_cases hti : t = i + 1
      · subst hti; exact h'.here
      · exact h'.others t h0 hti
  | pop i x q hm hq hx hf =>
    obtain ⟨c', o, k, v, n, h', hp', hz, hn, hd, ho⟩ := main_takes h ha hm hq
    have hst : ParQ.Step env D c' _ := .got c' i o k v n x hz hn hd (ho _ (by omega)) (by rw [hp']; exact hx) hf (by rw [hp']; exact hm)
    refine ⟨_, .tail h' hst, hread ho, ?_⟩
    show c'.p.popped i x c'.p.queue.tail = _
    rw [hp', hq]; rfl
  | popThrows i x q hm hq hx hf =>
    obtain ⟨c', o, k, v, n, h', hp', hz, hn, hd, ho⟩ := main_takes h ha hm hq
    have hst : ParQ.Step env D c' _ :=
      .gotException c' i o k v n x hz hn hd (ho _ (by omega)) (by rw [hp']; exact hx) hf (by rw [hp']; exact hm)
    refine ⟨_, .tail h' hst, hread ho, ?_⟩
    show ({ c'.p.upd i _ with queue := c'.p.queue.tail, main := .unwinding } : PState) = _
    rw [hp', hq]; rfl
  | timeout hm hto =>
    exfalso
    rw [(reachable_base (reachable_cinv h).par).conf, (launch_flags ..).2.2] at hto
    exact ht hto
  | signal i x hm hx => exact simple rfl (by simp [hm])
  | signalledAll i hm hi => exact simple rfl (by simp [hm])
  | join hm hf => exact ⟨_, .tail h (.join c hm hf (fun i _ => ha _)), ha, rfl⟩
  | unwind hm hf => exact ⟨_, .tail h (.unwind c hm hf (fun i _ => ha _)), ha, rfl⟩

/-- **C63**: without a timeout, the states the flow can reach with the real queue are exactly those it can reach with an atomic FIFO
queue. -/
theorem composed_same_states {env : ParEnv} {D : Nat} {cfg : Configuration} {res : Results} {s : PState}
    (ht : ¬ cfg.execution.timeout > 0) :
    Par.Reachable env cfg res s ↔ ∃ c, ParQ.Reachable env D cfg res c ∧ c.p = s := by
  constructor
  · intro h
    have : ∃ c, ParQ.Reachable env D cfg res c ∧ AllOutside c ∧ c.p = s := by
      unfold Par.Reachable at h
      generalize ha : launch env.zxTransformable cfg res = a at h
      induction h with
      | refl => subst ha; exact ⟨_, .refl _, fun _ => rfl, rfl⟩
      | tail _ hst ih =>
        subst ha
        obtain ⟨c, hc, ho, rfl⟩ := ih
        exact step_simulated hc ho hst ht
    obtain ⟨c, h1, _, h2⟩ := this
    exact ⟨c, h1, h2⟩
  · rintro ⟨c, hc, rfl⟩
    exact composed_refines hc

/-- **C63**: a parallel run whose checkers end and whose threads suffice can hang if and only if no timeout is configured. -/
theorem composed_hangs_iff {env : ParEnv} {D : Nat} {cfg : Configuration} {res : Results} (hr : RunsEnd env)
    (hg : zxGivesUp env.zxTransformable cfg = false)
    (ho : (launchKinds env.zxTransformable cfg).length ≤ effectiveThreads env.zxTransformable cfg) :
    (∃ c, ParQ.Reachable env D cfg res c ∧ Stuck env D c ∧ ∀ e, c.p.main ≠ .ended e) ↔ ¬ cfg.execution.timeout > 0 := by
  constructor
  · rintro ⟨c, hc, hs, hm⟩ ht
    obtain ⟨e, he⟩ := composed_timeout_returns hr ht hc hs
    exact hm e he
  · intro ht
    obtain ⟨c, hc, hs, hw, _⟩ := composed_can_hang D res hr ht hg ho
    exact ⟨c, hc, hs, by simp [hw]⟩

/-- **C63**: with a timeout, a run that has to wait gives up once the deadline has passed. -/
theorem composed_can_give_up {env : ParEnv} {D : Nat} {cfg : Configuration} {res : Results} {c : CState}
    (ht : cfg.execution.timeout > 0) (h : ParQ.Reachable env D cfg res c) (ha : AllOutside c) (hm : c.p.main = .wait)
    (hq : c.p.queue = []) :
    ∃ c', ParQ.Reachable env D cfg res c' ∧ AllOutside c' ∧ c'.p = { c.p with done := true, main := .signalling 0, timedOut := true } := by
  have hL := ParQ.later_reachable h (by simp [hm]) D
  generalize hcL : later D c = L at hL
  have pL : L.p = c.p := by rw [← hcL]; rfl
  have aL : AllOutside L := by rw [← hcL]; exact ha
  have nL : D ≤ L.q.now := by rw [← hcL]; simp [later]
  have hd : ParQ.deadlineOf D L.p = some D := by
    unfold ParQ.deadlineOf
    rw [pL, (reachable_base (reachable_cinv h).par).conf, (launch_flags ..).2.2, if_pos ht]
  have mL : L.p.main = .wait := by rw [pL]; exact hm
  have h1 : ParQ.Reachable env D cfg res _ := .tail hL (.startPop L mL (aL 0))
  rw [hd] at h1
  have o1 : ∀ t, t ≠ 0 → (L.q.goto 0 (.popLock (some D))).pc t = .idle := by
    intro t ht
    show Queue.set L.q.pc 0 (.popLock (some D)) t = _
    rw [set_other _ _ ht]; exact aL t
  have z1 : (L.q.goto 0 (.popLock (some D))).pc 0 = .popLock (some D) := by simp [QState.goto, set_same]
  have empty : ∀ {c' : CState}, ParQ.Reachable env D cfg res c' → c'.p = L.p → Queue.flight (c'.q.pc 0) = none → c'.q.isEmpty = true := by
    intro c' hc' hp hfl
    have hci := reachable_cinv hc'
    have hlen := (single_positions (c := 0) (fun t ht => ht) hci.queue).2.2 hfl
    have hcon := (Queue.reachable_contents hci.queue).1
    rw [hlen, ← hci.ghost, hp, pL, hq] at hcon
    simp only [QState.isEmpty, decide_eq_true_eq]
    exact (Queue.contents_nil_iff hcon).mp rfl
  obtain ⟨h2, z2, o2⟩ := main_inner h1 mL z1 o1 (Queue.Step.popLock _ 0 _ z1 ((free_mutexes h1 o1).2 (by rw [z1]; exact fun h => h)))
    rfl rfl rfl (by simp) (by simp)
  obtain ⟨h3, z3, o3⟩ := main_inner h2 mL z2 o2
    (Queue.Step.checkEmpty _ 0 _ z2 (free_mutexes h2 o2).1 (empty h2 rfl (by rw [z2]; rfl))) rfl rfl rfl (by simp) (by simp)
  obtain ⟨h4, z4, o4⟩ := main_inner h3 mL z3 o3 (Queue.Step.sleep _ 0 _ z3) rfl rfl rfl (by simp) (by simp)
  obtain ⟨h5, z5, o5⟩ := main_inner h4 mL z4 o4 (Queue.Step.deadline _ 0 D _ z4 nL) rfl rfl rfl (by simp) (by simp)
  obtain ⟨h6, z6, o6⟩ := main_inner h5 mL z5 o5 (Queue.Step.popLate _ 0 D z5 ((free_mutexes h5 o5).2 (by rw [z5]; exact fun h => h)))
    rfl rfl rfl (by simp) (by simp)
  obtain ⟨h7, z7, o7⟩ := main_inner h6 mL z6 o6
    (Queue.Step.finalEmpty _ 0 _ _ z6 (free_mutexes h6 o6).1 (empty h6 rfl (by rw [z6]; rfl))) rfl rfl rfl (by simp) (by simp)
  refine ⟨_, .tail h7 (.expired _ _ z7 mL), fun t => ?_, by rw [← pL]⟩
  by_cases h0 : t = 0
  · subst h0; simp [QState.goto, set_same]
  · have := o7 t h0
    simp only [QState.goto, set_other _ _ h0] at this ⊢
    exact this

/-! ## Concrete runs -/

/-- Four simulations on two threads with the real queue: all pass and the run returns. -/
example (D : Nat) : ∃ c, ParQ.Reachable (listEnv (answering .equivalent .equivalent .equivalent) fun _ => false) D
    (parCfg true false false false 4 2 0) {} c ∧ c.p.main = .ended .returned ∧ c.p.results.equivalence = .probablyEquivalent ∧
    c.p.results.performedSimulations = 4 := by
  obtain ⟨s, hs, hv⟩ := exists_of_view (answers := answering .equivalent .equivalent .equivalent)
    (throws := fun _ => false) (cfg := parCfg true false false false 4 2 0)
    (full 0 .probablyEquivalent ++ full 1 .probablyEquivalent ++ full 1 .probablyEquivalent ++ full 0 .probablyEquivalent ++
      [.signal, .signal, .signal, .join])
    (v := (.ended .returned, .probablyEquivalent, [⟨.simulation, .probablyEquivalent⟩, ⟨.simulation, .probablyEquivalent⟩,
      ⟨.simulation, .probablyEquivalent⟩, ⟨.simulation, .probablyEquivalent⟩], [.idle, .idle], 4))
    (by decide +kernel)
  simp only [view, Prod.mk.injEq] at hv
  obtain ⟨c, hc, rfl⟩ := (composed_same_states (D := D) (by decide)).mp hs
  exact ⟨c, hc, hv.1, hv.2.1, hv.2.2.2.2⟩

/-- A run with all checkers and the default number of simulations, without a timeout: all checkers answer "equivalent", and yet the
run can hang. -/
example (D : Nat) : ∃ c, ParQ.Reachable (listEnv (answering .equivalent .equivalent .equivalent) fun _ => false) D
    (parCfg true true true true 16 8 0) {} c ∧
    Stuck (listEnv (answering .equivalent .equivalent .equivalent) fun _ => false) D c ∧ c.p.main = .wait ∧ c.p.slots.length = 8 := by
  obtain ⟨c, h1, h2, h3, _, _, h6⟩ := composed_can_hang (env := listEnv (answering .equivalent .equivalent .equivalent) fun _ => false) D
    (cfg := parCfg true true true true 16 8 0) {} answering_ends (by decide) (by decide) (by decide)
  exact ⟨c, h1, h2, h3, h6⟩

/-- With a timeout and nothing finished in time the run stops. -/
example (D : Nat) : ∃ c, ParQ.Reachable (listEnv (answering .equivalent .equivalent .equivalent) fun _ => false) D
    (parCfg true true true true 16 8 1) {} c ∧ c.p.timedOut = true := by
  obtain ⟨c, h1, _, h2⟩ := composed_can_give_up (D := D) (env := listEnv (answering .equivalent .equivalent .equivalent) fun _ => false)
    (cfg := parCfg true true true true 16 8 1) (res := {}) (by decide) (.refl _) (fun _ => rfl) (by decide) rfl
  exact ⟨c, h1, by rw [h2]⟩

end QCEC.Props
