import Verif.Lemmas.ParallelQueueStuck
/-!
# A parallel run with its queue makes finitely many steps
-/
namespace QCEC.ParQ
open QCEC QCEC.Mgr QCEC.Par QCEC.Props
open QCEC.Queue (Pc Node QState flight set_same set_other)

/-- How far a call of the queue is from its end; `w` is the weight of a thread outside the queue. -/
def pcW (w : Nat) : Pc Nat → Nat
  | .idle => w
  | .pushLock _ _ => 9
  | .pushData _ _ => 8
  | .pushNext _ _ => 7
  | .pushTail _ _ => 6
  | .pushUnlock => 5
  | .pushNotify => 4
  | .popLock _ => 19
  | .popCheck _ => 18
  | .popSleep _ => 17
  | .asleep _ _ => 16
  | .popLate _ => 15
  | .popFinal _ _ => 14
  | .popTake => 13
  | .popUnlock _ _ _ => 12
  | .popRead _ _ _ => 11
  | .popNull _ => 10

/-- Weight of a worker outside the queue: it matters whether its push is still to come. -/
def restW (p : PState) (i : Nat) : Nat := if (p.slots[i]?.map Slot.pc) = some WPc.pushing then 10 else 0

/-- Sum over the workers' threads. -/
def workersW (p : PState) (q : QState Nat) : Nat → Nat
  | 0 => 0
  | n + 1 => workersW p q n + pcW (restW p n) (q.pc (n + 1))

/-- Weight of everything that happens inside the queue. -/
def queueW (c : CState) : Nat := pcW 20 (c.q.pc 0) + workersW c.p c.q c.p.slots.length

theorem workersW_congr {p : PState} {q q' : QState Nat} {n : Nat} (h : ∀ i, i < n → q'.pc (i + 1) = q.pc (i + 1)) :
    workersW p q' n = workersW p q n := by
  induction n with
  | zero => rfl
  | succ n ih =>
    show workersW p q' n + _ = workersW p q n + _
    rw [ih fun i hi => h i (by omega), h n (by omega)]

theorem workersW_one {p : PState} {q q' : QState Nat} {n i : Nat} {x : Pc Nat} (hi : i < n) (h : q'.pc (i + 1) = x)
    (ho : ∀ j, j ≠ i → q'.pc (j + 1) = q.pc (j + 1)) :
    workersW p q' n + pcW (restW p i) (q.pc (i + 1)) = workersW p q n + pcW (restW p i) x := by
  induction n with
  | zero => omega
  | succ n ih =>
    show workersW p q' n + _ + _ = workersW p q n + _ + _
    by_cases hin : i = n
    · subst hin
      rw [workersW_congr (q := q) fun j hj => ho j (by omega), h]
      omega
    · have := ih (by omega)
      rw [ho n (by omega)]
      omega

/-- A step of the main thread inside the queue. -/
theorem queueW_main {c : CState} {q' : QState Nat} {x : Pc Nat} (h : q'.pc = Queue.set c.q.pc 0 x) (hl : pcW 20 x < pcW 20 (c.q.pc 0)) :
    queueW { c with q := q' } < queueW c := by
  show pcW 20 (q'.pc 0) + workersW c.p q' c.p.slots.length < pcW 20 (c.q.pc 0) + workersW c.p c.q c.p.slots.length
  rw [workersW_congr (q := c.q) (fun i _ => by rw [h, set_other _ _ (by omega)])]
  rw [h, set_same]; omega

/-- A step of a worker inside the queue. -/
theorem queueW_worker {c : CState} {q' : QState Nat} {i : Nat} {x : Pc Nat} (hi : i < c.p.slots.length)
    (h : q'.pc = Queue.set c.q.pc (i + 1) x) (hl : pcW (restW c.p i) x < pcW (restW c.p i) (c.q.pc (i + 1))) :
    queueW { c with q := q' } < queueW c := by
  have := workersW_one (p := c.p) (q := c.q) (q' := q') (x := x) hi (by rw [h, set_same])
    (fun j hj => by rw [h, set_other _ _ (by omega)])
  show pcW 20 (q'.pc 0) + workersW c.p q' c.p.slots.length < pcW 20 (c.q.pc 0) + workersW c.p c.q c.p.slots.length
  rw [h, set_other _ _ (by omega)]
  omega

theorem Role.worker_lt {D : Nat} {p : PState} {t : Nat} {pc : Pc Nat} (h : Role D p t pc) (h0 : t ≠ 0) (hi : pc ≠ .idle) :
    ∃ i x, t = i + 1 ∧ i < p.slots.length ∧ p.slots[i]? = some x ∧ (x.pc = .pushing ∨ x.pc = .queued) := by
  have lt : ∀ {i : Nat} {x : Slot}, p.slots[i]? = some x → i < p.slots.length := fun hx => (List.getElem?_eq_some_iff.mp hx).1
  cases pc <;> simp only [Role] at h <;> first
    | exact absurd rfl hi
    | (obtain ⟨i, x, ht, _, hx, hp⟩ := h; exact ⟨i, x, ht, lt hx, hx, Or.inl hp⟩)
    | (obtain ⟨i, x, ht, hx, hp⟩ := h; exact ⟨i, x, ht, lt hx, hx, Or.inr hp⟩)
    | exact absurd h.1 h0

/-- Steps inside the queue reduce the weight, except for time passing and spurious wake-ups. -/
theorem inner_decreases {env : ParEnv} {D : Nat} {cfg : Configuration} {res : Results} {c : CState} {q' : QState Nat}
    (hc : CInv env D cfg res c) (h : Queue.Step consumer c.q q') (hp : q'.pushed = c.q.pushed) (hr : q'.returned = c.q.returned)
    (hi : ∀ t, c.q.pc t = .idle → q'.pc t = .idle) (hn : ∀ t d, c.q.pc t = .popNull d → q'.pc t = .popNull d)
    (hidle : ¬ IdleStep c { c with q := q' }) : queueW { c with q := q' } < queueW c := by
  have wk : ∀ {t : Nat} {x : Pc Nat}, c.q.pc t ≠ .idle → (∀ w, pcW w x < pcW w (c.q.pc t)) → q'.pc = Queue.set c.q.pc t x →
      queueW { c with q := q' } < queueW c := by
    intro t x h1 h2 h3
    by_cases h0 : t = 0
    · subst h0; exact queueW_main h3 (h2 _)
    · obtain ⟨i, y, rfl, hlt, _⟩ := (hc.role t).worker_lt h0 h1
      exact queueW_worker hlt h3 (h2 _)
  cases h with
  | tick => exact absurd ⟨rfl, Or.inl rfl⟩ hidle
  | push t v n hpc hn =>
    have := hi t hpc
    change Queue.set c.q.pc t _ t = _ at this
    rw [set_same] at this; simp at this
  | pop t dl hpc hcs =>
    have := hi t hpc
    change Queue.set c.q.pc t _ t = _ at this
    rw [set_same] at this; simp at this
  | pushTail t v n hpc =>
    have := congrArg List.length hp
    simp at this
  | popRead t o k v x hpc hx =>
    have := congrArg List.length hr
    simp at this
  | popNull t d hpc =>
    have := hn t d hpc
    change Queue.set c.q.pc t _ t = _ at this
    rw [set_same] at this; simp at this
  | notifyOne t t' dl e hpc hs =>
    have h0 : t ≠ 0 := by
      rintro rfl
      have := hc.role 0; rw [hpc] at this; obtain ⟨i, x, h, _⟩ := this; simp at h
    have h0' : t' = 0 := by have := hc.role t'; rw [hs] at this; exact this.1
    subst h0'
    obtain ⟨i, y, rfl, hlt, hy, hq⟩ := (hc.role t).worker_lt h0 (by simp [hpc])
    have hy' : y.pc = .queued := by
      have := hc.role (i + 1); rw [hpc] at this
      obtain ⟨j, z, hj, hz, hzp⟩ := this
      have : j = i := by omega
      subst this; rw [hy] at hz; cases hz; exact hzp
    have hrest : restW c.p i = 0 := by unfold restW; rw [hy]; simp [hy']
    have := workersW_one (p := c.p) (q := c.q) (q' := (c.q.goto (i + 1) .idle).goto 0 (.popLock dl)) (x := .idle) hlt
      (by simp [QState.goto, Queue.set]) (fun j hj => by
        show Queue.set (Queue.set c.q.pc (i + 1) .idle) 0 (.popLock dl) (j + 1) = _
        rw [set_other _ _ (by omega), set_other _ _ (by omega)])
    show pcW 20 (Queue.set (Queue.set c.q.pc (i + 1) .idle) 0 (.popLock dl) 0) + workersW c.p _ c.p.slots.length <
      pcW 20 (c.q.pc 0) + workersW c.p c.q c.p.slots.length
    rw [set_same, hs]
    rw [hpc, hrest] at this
    simp only [pcW] at this ⊢
    omega
  | pushLock t v n hpc hf => exact wk (t := t) (by simp [hpc]) (by intro w; rw [hpc]; simp [pcW]) rfl
  | pushData t v n x hpc hx => exact wk (t := t) (by simp [hpc]) (by intro w; rw [hpc]; simp [pcW]) rfl
  | pushNext t v n x hpc hx => exact wk (t := t) (by simp [hpc]) (by intro w; rw [hpc]; simp [pcW]) rfl
  | pushUnlock t hpc => exact wk (t := t) (by simp [hpc]) (by intro w; rw [hpc]; simp [pcW]) rfl
  | notifyNone t hpc hs =>
    have h0 : t ≠ 0 := by
      rintro rfl
      have := hc.role 0; rw [hpc] at this; obtain ⟨i, x, h, _⟩ := this; simp at h
    have hrt := hc.role t
    rw [hpc] at hrt
    obtain ⟨i, y, rfl, hy, hyp⟩ := hrt
    refine queueW_worker (i := i) (List.getElem?_eq_some_iff.mp hy).1 rfl ?_
    have hrest : restW c.p i = 0 := by unfold restW; rw [hy]; simp [hyp]
    rw [hpc, hrest]; simp [pcW]
  | popLock t dl hpc hf => exact wk (t := t) (by simp [hpc]) (by intro w; rw [hpc]; simp [pcW]) rfl
  | checkEmpty t dl hpc hf he => exact wk (t := t) (by simp [hpc]) (by intro w; rw [hpc]; simp [pcW]) rfl
  | checkFull t dl hpc hf he =>
    exact wk (t := t) (by simp [hpc]) (by intro w; rw [hpc]; split <;> simp [pcW]) rfl
  | sleep t dl hpc => exact wk (t := t) (by simp [hpc]) (by intro w; rw [hpc]; simp [pcW]) rfl
  | spurious t dl e hpc =>
    have h0 : t = 0 := by have := hc.role t; rw [hpc] at this; exact this.1
    subst h0
    exact absurd ⟨rfl, Or.inr ⟨dl, e, hpc, rfl⟩⟩ hidle
  | deadline t d e hpc hd => exact wk (t := t) (by simp [hpc]) (by intro w; rw [hpc]; simp [pcW]) rfl
  | popLate t d hpc hf => exact wk (t := t) (by simp [hpc]) (by intro w; rw [hpc]; simp [pcW]) rfl
  | finalEmpty t d l hpc hf he => exact wk (t := t) (by simp [hpc]) (by intro w; rw [hpc]; simp [pcW]) rfl
  | finalFull t d l hpc hf he => exact wk (t := t) (by simp [hpc]) (by intro w; rw [hpc]; simp [pcW]) rfl
  | popTake t x m hpc hx hm => exact wk (t := t) (by simp [hpc]) (by intro w; rw [hpc]; simp [pcW]) rfl
  | popUnlock t o k v hpc => exact wk (t := t) (by simp [hpc]) (by intro w; rw [hpc]; simp [pcW]) rfl

/-- Every step other than an idle one makes progress: in the flow, or in the queue. -/
theorem step_progress {env : ParEnv} {D : Nat} {cfg : Configuration} {res : Results} {c c' : CState} (hc : CInv env D cfg res c)
    (h : Step env D c c') (hidle : ¬ IdleStep c c') :
    measureOf c'.p < measureOf c.p ∨ (c'.p = c.p ∧ queueW c' < queueW c) := by
  have hb := reachable_base hc.par
  cases h with
  | flow p' hs hq hw => exact Or.inl (step_decreases hb hs)
  | inner q' hs hp hr hi hn hm => exact Or.inr ⟨rfl, inner_decreases hc hs hp hr hi hn hidle⟩
  | startPush i n x hx hp ht hn hm =>
    refine Or.inr ⟨rfl, queueW_worker (i := i) (x := .pushLock i n) (List.getElem?_eq_some_iff.mp hx).1 rfl ?_⟩
    have hrest : restW c.p i = 10 := by unfold restW; rw [hx]; simp [hp]
    rw [ht, hrest]; simp [pcW]
  | link i n ht hm =>
    have hrole := hc.role (i + 1)
    rw [ht] at hrole
    obtain ⟨i', x, hii, _, hx, hp⟩ := hrole
    have : i' = i := by omega
    subst this
    exact Or.inl (step_decreases hb (.push c.p i' x hx hp hm))
  | startPop hm ht =>
    refine Or.inr ⟨rfl, queueW_main (x := .popLock (deadlineOf D c.p)) rfl ?_⟩
    rw [ht]; simp [pcW]
  | got i o k v n x ht hn hd hw hx hf hm =>
    obtain ⟨w, hw', hq⟩ := hc.head ht hn
    rw [hd] at hw'; cases hw'
    exact Or.inl (step_decreases hb (.pop c.p i x _ hm (by rw [hq]; rfl) hx hf))
  | gotException i o k v n x ht hn hd hw hx hf hm =>
    obtain ⟨w, hw', hq⟩ := hc.head ht hn
    rw [hd] at hw'; cases hw'
    exact Or.inl (step_decreases hb (.popThrows c.p i x _ hm (by rw [hq]; rfl) hx hf))
  | expired d ht hm =>
    have hrole := hc.role 0
    rw [ht] at hrole
    have hto : c.p.cfg.execution.timeout > 0 := by
      obtain ⟨_, _, hd, hne⟩ := hrole
      by_contra hn
      apply hne
      rw [hd]; unfold deadlineOf; rw [if_neg hn]
    exact Or.inl (step_decreases hb (.timeout c.p hm hto))
  | join hm hf ht => exact Or.inl (step_decreases hb (.join c.p hm hf))
  | unwind hm hf ht => exact Or.inl (step_decreases hb (.unwind c.p hm hf))

theorem no_infinite_progress {env : ParEnv} {D : Nat} {cfg : Configuration} {res : Results} (f : Nat → CState)
    (h0 : Reachable env D cfg res (f 0)) : ¬ ∀ n, Step env D (f n) (f (n + 1)) ∧ ¬ IdleStep (f n) (f (n + 1)) := by
  intro h
  have hreach : ∀ n, Reachable env D cfg res (f n) := by
    intro n
    induction n with
    | zero => exact h0
    | succ n ih => exact Steps.tail ih (h n).1
  have : ∀ a b n, measureOf (f n).p ≤ a → queueW (f n) ≤ b → False := by
    intro a
    induction a using Nat.strongRecOn with
    | ind a iha =>
      intro b
      induction b with
      | zero =>
        intro n h1 h2
        rcases step_progress (reachable_cinv (hreach n)) (h n).1 (h n).2 with h3 | ⟨_, h3⟩
        · exact iha (measureOf (f (n + 1)).p) (by omega) (queueW (f (n + 1))) (n + 1) (Nat.le_refl _) (Nat.le_refl _)
        · omega
      | succ b ihb =>
        intro n h1 h2
        rcases step_progress (reachable_cinv (hreach n)) (h n).1 (h n).2 with h3 | ⟨h4, h3⟩
        · exact iha (measureOf (f (n + 1)).p) (by omega) (queueW (f (n + 1))) (n + 1) (Nat.le_refl _) (Nat.le_refl _)
        · exact ihb (n + 1) (by rw [h4]; exact h1) (by omega)
  exact this _ _ 0 (Nat.le_refl _) (Nat.le_refl _)

end QCEC.ParQ
