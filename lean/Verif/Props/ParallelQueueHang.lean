import Verif.Props.ParallelQueue
/-!
# Every parallel run without a timeout can hang (C63)
-/
namespace QCEC.Props
open QCEC QCEC.Mgr QCEC.Par
open QCEC.Queue (Pc Node QState set_same set_other holdsTail)
open QCEC.ParQ (CState IdleStep Stuck later reachable_cinv)

theorem composed_trans {env : ParEnv} {D : Nat} {a b c : CState} (h : ParQ.Steps env D a b) (h' : ParQ.Steps env D b c) :
    ParQ.Steps env D a c := by
  induction h' with
  | refl => exact h
  | tail _ hst ih => exact .tail ih hst

/-- Worker `i` is at `x` in the queue, the main thread at `z` (but not asleep), the others are outside of it. -/
structure Dozing (env : ParEnv) (D : Nat) (cfg : Configuration) (res : Results) (z : Pc Nat) (i : Nat) (x : Pc Nat) (c : CState) :
    Prop where
  reach : ParQ.Reachable env D cfg res c
  alive : ∀ e, c.p.main ≠ .ended e
  zero : c.q.pc 0 = z
  awake : ∀ dl e, z ≠ .asleep dl e
  here : c.q.pc (i + 1) = x
  others : ∀ t, t ≠ 0 → t ≠ i + 1 → c.q.pc t = .idle

/-- A step of worker `i` inside the queue. -/
theorem Dozing.inner {env : ParEnv} {D : Nat} {cfg : Configuration} {res : Results} {z : Pc Nat} {i : Nat} {x y : Pc Nat} {c : CState}
    (h : Dozing env D cfg res z i x c) {q' : QState Nat} (hst : Queue.Step ParQ.consumer c.q q') (hpc : q'.pc = Queue.set c.q.pc (i + 1) y)
    (hp : q'.pushed = c.q.pushed) (hr : q'.returned = c.q.returned) (hi : x ≠ .idle) (hn : ∀ d, x ≠ .popNull d) :
    Dozing env D cfg res z i y { c with q := q' } := by
  refine ⟨.tail h.reach (ParQ.inner_one hst hpc hp hr (by rw [h.here]; exact hi) (by rw [h.here]; exact hn) h.alive), h.alive, ?_, h.awake, ?_, ?_⟩
  · show q'.pc 0 = _
    rw [hpc, set_other _ _ (by omega)]; exact h.zero
  · show q'.pc (i + 1) = _
    rw [hpc, set_same]
  · intro t h0 ht
    show q'.pc t = _
    rw [hpc, set_other _ _ ht]; exact h.others t h0 ht

theorem Dozing.tailFree {env : ParEnv} {D : Nat} {cfg : Configuration} {res : Results} {z : Pc Nat} {i : Nat} {x : Pc Nat} {c : CState}
    (h : Dozing env D cfg res z i x c) (hx : ¬ holdsTail x) : c.q.tailMutex = none := by
  obtain ⟨hl, _⟩ := Queue.reachable_inv (reachable_cinv h.reach).queue
  cases hm : c.q.tailMutex with
  | none => rfl
  | some u =>
    have := (hl.tail u).mpr hm
    by_cases h0 : u = 0
    · subst h0
      have hr := (reachable_cinv h.reach).role 0
      cases hpc : c.q.pc 0 <;> rw [hpc] at this hr <;> first
        | exact absurd this (fun h => h)
        | (obtain ⟨i, x, h, _⟩ := hr; simp at h)
    · by_cases hi : u = i + 1
      · subst hi; rw [h.here] at this; exact absurd this hx
      · rw [h.others u h0 hi] at this; exact absurd this (fun h => h)

/-- Worker `i`, which is about to push its id, does so without waking up anybody. -/
theorem Dozing.push {env : ParEnv} {D : Nat} {cfg : Configuration} {res : Results} {z : Pc Nat} {i : Nat} {c : CState} {s : Slot}
    (h : Dozing env D cfg res z i .idle c) (hs : c.p.slots[i]? = some s) (hp : s.pc = .pushing) :
    ∃ c', Dozing env D cfg res z i .idle c' ∧ c'.p = { c.p.upd i (fun y => { y with pc := .queued }) with queue := c.p.queue ++ [i] } := by
  obtain ⟨B, hB⟩ := ParQ.heap_bound (reachable_cinv h.reach).queue
  have h1 : Dozing env D cfg res z i (.pushLock i B) { c with q := ParQ.startPush c.q i B } := by
    refine ⟨.tail h.reach (.startPush c i B s hs hp h.here (hB B (Nat.le_refl _)) h.alive), h.alive, ?_, h.awake, ?_, ?_⟩
    · show Queue.set c.q.pc (i + 1) (.pushLock i B) 0 = _
      rw [set_other _ _ (by omega)]; exact h.zero
    · show Queue.set c.q.pc (i + 1) _ (i + 1) = _
      rw [set_same]
    · intro t h0 ht
      show Queue.set c.q.pc (i + 1) (.pushLock i B) t = _
      rw [set_other _ _ ht]; exact h.others t h0 ht
  have h2 := h1.inner (Queue.Step.pushLock _ (i + 1) i B h1.here (h1.tailFree (fun h => h))) rfl rfl rfl (by simp) (by simp)
  obtain ⟨_, _, l2, i2⟩ := Queue.reachable_inv (reachable_cinv h2.reach).queue
  have h3 := h2.inner (Queue.Step.pushData _ (i + 1) i B _ h2.here i2.last) rfl rfl rfl (by simp) (by simp)
  obtain ⟨_, _, l3, i3⟩ := Queue.reachable_inv (reachable_cinv h3.reach).queue
  have h4 := h3.inner (Queue.Step.pushNext _ (i + 1) i B _ h3.here i3.last) rfl rfl rfl (by simp) (by simp)
  revert h4
  generalize hc4 : (CState.mk _ _) = c4
  intro h4
  have hp4 : c4.p = c.p := by rw [← hc4]
  clear hc4
  have h5 : Dozing env D cfg res z i .pushUnlock
      { p := { c4.p.upd i (fun y => { y with pc := .queued }) with queue := c4.p.queue ++ [i] }, q := ParQ.movedTail c4.q i B } := by
    refine ⟨.tail h4.reach (.link c4 i B h4.here h4.alive), h4.alive, ?_, h4.awake, ?_, ?_⟩
    · show Queue.set c4.q.pc (i + 1) .pushUnlock 0 = _
      rw [set_other _ _ (by omega)]; exact h4.zero
    · show Queue.set c4.q.pc (i + 1) _ (i + 1) = _
      rw [set_same]
    · intro t h0 ht
      show Queue.set c4.q.pc (i + 1) .pushUnlock t = _
      rw [set_other _ _ ht]; exact h4.others t h0 ht
  have h6 := h5.inner (Queue.Step.pushUnlock _ (i + 1) h5.here) rfl rfl rfl (by simp) (by simp)
  have h7 := h6.inner (Queue.Step.notifyNone _ (i + 1) h6.here (fun t dl e hh => by
    by_cases h0 : t = 0
    · subst h0; rw [h6.zero] at hh; exact h6.awake dl e hh
    · by_cases ht : t = i + 1
      · subst ht; rw [h6.here] at hh; simp at hh
      · rw [h6.others t h0 ht] at hh; simp at hh)) rfl rfl rfl (by simp) (by simp)
  exact ⟨_, h7, by rw [← hp4]⟩

/-- A step of worker `i` outside the queue. -/
theorem Dozing.flow {env : ParEnv} {D : Nat} {cfg : Configuration} {res : Results} {z : Pc Nat} {i : Nat} {c : CState} {f : Slot → Slot}
    (h : Dozing env D cfg res z i .idle c) (hst : Par.Step env c.p (c.p.upd i f)) :
    Dozing env D cfg res z i .idle { c with p := c.p.upd i f } :=
  ⟨.tail h.reach (.flow c _ hst rfl (fun _ => Or.inl rfl)), h.alive, h.zero, h.awake, h.here, h.others⟩

/-- Worker `i` performs its check and pushes its id without waking up anybody. -/
theorem Dozing.work {env : ParEnv} {D : Nat} {cfg : Configuration} {res : Results} {z : Pc Nat} {i : Nat} {c : CState} {s : Slot} (hr : RunsEnd env)
    (h : Dozing env D cfg res z i .idle c) (hs : c.p.slots[i]? = some s) (hp : s.pc = .start) (hd : c.p.done = false) :
    ∃ c', Dozing env D cfg res z i .idle c' ∧ c'.p.main = c.p.main ∧ c'.p.done = false ∧ c'.p.results = c.p.results ∧ c'.p.slots.length = c.p.slots.length ∧
      (∃ s', c'.p.slots[i]? = some s' ∧ s'.pc = .queued) ∧ ∀ j, j ≠ i → c'.p.slots[j]? = c.p.slots[j]? := by
  have at_ : ∀ {p : PState} {s : Slot} (f : Slot → Slot), p.slots[i]? = some s → (p.upd i f).slots[i]? = some (f s) := by
    intro p s f hs
    refine (getElem?_modify_iff ..).mpr ⟨s, hs, ?_⟩
    rw [if_pos rfl]
  have off : ∀ {p : PState} (f : Slot → Slot) (j : Nat), j ≠ i → (p.upd i f).slots[j]? = p.slots[j]? := by
    intro p f j hj
    show (p.slots.modify i f)[j]? = _
    simp [List.getElem?_modify, Ne.symm hj]
  obtain ⟨v, hv⟩ := hr s.kind
  have h1 := h.flow (Par.Step.construct c.p i s hs hp h.alive)
  have s1 := at_ (fun y => { y with pc := .built, built := true }) hs
  have h2 := h1.flow (Par.Step.begin _ i _ s1 rfl hd h1.alive)
  have s2 := at_ (fun y => { y with pc := .running }) s1
  have h3 := h2.flow (Par.Step.runReturns _ i _ v s2 rfl hv h2.alive)
  have s3 := at_ (fun y => { y with pc := .pushing, eq := v }) s2
  obtain ⟨c', h4, hp4⟩ := h3.push s3 rfl
  refine ⟨c', h4, by rw [hp4]; rfl, by rw [hp4]; exact hd, by rw [hp4]; rfl, by rw [hp4]; simp [PState.upd], ?_, ?_⟩
  · exact ⟨_, by rw [hp4]; exact at_ (fun y => { y with pc := .queued }) s3, rfl⟩
  · intro j hj
    rw [hp4]
    show (PState.upd _ i _).slots[j]? = _
    rw [off _ j hj, off _ j hj, off _ j hj, off _ j hj]

/-- All workers perform their checks while the main thread is about to fall asleep. -/
theorem all_work {env : ParEnv} {D : Nat} {cfg : Configuration} {res : Results} {c : CState} (hr : RunsEnd env)
    (hreach : ParQ.Reachable env D cfg res c) (hw : c.p.main = .wait) (h0 : c.q.pc 0 = .popSleep none)
    (hi : ∀ t, t ≠ 0 → c.q.pc t = .idle) (hd : c.p.done = false) (hs : ∀ x ∈ c.p.slots, x.pc = .start) :
    ∀ n, n ≤ c.p.slots.length → ∃ c', ParQ.Reachable env D cfg res c' ∧ c'.p.main = .wait ∧ c'.q.pc 0 = .popSleep none ∧
      (∀ t, t ≠ 0 → c'.q.pc t = .idle) ∧ c'.p.done = false ∧ c'.p.results = c.p.results ∧ c'.p.slots.length = c.p.slots.length ∧
      (∀ j x, j < n → c'.p.slots[j]? = some x → x.pc = .queued) ∧ (∀ j x, n ≤ j → c'.p.slots[j]? = some x → x.pc = .start) := by
  intro n
  induction n with
  | zero =>
    intro _
    exact ⟨c, hreach, hw, h0, hi, hd, rfl, rfl, fun j x hj => absurd hj (by omega), fun j x _ hx => hs x (List.mem_of_getElem? hx)⟩
  | succ n ih =>
    intro hn
    obtain ⟨c1, r1, w1, z1, i1, d1, e1, l1, q1, s1⟩ := ih (by omega)
    obtain ⟨x, hx⟩ : ∃ x, c1.p.slots[n]? = some x := ⟨_, List.getElem?_eq_getElem (by omega)⟩
    obtain ⟨c2, h2, m2, d2, e2, l2, ⟨s', hs', hq'⟩, o2⟩ :=
      Dozing.work (i := n) hr ⟨r1, by simp [w1], z1, by simp, i1 _ (by omega), fun t ht _ => i1 t ht⟩ hx (s1 n x (Nat.le_refl _) hx) d1
    refine ⟨c2, h2.reach, m2.trans w1, h2.zero, fun t ht => ?_, d2, e2.trans e1, l2.trans l1, fun j y hj hy => ?_, fun j y hj hy => ?_⟩
    · by_cases htn : t = n + 1
      · subst htn; exact h2.here
      · exact h2.others t ht htn
    · by_cases hjn : j = n
      · subst hjn; rw [hs'] at hy; cases hy; exact hq'
      · rw [o2 j hjn] at hy; exact q1 j y (by omega) hy
    · rw [o2 j (by omega)] at hy; exact s1 j y (by omega) hy

/-- **C63**: *every* parallel run without a timeout whose checkers end can hang: whatever the configuration and whatever the checkers
answer, there is a schedule in which all checks are completed and reported, yet the main thread sleeps and nothing but a spurious
wake-up can change that.  (The exception: no checker is launched because only the ZX checker is enabled and does not support the
circuits; and fewer threads than definitive checkers, C14.) -/
theorem composed_can_hang {env : ParEnv} (D : Nat) {cfg : Configuration} (res : Results) (hr : RunsEnd env)
    (ht : ¬ cfg.execution.timeout > 0) (hg : zxGivesUp env.zxTransformable cfg = false)
    (ho : (launchKinds env.zxTransformable cfg).length ≤ effectiveThreads env.zxTransformable cfg) :
    ∃ c, ParQ.Reachable env D cfg res c ∧ Stuck env D c ∧ c.p.main = .wait ∧ c.p.results.equivalence = .noInformation ∧
      (∀ x ∈ c.p.slots, x.pc = .queued) ∧ c.p.slots.length = (launchKinds env.zxTransformable cfg).length := by
  have hd0 : ParQ.deadlineOf D (launch env.zxTransformable cfg res) = none := by
    unfold ParQ.deadlineOf
    rw [if_neg]
    show ¬ (launchCfg env.zxTransformable cfg).execution.timeout > 0
    rw [(launch_flags ..).2.2]; exact ht
  have hm0 : (launch env.zxTransformable cfg res).main = .wait := by
    show (if _ then _ else _) = _
    rw [if_neg (by omega), hg]; rfl
  have al : ∀ e, (launch env.zxTransformable cfg res).main ≠ .ended e := by intro e; rw [hm0]; simp
  have r0 : ParQ.Reachable env D cfg res { p := launch env.zxTransformable cfg res, q := Queue.init } := .refl _
  have r1 : ParQ.Reachable env D cfg res _ := .tail r0 (.startPop _ hm0 rfl)
  rw [hd0] at r1
  have r2 : ParQ.Reachable env D cfg res _ :=
    .tail r1 (ParQ.inner_one (Queue.Step.popLock _ 0 none rfl rfl) (u := 0) rfl rfl rfl (by simp [QState.goto, set_same])
      (by simp [QState.goto, set_same]) al)
  have r3 : ParQ.Reachable env D cfg res _ :=
    .tail r2 (ParQ.inner_one (Queue.Step.checkEmpty _ 0 none rfl rfl rfl) (u := 0) rfl rfl rfl (by simp [QState.goto, set_same])
      (by simp [QState.goto, set_same]) al)
  obtain ⟨c, hc, hw, hz, hi, hdn, hres, hlen, hq, _⟩ := all_work hr r3 hm0 (by simp [QState.goto, set_same])
    (fun t h => by simp [QState.goto, set_other _ _ h, Queue.init]) (show zxGivesUp _ _ = false from hg)
    (fun x hx => by
      have hx : x ∈ (launch env.zxTransformable cfg res).slots := hx
      simp only [launch, List.mem_map] at hx
      obtain ⟨k, _, rfl⟩ := hx; rfl) _ (Nat.le_refl _)
  have hlen' : c.p.slots.length = (launchKinds env.zxTransformable cfg).length := by rw [hlen]; simp [launch]
  have hall : ∀ x ∈ c.p.slots, x.pc = .queued := by
    intro x hx
    obtain ⟨j, hj⟩ := List.mem_iff_getElem?.mp hx
    exact hq j x (by have := (List.getElem?_eq_some_iff.mp hj).1; rw [hlen] at this; exact this) hj
  have alc : ∀ e, c.p.main ≠ .ended e := by intro e; rw [hw]; simp
  refine ⟨{ c with q := { c.q.goto 0 (.asleep none c.q.isEmpty) with headMutex := none } },
    .tail hc (ParQ.inner_one (Queue.Step.sleep c.q 0 none hz) (u := 0) rfl rfl rfl (by simp [hz]) (by simp [hz]) alc), ?_, hw,
    by rw [show c.p.results = _ from hres]; rfl, hall, hlen'⟩
  -- nothing can happen any more
  intro k c' hst
  have hcfg : ¬ c.p.cfg.execution.timeout > 0 := by
    rw [(reachable_base (reachable_cinv hc).par).conf, (launch_flags ..).2.2]; exact ht
  have busy : ∀ {i : Nat} {x : Slot} {w : WPc}, c.p.slots[i]? = some x → x.pc = w → w ≠ .queued → False := by
    intro i x w hx hw' hne
    exact hne (hw' ▸ hall x (List.mem_of_getElem? hx))
  generalize hL : later k { c with q := { c.q.goto 0 (.asleep none c.q.isEmpty) with headMutex := none } } = L at hst ⊢
  have hLp : L.p = c.p := by rw [← hL]; rfl
  have pc : ∀ t, L.q.pc t = if t = 0 then .asleep none c.q.isEmpty else .idle := by
    intro t
    rw [← hL]
    show Queue.set c.q.pc 0 _ t = _
    by_cases h0 : t = 0
    · subst h0; rw [set_same, if_pos rfl]
    · rw [set_other _ _ h0, if_neg h0]; exact hi t h0
  have nope : ∀ {t : Nat} {x : Pc Nat}, L.q.pc t = x → x ≠ .idle → (∀ e, x ≠ .asleep none e) → False := by
    intro t x hx h1 h2
    rw [pc] at hx
    split at hx
    · exact h2 _ hx.symm
    · exact h1 hx.symm
  cases hst with
  | flow p' hs hq' hw' =>
    exfalso
    have hw'' := hw' (Or.inl (by rw [hLp]; exact hw))
    rw [hLp] at hs hq' hw''
    cases hs with
    | construct i x hx hp => exact busy hx hp (by simp)
    | constructThrows i x hx hp => exact busy hx hp (by simp)
    | constructTerminates i x hx hp => exact busy hx hp (by simp)
    | stimulusThrows i x hx hp => exact busy hx hp (by simp)
    | begin i x hx hp => exact busy hx hp (by simp)
    | skip i x hx hp => exact busy hx hp (by simp)
    | runReturns i x v hx hp => exact busy hx hp (by simp)
    | runThrows i x hx hp => exact busy hx hp (by simp)
    | push i x hx hp => exact busy hx hp (by simp)
    | pop i x q hm' hqq => simp [PState.popped, hqq] at hq'
    | popThrows i x q hm' hqq => simp [hqq] at hq'
    | timeout hm' hto => exact hcfg hto
    | signal i x hm' => rw [hw] at hm'; simp at hm'
    | signalledAll i hm' => rw [hw] at hm'; simp at hm'
    | join hm' => rw [hw] at hm'; simp at hm'
    | unwind hm' => rw [hw] at hm'; simp at hm'
  | inner q' hs hp' hr' hi' hn' hm' =>
    cases hs with
    | tick => exact ⟨rfl, Or.inl rfl⟩
    | spurious t dl e hpc =>
      have h0 : t = 0 := by
        by_contra h0
        have := pc t; rw [hpc, if_neg h0] at this; simp at this
      subst h0
      exact ⟨rfl, Or.inr ⟨dl, e, hpc, rfl⟩⟩
    | push t v n hpc hn =>
      exfalso
      have := hi' t hpc
      change Queue.set L.q.pc t _ t = _ at this
      rw [set_same] at this; simp at this
    | pop t dl hpc hcs =>
      exfalso
      have := hi' t hpc
      change Queue.set L.q.pc t _ t = _ at this
      rw [set_same] at this; simp at this
    | deadline t d e hpc hd => exact absurd hpc (fun h => nope h (by simp) (by simp))
    | notifyOne t t' dl e hpc hs => exact absurd hpc (fun h => nope h (by simp) (by simp))
    | notifyNone t hpc hs => exact absurd hpc (fun h => nope h (by simp) (by simp))
    | pushLock t v n hpc hf => exact absurd hpc (fun h => nope h (by simp) (by simp))
    | pushData t v n x hpc hx => exact absurd hpc (fun h => nope h (by simp) (by simp))
    | pushNext t v n x hpc hx => exact absurd hpc (fun h => nope h (by simp) (by simp))
    | pushTail t v n hpc => exact absurd hpc (fun h => nope h (by simp) (by simp))
    | pushUnlock t hpc => exact absurd hpc (fun h => nope h (by simp) (by simp))
    | popLock t dl hpc hf => exact absurd hpc (fun h => nope h (by simp) (by simp))
    | checkEmpty t dl hpc hf he => exact absurd hpc (fun h => nope h (by simp) (by simp))
    | checkFull t dl hpc hf he => exact absurd hpc (fun h => nope h (by simp) (by simp))
    | sleep t dl hpc => exact absurd hpc (fun h => nope h (by simp) (by simp))
    | popLate t d hpc hf => exact absurd hpc (fun h => nope h (by simp) (by simp))
    | finalEmpty t d l hpc hf he => exact absurd hpc (fun h => nope h (by simp) (by simp))
    | finalFull t d l hpc hf he => exact absurd hpc (fun h => nope h (by simp) (by simp))
    | popNull t d hpc => exact absurd hpc (fun h => nope h (by simp) (by simp))
    | popTake t x m hpc hx hm => exact absurd hpc (fun h => nope h (by simp) (by simp))
    | popUnlock t o k v hpc => exact absurd hpc (fun h => nope h (by simp) (by simp))
    | popRead t o k v x hpc hx => exact absurd hpc (fun h => nope h (by simp) (by simp))
  | startPush i n x hx hp ht hn hm => rw [hLp] at hx; exact absurd hp (fun h => busy hx h (by simp))
  | link i n hpc hm => exact absurd hpc (fun h => nope h (by simp) (by simp))
  | startPop hm hpc => have := pc 0; rw [hpc] at this; simp at this
  | got i o k v n x hpc hn hd hw hx hf hm => exact absurd hpc (fun h => nope h (by simp) (by simp))
  | gotException i o k v n x hpc hn hd hw hx hf hm => exact absurd hpc (fun h => nope h (by simp) (by simp))
  | expired d hpc hm => exact absurd hpc (fun h => nope h (by simp) (by simp))
  | join hm hf ht => rw [hLp, hw] at hm; simp at hm
  | unwind hm hf ht => rw [hLp, hw] at hm; simp at hm

end QCEC.Props
