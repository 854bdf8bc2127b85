import Mathlib.Data.List.Range
import Mathlib.Data.List.Perm.Basic
import Mathlib.Data.List.Perm.Lattice
import Verif.Lemmas.QueueHistory
/-!
# The thread-safe queue: order, wake-ups, deadlines (C22, C23, C24)

All theorems are about any number of threads pushing and popping concurrently, at the granularity of single accesses to shared
variables; `consumers` says which threads may pop.
-/
namespace QCEC.Props
open QCEC.Queue
variable {V : Type}

/-! ## C22: a first-in first-out queue -/

/-- **C22.** Following the pointers from the head reaches the tail, so the queue always has definite contents, and the test
`head == tail` is true exactly when there are none. -/
theorem queue_contents {C : Nat → Prop} {s : QState V} (h : Reachable C s) :
    ∃ vs, Contents s vs ∧ (∀ ws, Contents s ws → ws = vs) ∧ s.isEmpty = vs.isEmpty := by
  have hc := (reachable_contents h).1
  refine ⟨_, hc, fun ws hw => hw.det hc, ?_⟩
  have := contents_nil_iff hc
  rw [Bool.eq_iff_iff, List.isEmpty_iff, this]
  simp [QState.isEmpty]

/-- **C22.** Every step changes the contents as a first-in first-out queue would: the step of a push that moves the tail appends
the value pushed, the step of a pop that moves the head removes the oldest value, which is the one the thread carries away, and
no other step changes anything. -/
theorem queue_linearizable {C : Nat → Prop} {s s' : QState V} (h : Reachable C s) (hst : Step C s s') {vs ws : List V}
    (hv : Contents s vs) (hw : Contents s' ws) :
    (∃ t v n, s.pc t = .pushTail v n ∧ s'.pc t = .pushUnlock ∧ ws = vs ++ [v]) ∨
    (∃ t v o k, s.pc t = .popTake ∧ s'.pc t = .popUnlock o k (some v) ∧ vs = v :: ws) ∨
    ((∀ t v n, s.pc t = .pushTail v n → s'.pc t = .pushTail v n) ∧ (∀ t, s.pc t = .popTake → s'.pc t = .popTake) ∧ ws = vs) := by
  have hc := (reachable_contents h).1
  have h' : Reachable C s' := Steps.tail h hst
  have hc' := (reachable_contents h').1
  have hta := (reachable_contents h).2
  have hta' := (reachable_contents h').2
  rw [hv.det hc, hw.det hc']
  have hlen : s.taken.length ≤ s.pushed.length := by
    have := congrArg List.length hta
    simp only [List.length_map, List.length_take] at this
    omega
  have quiet : ∀ {t : Nat} {p : Pc V}, s'.pc = set s.pc t p → (∀ v n, s.pc t ≠ .pushTail v n) → s.pc t ≠ .popTake →
      s'.taken = s.taken → s'.pushed = s.pushed →
      ((∀ t v n, s.pc t = .pushTail v n → s'.pc t = .pushTail v n) ∧ (∀ t, s.pc t = .popTake → s'.pc t = .popTake) ∧
        s'.pushed.drop s'.taken.length = s.pushed.drop s.taken.length) := by
    intro t p hpc h1 h2 h3 h4
    refine ⟨?_, ?_, by rw [h3, h4]⟩
    · intro t' v n ht'
      rw [hpc]
      rw [set_other _ _ (by rintro rfl; exact h1 v n ht')]; exact ht'
    · intro t' ht'
      rw [hpc]
      rw [set_other _ _ (by rintro rfl; exact h2 ht')]; exact ht'
  cases hst with
  | pushTail t v n hp =>
    refine Or.inl ⟨t, v, n, hp, set_same _ _ _, ?_⟩
    show (s.pushed ++ [v]).drop s.taken.length = _
    rw [List.drop_append_of_le_length hlen]
  | popTake t x m hp hx hm =>
    change s.taken ++ [x.data] = (s.pushed.take (s.taken ++ [x.data]).length).map some at hta'
    have hlt : s.taken.length < s.pushed.length := by
      have := congrArg List.length hta'
      simp only [List.length_map, List.length_take, List.length_append, List.length_singleton] at this
      omega
    have hd : x.data = some (s.pushed[s.taken.length]) := by
      have := congrArg (·[s.taken.length]?) hta'
      simp only [List.getElem?_append_right (Nat.le_refl _), Nat.sub_self, List.getElem?_cons_zero, List.getElem?_map,
        List.length_append, List.length_singleton, List.getElem?_take, Nat.lt_succ_self, if_true,
        List.getElem?_eq_getElem hlt, Option.map_some, Option.some.injEq] at this
      exact this
    refine Or.inr (Or.inl ⟨t, s.pushed[s.taken.length], s.head, s.taken.length, hp, ?_, ?_⟩)
    · show set s.pc t _ t = _
      rw [set_same, hd]
    · show _ = _ :: s.pushed.drop (s.taken ++ [x.data]).length
      rw [List.length_append, List.length_singleton]
      exact List.drop_eq_getElem_cons hlt
  | notifyOne t t' dl e hp hs =>
    refine Or.inr (Or.inr ⟨?_, ?_, rfl⟩)
    · intro t'' v n h1
      show set (set s.pc t _) t' _ t'' = _
      rw [set_other _ _ (by rintro rfl; rw [hs] at h1; simp at h1), set_other _ _ (by rintro rfl; rw [hp] at h1; simp at h1)]
      exact h1
    · intro t'' h1
      show set (set s.pc t _) t' _ t'' = _
      rw [set_other _ _ (by rintro rfl; rw [hs] at h1; simp at h1), set_other _ _ (by rintro rfl; rw [hp] at h1; simp at h1)]
      exact h1
  | tick => exact Or.inr (Or.inr ⟨fun _ _ _ h => h, fun _ h => h, rfl⟩)
  | push t v n hp hn => exact Or.inr (Or.inr (quiet (t := t) rfl (by rw [hp]; simp) (by rw [hp]; simp) rfl rfl))
  | pushLock t v n hp hf => exact Or.inr (Or.inr (quiet (t := t) rfl (by rw [hp]; simp) (by rw [hp]; simp) rfl rfl))
  | pushData t v n x hp hx => exact Or.inr (Or.inr (quiet (t := t) rfl (by rw [hp]; simp) (by rw [hp]; simp) rfl rfl))
  | pushNext t v n x hp hx => exact Or.inr (Or.inr (quiet (t := t) rfl (by rw [hp]; simp) (by rw [hp]; simp) rfl rfl))
  | pushUnlock t hp => exact Or.inr (Or.inr (quiet (t := t) rfl (by rw [hp]; simp) (by rw [hp]; simp) rfl rfl))
  | notifyNone t hp hs => exact Or.inr (Or.inr (quiet (t := t) rfl (by rw [hp]; simp) (by rw [hp]; simp) rfl rfl))
  | pop t dl hp hc => exact Or.inr (Or.inr (quiet (t := t) rfl (by rw [hp]; simp) (by rw [hp]; simp) rfl rfl))
  | popLock t dl hp hf => exact Or.inr (Or.inr (quiet (t := t) rfl (by rw [hp]; simp) (by rw [hp]; simp) rfl rfl))
  | checkEmpty t dl hp hf he => exact Or.inr (Or.inr (quiet (t := t) rfl (by rw [hp]; simp) (by rw [hp]; simp) rfl rfl))
  | checkFull t dl hp hf he => exact Or.inr (Or.inr (quiet (t := t) rfl (by rw [hp]; simp) (by rw [hp]; simp) rfl rfl))
  | sleep t dl hp => exact Or.inr (Or.inr (quiet (t := t) rfl (by rw [hp]; simp) (by rw [hp]; simp) rfl rfl))
  | spurious t dl e hp => exact Or.inr (Or.inr (quiet (t := t) rfl (by rw [hp]; simp) (by rw [hp]; simp) rfl rfl))
  | deadline t d e hp hd => exact Or.inr (Or.inr (quiet (t := t) rfl (by rw [hp]; simp) (by rw [hp]; simp) rfl rfl))
  | popLate t d hp hf => exact Or.inr (Or.inr (quiet (t := t) rfl (by rw [hp]; simp) (by rw [hp]; simp) rfl rfl))
  | finalEmpty t d l hp hf he => exact Or.inr (Or.inr (quiet (t := t) rfl (by rw [hp]; simp) (by rw [hp]; simp) rfl rfl))
  | finalFull t d l hp hf he => exact Or.inr (Or.inr (quiet (t := t) rfl (by rw [hp]; simp) (by rw [hp]; simp) rfl rfl))
  | popNull t d hp => exact Or.inr (Or.inr (quiet (t := t) rfl (by rw [hp]; simp) (by rw [hp]; simp) rfl rfl))
  | popUnlock t o k v hp => exact Or.inr (Or.inr (quiet (t := t) rfl (by rw [hp]; simp) (by rw [hp]; simp) rfl rfl))
  | popRead t o k v x hp hx => exact Or.inr (Or.inr (quiet (t := t) rfl (by rw [hp]; simp) (by rw [hp]; simp) rfl rfl))

/-- **C22.** Nothing is lost, duplicated or invented: the `k`-th element removed is the `k`-th one added; each is returned by at
most one call, with its value; each one removed has been returned or is about to be, by one thread; those added and not removed
are in the queue. -/
theorem queue_exactly_once {C : Nat → Prop} {s : QState V} (h : Reachable C s) :
    (s.returned.map (·.1)).Nodup ∧
    (∀ k r, (k, r) ∈ s.returned → ∃ v, r = some v ∧ s.pushed[k]? = some v) ∧
    (∀ k v, s.pushed[k]? = some v →
      (k, some v) ∈ s.returned ∨ (∃ t, flight (s.pc t) = some (k, some v)) ∨ s.taken.length ≤ k) ∧
    Contents s (s.pushed.drop s.taken.length) := by
  have hp := reachable_pinv h
  obtain ⟨hc, ht⟩ := reachable_contents h
  have key : ∀ (k : Nat) (r : Option V), s.taken[k]? = some r → ∃ v, r = some v ∧ s.pushed[k]? = some v := by
    intro k r hk
    rw [ht, List.getElem?_map, List.getElem?_take] at hk
    split at hk
    · cases hx : s.pushed[k]? with
      | none => rw [hx] at hk; simp at hk
      | some v => rw [hx] at hk; simp at hk; exact ⟨v, hk.symm, rfl⟩
    · simp at hk
  refine ⟨hp.nodup, fun k r hk => key k r (hp.returned k r hk), ?_, hc⟩
  intro k v hv
  by_cases hk : k < s.taken.length
  · rcases hp.all k hk with ⟨r, hr⟩ | ⟨t, r, hr⟩
    · obtain ⟨w, rfl, hw⟩ := key k r (hp.returned k r hr)
      rw [hv] at hw; cases hw
      exact Or.inl hr
    · obtain ⟨w, rfl, hw⟩ := key k r (hp.inFlight t k r hr)
      rw [hv] at hw; cases hw
      exact Or.inr (Or.inl ⟨t, hr⟩)
  · exact Or.inr (Or.inr (by omega))

/-- **C22.** When no call is in progress, the values returned so far are the oldest ones pushed, each once, and the rest is in
the queue in order. -/
theorem queue_quiescent {C : Nat → Prop} {s : QState V} (h : Reachable C s) (hq : ∀ t, ¬ busy (s.pc t)) :
    List.Perm (s.returned.map (·.2)) ((s.pushed.take s.returned.length).map some) ∧
    Contents s (s.pushed.drop s.returned.length) := by
  have hp := reachable_pinv h
  obtain ⟨hc, ht⟩ := reachable_contents h
  have hnof : ∀ t k v, flight (s.pc t) ≠ some (k, v) := by
    intro t k v hk
    apply hq t
    cases hpc : s.pc t <;> rw [hpc] at hk <;> first | trivial | exact absurd hk (by simp [flight])
  have hperm : List.Perm (s.returned.map (·.1)) (List.range s.taken.length) := by
    rw [List.perm_ext_iff_of_nodup hp.nodup List.nodup_range]
    intro k
    rw [List.mem_range]
    constructor
    · intro hk
      obtain ⟨⟨k, v⟩, hm, rfl⟩ := List.mem_map.mp hk
      exact (List.getElem?_eq_some_iff.mp (hp.returned k v hm)).1
    · intro hk
      rcases hp.all k hk with ⟨v, hv⟩ | ⟨t, v, hv⟩
      · exact List.mem_map.mpr ⟨(k, v), hv, rfl⟩
      · exact absurd hv (hnof t k v)
  have hlen : s.returned.length = s.taken.length := by
    have := hperm.length_eq; simpa using this
  rw [hlen]
  refine ⟨?_, hc⟩
  rw [← ht]
  have h1 : (s.returned.map (·.1)).map (fun k => s.taken[k]?) = (s.returned.map (·.2)).map some := by
    rw [List.map_map, List.map_map]
    apply List.map_congr_left
    intro p hpm
    exact hp.returned p.1 p.2 hpm
  have h2 : (List.range s.taken.length).map (fun k => s.taken[k]?) = s.taken.map some := by
    apply List.ext_getElem
    · simp
    · intro i h1 h2
      simp only [List.getElem_map, List.getElem_range]
      rw [List.getElem?_eq_getElem (by simpa using h2)]
  have h3 := hperm.map (fun k => s.taken[k]?)
  rw [h1, h2] at h3
  have h4 := h3.filterMap id
  simpa [List.filterMap_map] using h4

/-- The returned positions of a single consumer. -/
theorem single_positions {C : Nat → Prop} {c : Nat} (hc : ∀ t, C t → t = c) {s : QState V} (h : Reachable C s) :
    s.returned.map (·.1) = List.range s.returned.length ∧
    (∀ k v, flight (s.pc c) = some (k, v) → k = s.returned.length ∧ s.taken.length = k + 1) ∧
    (flight (s.pc c) = none → s.taken.length = s.returned.length) := by
  unfold Reachable at h
  induction h with
  | refl => simp [init, flight]
  | @tail s s' hs hst ih =>
    obtain ⟨i1, i2, i3⟩ := ih
    have hd := reachable_dinv hs
    have quiet : ∀ {t : Nat} {p : Pc V}, s'.pc = set s.pc t p → flight p = flight (s.pc t) →
        s'.taken = s.taken → s'.returned = s.returned →
        s'.returned.map (·.1) = List.range s'.returned.length ∧
        (∀ k v, flight (s'.pc c) = some (k, v) → k = s'.returned.length ∧ s'.taken.length = k + 1) ∧
        (flight (s'.pc c) = none → s'.taken.length = s'.returned.length) := by
      intro t p hpc hf h1 h2
      have : flight (s'.pc c) = flight (s.pc c) := by rw [hpc]; exact flight_set hf c
      rw [this, h1, h2]; exact ⟨i1, i2, i3⟩
    cases hst with
    | popTake t x m hp hx hm =>
      have htc : t = c := hc t (hd.consumer t (by rw [hp]; trivial))
      subst htc
      have := i3 (by rw [hp]; rfl)
      refine ⟨i1, ?_, ?_⟩
      · intro k v hk
        change flight (set s.pc t _ t) = _ at hk
        rw [set_same] at hk
        simp only [flight, Option.some.injEq, Prod.mk.injEq] at hk
        refine ⟨by rw [← hk.1]; exact this, ?_⟩
        show (s.taken ++ [x.data]).length = _
        rw [List.length_append, ← hk.1]; rfl
      · intro hk
        change flight (set s.pc t _ t) = _ at hk
        rw [set_same] at hk
        simp [flight] at hk
    | popRead t o k v x hp hx =>
      have htc : t = c := hc t (hd.consumer t (by rw [hp]; trivial))
      subst htc
      obtain ⟨j1, j2⟩ := i2 k v (by rw [hp]; rfl)
      refine ⟨?_, ?_, ?_⟩
      · show (s.returned ++ [(k, x.data)]).map (·.1) = List.range (s.returned ++ [(k, x.data)]).length
        rw [List.map_append, List.length_append, List.length_singleton, List.range_succ, i1, j1]; rfl
      · intro k' v' hk
        change flight (set s.pc t _ t) = _ at hk
        rw [set_same] at hk
        simp [flight] at hk
      · intro _
        show s.taken.length = (s.returned ++ [(k, x.data)]).length
        rw [List.length_append, j2, j1]; rfl
    | notifyOne t t' dl e hp hs' =>
      have hne : t' ≠ t := by rintro rfl; rw [hp] at hs'; simp at hs'
      have h1 := flight_set (pc := s.pc) (t := t) (p := .idle) (by rw [hp]; rfl) c
      have h2 := flight_set (pc := set s.pc t .idle) (t := t') (p := .popLock dl) (by rw [set_other _ _ hne, hs']; rfl) c
      have : flight (set (set s.pc t .idle) t' (.popLock dl) c) = flight (s.pc c) := h2.trans h1
      refine ⟨i1, ?_, ?_⟩
      · intro k v hk
        exact i2 k v (this.symm.trans hk)
      · intro hk; exact i3 (this.symm.trans hk)
    | tick => exact ⟨i1, i2, i3⟩
    | checkFull t dl hp hf he => exact quiet (t := t) rfl (by rw [hp]; split <;> rfl) rfl rfl
    | push t v n hp hn => exact quiet (t := t) rfl (by rw [hp]; rfl) rfl rfl
    | pushLock t v n hp hf => exact quiet (t := t) rfl (by rw [hp]; rfl) rfl rfl
    | pushData t v n x hp hx => exact quiet (t := t) rfl (by rw [hp]; rfl) rfl rfl
    | pushNext t v n x hp hx => exact quiet (t := t) rfl (by rw [hp]; rfl) rfl rfl
    | pushTail t v n hp => exact quiet (t := t) rfl (by rw [hp]; rfl) rfl rfl
    | pushUnlock t hp => exact quiet (t := t) rfl (by rw [hp]; rfl) rfl rfl
    | notifyNone t hp hs => exact quiet (t := t) rfl (by rw [hp]; rfl) rfl rfl
    | pop t dl hp hc => exact quiet (t := t) rfl (by rw [hp]; rfl) rfl rfl
    | popLock t dl hp hf => exact quiet (t := t) rfl (by rw [hp]; rfl) rfl rfl
    | checkEmpty t dl hp hf he => exact quiet (t := t) rfl (by rw [hp]; rfl) rfl rfl
    | sleep t dl hp => exact quiet (t := t) rfl (by rw [hp]; rfl) rfl rfl
    | spurious t dl e hp => exact quiet (t := t) rfl (by rw [hp]; rfl) rfl rfl
    | deadline t d e hp hd => exact quiet (t := t) rfl (by rw [hp]; rfl) rfl rfl
    | popLate t d hp hf => exact quiet (t := t) rfl (by rw [hp]; rfl) rfl rfl
    | finalEmpty t d l hp hf he => exact quiet (t := t) rfl (by rw [hp]; rfl) rfl rfl
    | finalFull t d l hp hf he => exact quiet (t := t) rfl (by rw [hp]; rfl) rfl rfl
    | popNull t d hp => exact quiet (t := t) rfl (by rw [hp]; rfl) rfl rfl
    | popUnlock t o k v hp => exact quiet (t := t) rfl (by rw [hp]; rfl) rfl rfl

/-- **C22.** With one consumer, as in the parallel checking flow, the values are returned in the order in which they were pushed. -/
theorem queue_single_consumer_order {C : Nat → Prop} {c : Nat} (hc : ∀ t, C t → t = c) {s : QState V} (h : Reachable C s) :
    s.returned.map (·.2) = (s.pushed.take s.returned.length).map some := by
  have h1 := (single_positions hc h).1
  have hp := reachable_pinv h
  have ht := (reachable_contents h).2
  have hk : ∀ i (hi : i < s.returned.length), s.taken[i]? = some (s.returned[i]).2 := by
    intro i hi
    have h2 : (s.returned[i]).1 = i := by
      have := congrArg (·[i]?) h1
      simpa [hi] using this
    have := hp.returned (s.returned[i]).1 (s.returned[i]).2 (List.getElem_mem hi)
    rw [h2] at this; exact this
  have hlen : s.returned.length ≤ s.pushed.length := by
    rcases Nat.eq_zero_or_pos s.returned.length with h0 | h0
    · omega
    · have := (List.getElem?_eq_some_iff.mp (hk (s.returned.length - 1) (by omega))).1
      have h3 := congrArg List.length ht
      simp only [List.length_map, List.length_take] at h3
      omega
  apply List.ext_getElem
  · simp [hlen]
  · intro i h2 h3
    simp only [List.length_map] at h2
    have h4 := hk i h2
    rw [ht, List.getElem?_map, List.getElem?_take] at h4
    split at h4
    · rw [List.getElem?_eq_getElem (by omega)] at h4
      simp only [Option.map_some, Option.some.injEq] at h4
      simp only [List.getElem_map, List.getElem_take]
      exact h4.symm
    · simp at h4

/-- What was added and removed stays so. -/
theorem queue_history {C : Nat → Prop} {s s' : QState V} (h : Steps C s s') :
    s.pushed <+: s'.pushed ∧ s.taken <+: s'.taken ∧ s.returned <+: s'.returned := by
  induction h with
  | refl => exact ⟨List.prefix_refl _, List.prefix_refl _, List.prefix_refl _⟩
  | tail _ hst ih =>
    obtain ⟨i1, i2, i3⟩ := ih
    cases hst with
    | pushTail => exact ⟨i1.trans (List.prefix_append _ _), i2, i3⟩
    | popTake => exact ⟨i1, i2.trans (List.prefix_append _ _), i3⟩
    | popRead => exact ⟨i1, i2, i3.trans (List.prefix_append _ _)⟩
    | _ => exact ⟨i1, i2, i3⟩

/-- **C22.** The order agrees with real time: when a call has returned an element, every element returned later was pushed after
it, unless another thread had already taken it at that moment. -/
theorem queue_real_time {C : Nat → Prop} {s s' : QState V} (h : Reachable C s) (hs : Steps C s s') {k k' : Nat} {v v' : Option V}
    (hk : (k, v) ∈ s.returned) (hk' : (k', v') ∈ s'.returned) :
    (k', v') ∈ s.returned ∨ (∃ t, flight (s.pc t) = some (k', v')) ∨ k < k' := by
  have hp := reachable_pinv h
  have h1 := (List.getElem?_eq_some_iff.mp (hp.returned k v hk)).1
  by_cases hlt : k < k'
  · exact Or.inr (Or.inr hlt)
  · have htr : ∀ a b c : QState V, Steps C a b → Steps C b c → Steps C a c := by
      intro a b c hab hbc
      induction hbc with
      | refl => exact hab
      | tail _ hst ih => exact Steps.tail ih hst
    have hp' := reachable_pinv (htr _ _ _ h hs : Reachable C s')
    have hpre := (queue_history hs).2.1
    have huniq : ∀ w, s.taken[k']? = some w → w = v' := by
      intro w hw
      have h2 := hp'.returned k' v' hk'
      obtain ⟨r, hr⟩ := hpre
      rw [← hr, List.getElem?_append_left (List.getElem?_eq_some_iff.mp hw).1, hw] at h2
      exact Option.some.inj h2
    rcases hp.all k' (by omega) with ⟨w, hw⟩ | ⟨t, w, hw⟩
    · exact Or.inl (huniq w (hp.returned k' w hw) ▸ hw)
    · exact Or.inr (Or.inl ⟨t, huniq w (hp.inFlight t k' w hw) ▸ hw⟩)

/-! ## Safety -/

/-- **C22.** No null or dangling pointer is dereferenced: whenever a thread is about to access a node, the node is allocated; the
head that is removed has a successor; the value returned is never null. -/
theorem queue_memory_safe {C : Nat → Prop} {s : QState V} (h : Reachable C s) (t : Nat) :
    (∀ v n, s.pc t = .pushData v n ∨ s.pc t = .pushNext v n → ∃ x, s.heap s.tail = some x) ∧
    (s.pc t = .popTake → ∃ x m y, s.heap s.head = some x ∧ x.next = some m ∧ s.heap m = some y) ∧
    (∀ o k v, s.pc t = .popRead o k v → ∃ x w, s.heap o = some x ∧ x.data = some w) := by
  obtain ⟨_, hT, l, hi⟩ := reachable_inv h
  refine ⟨fun _ _ _ => ⟨_, hi.last⟩, ?_, ?_⟩
  · intro hp
    have hne := hT t hp
    cases l with
    | nil => exact absurd hi.seg.nil_eq hne
    | cons p l =>
      obtain ⟨_, b, hb, hs⟩ := hi.seg.cons_inv
      refine ⟨⟨some p.2, some b⟩, b, ?_⟩
      cases l with
      | nil => exact ⟨_, hb, rfl, by rw [hs.nil_eq]; exact hi.last⟩
      | cons q l => obtain ⟨_, c, hc, _⟩ := hs.cons_inv; exact ⟨_, hb, rfl, hc⟩
  · intro o k v hp
    have h1 := (hi.own t o ⟨v, none⟩ (by rw [hp]; rfl)).1
    have hpi := (reachable_pinv h).inFlight t k v (by rw [hp]; rfl)
    rw [(reachable_contents h).2, List.getElem?_map] at hpi
    cases hx : (s.pushed.take s.taken.length)[k]? with
    | none => rw [hx] at hpi; simp at hpi
    | some w =>
      rw [hx] at hpi
      simp only [Option.map_some, Option.some.injEq] at hpi
      exact ⟨_, w, h1, hpi.symm⟩

/-- The node whose fields the next step of a thread reads or writes. -/
def accesses (s : QState V) : Pc V → Option Nat
  | .pushData _ _ | .pushNext _ _ => some s.tail
  | .popTake => some s.head
  | .popRead o _ _ => some o
  | _ => none

/-- **C22.** No data race: two threads are never about to access the same node, and the head and tail pointers are only touched
while holding their mutex. -/
theorem queue_no_race {C : Nat → Prop} {s : QState V} (h : Reachable C s) {t t' : Nat} (hne : t ≠ t') :
    (∀ n, accesses s (s.pc t) = some n → accesses s (s.pc t') ≠ some n) ∧
    ¬ (holdsHead (s.pc t) ∧ holdsHead (s.pc t')) ∧ ¬ (holdsTail (s.pc t) ∧ holdsTail (s.pc t')) := by
  obtain ⟨hl, hT, l, hi⟩ := reachable_inv h
  have hH : ¬ (holdsHead (s.pc t) ∧ holdsHead (s.pc t')) := by
    rintro ⟨h1, h2⟩
    have h1 := (hl.head t).mp h1
    rw [(hl.head t').mp h2] at h1
    exact hne (Option.some.inj h1).symm
  have hTl : ¬ (holdsTail (s.pc t) ∧ holdsTail (s.pc t')) := by
    rintro ⟨h1, h2⟩
    have h1 := (hl.tail t).mp h1
    rw [(hl.tail t').mp h2] at h1
    exact hne (Option.some.inj h1).symm
  refine ⟨?_, hH, hTl⟩
  -- what an access means
  have class_ : ∀ u n, accesses s (s.pc u) = some n →
      (holdsTail (s.pc u) ∧ n = s.tail) ∨ (s.pc u = .popTake ∧ n = s.head) ∨ (∃ x, owns (s.pc u) = some (n, x) ∧ n ≠ s.tail ∧ n ≠ s.head) := by
    intro u n hu
    cases hpc : s.pc u <;> rw [hpc] at hu <;> simp only [accesses, Option.some.injEq, reduceCtorEq] at hu
    · exact Or.inl ⟨trivial, hu.symm⟩
    · exact Or.inl ⟨trivial, hu.symm⟩
    · exact Or.inr (Or.inl ⟨rfl, hu.symm⟩)
    · rename_i o k v
      subst hu
      have ho : owns (s.pc u) = some (o, ⟨v, none⟩) := by rw [hpc]; rfl
      exact Or.inr (Or.inr ⟨⟨v, none⟩, rfl, (hi.own u o _ ho).2.1, Ne.symm (hi.head_ne_own ho)⟩)
  intro n h1 h2
  rcases class_ t n h1 with ⟨a1, a2⟩ | ⟨a1, a2⟩ | ⟨x, a1, a2, a3⟩
  · rcases class_ t' n h2 with ⟨b1, b2⟩ | ⟨b1, b2⟩ | ⟨y, b1, b2, b3⟩
    · exact hTl ⟨a1, b1⟩
    · exact hT t' b1 (b2.symm.trans a2)
    · exact b2 a2
  · rcases class_ t' n h2 with ⟨b1, b2⟩ | ⟨b1, b2⟩ | ⟨y, b1, b2, b3⟩
    · exact hT t a1 (a2.symm.trans b2)
    · exact hH ⟨by rw [a1]; trivial, by rw [b1]; trivial⟩
    · exact b3 a2
  · rcases class_ t' n h2 with ⟨b1, b2⟩ | ⟨b1, b2⟩ | ⟨y, b1, b2, b3⟩
    · exact a2 b2
    · exact a3 b2
    · exact hne (hi.disj t t' n x y a1 b1)

/-- **C22.** No deadlock: while some call is in progress and not asleep, one of them can take its next step. -/
theorem queue_no_deadlock {C : Nat → Prop} {s : QState V} (h : Reachable C s) {t : Nat} (ht : busy (s.pc t)) :
    ∃ t' s', busy (s.pc t') ∧ Step C s s' ∧ s'.pc t' ≠ s.pc t' := by
  obtain ⟨hl, hT, l, hi⟩ := reachable_inv h
  -- a holder of the tail mutex can always go on
  have hTail : ∀ u, holdsTail (s.pc u) → ∃ s', busy (s.pc u) ∧ Step C s s' ∧ s'.pc u ≠ s.pc u := by
    intro u hu
    cases hpc : s.pc u with
    | pushData v n =>
      refine ⟨_, trivial, Step.pushData s u v n _ hpc hi.last, ?_⟩
      show set s.pc u _ u ≠ _; rw [set_same]; simp
    | pushNext v n =>
      refine ⟨_, trivial, Step.pushNext s u v n _ hpc hi.last, ?_⟩
      show set s.pc u _ u ≠ _; rw [set_same]; simp
    | pushTail v n =>
      refine ⟨_, trivial, Step.pushTail s u v n hpc, ?_⟩
      show set s.pc u _ u ≠ _; rw [set_same]; simp
    | pushUnlock =>
      refine ⟨_, trivial, Step.pushUnlock s u hpc, ?_⟩
      show set s.pc u _ u ≠ _; rw [set_same]; simp
    | _ => rw [hpc] at hu; exact absurd hu (fun h => h)
  cases hm : s.tailMutex with
  | some u => exact ⟨u, hTail u ((hl.tail u).mpr hm)⟩
  | none =>
    have hnt : ¬ holdsTail (s.pc t) := fun hh => by have := (hl.tail t).mp hh; rw [hm] at this; simp at this
    -- a holder of the head mutex can go on
    have hHead : ∀ u, holdsHead (s.pc u) → ∃ s', busy (s.pc u) ∧ Step C s s' ∧ s'.pc u ≠ s.pc u := by
      intro u hu
      cases hpc : s.pc u with
      | popCheck dl =>
        cases he : s.isEmpty with
        | true =>
          refine ⟨_, trivial, Step.checkEmpty s u dl hpc hm he, ?_⟩
          show set s.pc u _ u ≠ _; rw [set_same]; simp
        | false =>
          refine ⟨_, trivial, Step.checkFull s u dl hpc hm he, ?_⟩
          show set s.pc u _ u ≠ _; rw [set_same]; split <;> simp
      | popSleep dl =>
        refine ⟨_, trivial, Step.sleep s u dl hpc, ?_⟩
        show set s.pc u _ u ≠ _; rw [set_same]; simp
      | popFinal d late =>
        cases he : s.isEmpty with
        | true =>
          refine ⟨_, trivial, Step.finalEmpty s u d late hpc hm he, ?_⟩
          show set s.pc u _ u ≠ _; rw [set_same]; simp
        | false =>
          refine ⟨_, trivial, Step.finalFull s u d late hpc hm he, ?_⟩
          show set s.pc u _ u ≠ _; rw [set_same]; simp
      | popTake =>
        obtain ⟨x, m, _, hx, hxm, _⟩ := (queue_memory_safe h u).2.1 hpc
        refine ⟨_, trivial, Step.popTake s u x m hpc hx hxm, ?_⟩
        show set s.pc u _ u ≠ _; rw [set_same]; simp
      | popUnlock o k v =>
        refine ⟨_, trivial, Step.popUnlock s u o k v hpc, ?_⟩
        show set s.pc u _ u ≠ _; rw [set_same]; simp
      | popNull d =>
        refine ⟨_, trivial, Step.popNull s u d hpc, ?_⟩
        show set s.pc u _ u ≠ _; rw [set_same]; simp
      | _ => rw [hpc] at hu; exact absurd hu (fun h => h)
    cases hmh : s.headMutex with
    | some u => exact ⟨u, hHead u ((hl.head u).mpr hmh)⟩
    | none =>
      have hnh : ¬ holdsHead (s.pc t) := fun hh => by have := (hl.head t).mp hh; rw [hmh] at this; simp at this
      cases hpc : s.pc t with
      | pushLock v n =>
        refine ⟨t, _, by rw [hpc]; trivial, Step.pushLock s t v n hpc hm, ?_⟩
        show set s.pc t _ t ≠ _; rw [set_same, hpc]; simp
      | popLock dl =>
        refine ⟨t, _, by rw [hpc]; trivial, Step.popLock s t dl hpc hmh, ?_⟩
        show set s.pc t _ t ≠ _; rw [set_same, hpc]; simp
      | popLate d =>
        refine ⟨t, _, by rw [hpc]; trivial, Step.popLate s t d hpc hmh, ?_⟩
        show set s.pc t _ t ≠ _; rw [set_same, hpc]; simp
      | pushNotify =>
        by_cases hs : ∃ t' dl e, s.pc t' = .asleep dl e
        · obtain ⟨t', dl, e, hs⟩ := hs
          have hne : t ≠ t' := by rintro rfl; rw [hpc] at hs; simp at hs
          refine ⟨t, _, by rw [hpc]; trivial, Step.notifyOne s t t' dl e hpc hs, ?_⟩
          show set (set s.pc t _) t' _ t ≠ _
          rw [set_other _ _ hne, set_same, hpc]; simp
        · refine ⟨t, _, by rw [hpc]; trivial, Step.notifyNone s t hpc (fun t' dl e hh => hs ⟨t', dl, e, hh⟩), ?_⟩
          show set s.pc t _ t ≠ _; rw [set_same, hpc]; simp
      | popRead o k v =>
        obtain ⟨x, w, hx, _⟩ := (queue_memory_safe h t).2.2 o k v hpc
        refine ⟨t, _, by rw [hpc]; trivial, Step.popRead s t o k v x hpc hx, ?_⟩
        show set s.pc t _ t ≠ _; rw [set_same, hpc]; simp
      | idle => rw [hpc] at ht; exact absurd ht (fun h => h)
      | asleep dl e => rw [hpc] at ht; exact absurd ht (fun h => h)
      | pushData v n => rw [hpc] at hnt; exact absurd trivial hnt
      | pushNext v n => rw [hpc] at hnt; exact absurd trivial hnt
      | pushTail v n => rw [hpc] at hnt; exact absurd trivial hnt
      | pushUnlock => rw [hpc] at hnt; exact absurd trivial hnt
      | popCheck dl => rw [hpc] at hnh; exact absurd trivial hnh
      | popSleep dl => rw [hpc] at hnh; exact absurd trivial hnh
      | popFinal d l => rw [hpc] at hnh; exact absurd trivial hnh
      | popTake => rw [hpc] at hnh; exact absurd trivial hnh
      | popUnlock o k v => rw [hpc] at hnh; exact absurd trivial hnh
      | popNull d => rw [hpc] at hnh; exact absurd trivial hnh

/-! ## C23: wake-ups -/

/-- **C23, the part that holds.** A single consumer that fell asleep while the queue was empty is not left asleep: if there is an
element, a producer is about to notify it.  Missing: consumers that fell asleep although an element had arrived after their test
(`queue_lost_wakeup`). -/
theorem queue_wakeup_partial {C : Nat → Prop} {c : Nat} (hc : ∀ t, C t → t = c) {s : QState V} (h : Reachable C s)
    {dl : Option Nat} (hs : s.pc c = .asleep dl true) {vs : List V} (hv : Contents s vs) (hne : vs ≠ []) :
    ∃ t, s.pc t = .pushUnlock ∨ s.pc t = .pushNotify :=
  reachable_winv hc h dl hs (fun heq => hne ((contents_nil_iff hv).mpr heq))

/-- **C23.** A notification by a producer wakes a consumer if one is asleep. -/
theorem queue_notify_wakes {C : Nat → Prop} {s s' : QState V} (hst : Step C s s') {t : Nat} (hp : s.pc t = .pushNotify)
    (hp' : s'.pc t = .idle) {c : Nat} {dl : Option Nat} {e : Bool} (hs : s.pc c = .asleep dl e) :
    ∃ c' dl' e', s.pc c' = .asleep dl' e' ∧ s'.pc c' = .popLock dl' := by
  have other : ∀ {u : Nat} {p : Pc V}, s'.pc = set s.pc u p → s.pc u ≠ .pushNotify → False := by
    intro u p h1 h2
    have : t ≠ u := by rintro rfl; exact h2 hp
    rw [h1, set_other _ _ this, hp] at hp'
    simp at hp'
  cases hst with
  | notifyNone t' hp1 hs1 => exact absurd hs (hs1 c dl e)
  | notifyOne t1 t2 dl2 e2 hp1 hs1 =>
    exact ⟨t2, dl2, e2, hs1, by show set (set s.pc t1 _) t2 _ t2 = _; rw [set_same]⟩
  | tick => exact absurd (hp.symm.trans hp') (by simp)
  | push t v n hp hn => exact (other (u := t) rfl (by rw [hp]; simp)).elim
  | pushLock t v n hp hf => exact (other (u := t) rfl (by rw [hp]; simp)).elim
  | pushData t v n x hp hx => exact (other (u := t) rfl (by rw [hp]; simp)).elim
  | pushNext t v n x hp hx => exact (other (u := t) rfl (by rw [hp]; simp)).elim
  | pushTail t v n hp => exact (other (u := t) rfl (by rw [hp]; simp)).elim
  | pushUnlock t hp => exact (other (u := t) rfl (by rw [hp]; simp)).elim
  | pop t dl hp hc => exact (other (u := t) rfl (by rw [hp]; simp)).elim
  | popLock t dl hp hf => exact (other (u := t) rfl (by rw [hp]; simp)).elim
  | checkEmpty t dl hp hf he => exact (other (u := t) rfl (by rw [hp]; simp)).elim
  | checkFull t dl hp hf he => exact (other (u := t) rfl (by rw [hp]; simp)).elim
  | sleep t dl hp => exact (other (u := t) rfl (by rw [hp]; simp)).elim
  | spurious t dl e hp => exact (other (u := t) rfl (by rw [hp]; simp)).elim
  | deadline t d e hp hd => exact (other (u := t) rfl (by rw [hp]; simp)).elim
  | popLate t d hp hf => exact (other (u := t) rfl (by rw [hp]; simp)).elim
  | finalEmpty t d l hp hf he => exact (other (u := t) rfl (by rw [hp]; simp)).elim
  | finalFull t d l hp hf he => exact (other (u := t) rfl (by rw [hp]; simp)).elim
  | popNull t d hp => exact (other (u := t) rfl (by rw [hp]; simp)).elim
  | popTake t x m hp hx hm => exact (other (u := t) rfl (by rw [hp]; simp)).elim
  | popUnlock t o k v hp => exact (other (u := t) rfl (by rw [hp]; simp)).elim
  | popRead t o k v x hp hx => exact (other (u := t) rfl (by rw [hp]; simp)).elim

/-- **C23 fails.** The producer notifies without holding the mutex the consumer waits with, so the notification can fall between
the consumer's test and its falling asleep: the consumer then sleeps although an element is there and no call is in progress.
Only a spurious wake-up, another push, or the deadline of a timed wait gets it going again. -/
theorem queue_lost_wakeup (v : V) :
    ∃ s : QState V, Reachable (fun t => t = 0) s ∧ s.pc 0 = .asleep none false ∧ Contents s [v] ∧ ∀ t, t ≠ 0 → s.pc t = .idle := by
  have r0 : Reachable (fun t => t = 0) (init : QState V) := Steps.refl _
  have r1 := Steps.tail r0 (Step.pop _ 0 none rfl rfl)
  have r2 := Steps.tail r1 (Step.popLock _ 0 none rfl rfl)
  have r3 := Steps.tail r2 (Step.checkEmpty _ 0 none rfl rfl rfl)
  have r4 := Steps.tail r3 (Step.push _ 1 v 1 rfl rfl)
  have r5 := Steps.tail r4 (Step.pushLock _ 1 v 1 rfl rfl)
  have r6 := Steps.tail r5 (Step.pushData _ 1 v 1 {} rfl rfl)
  have r7 := Steps.tail r6 (Step.pushNext _ 1 v 1 ⟨some v, none⟩ rfl rfl)
  have r8 := Steps.tail r7 (Step.pushTail _ 1 v 1 rfl)
  have r9 := Steps.tail r8 (Step.pushUnlock _ 1 rfl)
  have r10 := Steps.tail r9 (Step.notifyNone _ 1 rfl (by
    intro t dl e
    show set (set (set (set (set (set (set (set (set _ 0 _) 0 _) 0 _) 1 _) 1 _) 1 _) 1 _) 1 _) 1 _ t ≠ _
    by_cases h1 : t = 1
    · subst h1; rw [set_same]; simp
    · rw [set_other _ _ h1, set_other _ _ h1, set_other _ _ h1, set_other _ _ h1, set_other _ _ h1, set_other _ _ h1]
      by_cases h0 : t = 0
      · subst h0; rw [set_same]; simp
      · rw [set_other _ _ h0, set_other _ _ h0, set_other _ _ h0]
        show Pc.idle ≠ _
        simp))
  have r11 := Steps.tail r10 (Step.sleep _ 0 none rfl)
  refine ⟨_, r11, rfl, ?_, ?_⟩
  · refine ⟨[(0, v)], Seg.cons 0 1 1 v [] rfl (Seg.nil 1), ?_, rfl⟩
    intro p hp
    simp only [List.mem_singleton] at hp
    subst hp
    show (0 : Nat) ≠ 1
    simp
  · intro t h0
    show set (set (set (set (set (set (set (set (set (set (set _ 0 _) 0 _) 0 _) 1 _) 1 _) 1 _) 1 _) 1 _) 1 _) 1 _) 0 _ t = _
    rw [set_other _ _ h0]
    by_cases h1 : t = 1
    · subst h1; rw [set_same]
    · rw [set_other _ _ h1, set_other _ _ h1, set_other _ _ h1, set_other _ _ h1, set_other _ _ h1, set_other _ _ h1,
        set_other _ _ h1, set_other _ _ h0, set_other _ _ h0, set_other _ _ h0]
      rfl

/-! ## C24: deadlines -/

/-- **C24.** A pop returns null only if it has a deadline and the deadline has passed. -/
theorem queue_null_after_deadline {C : Nat → Prop} {s : QState V} (h : Reachable C s) {d : Option Nat} {n : Nat}
    (hn : (d, n) ∈ s.nulls) : ∃ x, d = some x ∧ x ≤ n :=
  (reachable_dinv h).nulls d n hn

/-- **C24.** A pop decides to return null only in a state where the queue is empty. -/
theorem queue_null_only_if_empty {C : Nat → Prop} {s s' : QState V} (h : Reachable C s) (hst : Step C s s') {t : Nat}
    {d : Option Nat} (hp : s.pc t ≠ .popNull d) (hp' : s'.pc t = .popNull d) :
    Contents s [] ∧ ∃ x, d = some x ∧ x ≤ s.now := by
  obtain ⟨vs, hv, _, hem⟩ := queue_contents h
  have hr' : Reachable C s' := Steps.tail h hst
  have other : ∀ {u : Nat} {p : Pc V}, s'.pc = set s.pc u p → p ≠ .popNull d → False := by
    intro u p h1 h2
    rw [h1] at hp'
    by_cases htu : t = u
    · subst htu; rw [set_same] at hp'; exact h2 hp'
    · rw [set_other _ _ htu] at hp'; exact hp hp'
  cases hst with
  | finalEmpty u d' late hpu hf he =>
    by_cases htu : t = u
    · subst htu
      change set s.pc t _ t = _ at hp'
      rw [set_same] at hp'
      simp only [Pc.popNull.injEq] at hp'
      subst hp'
      rw [he] at hem
      have : vs = [] := List.isEmpty_iff.mp hem.symm
      refine ⟨this ▸ hv, (reachable_dinv hr').nulls d' s.now ?_⟩
      show _ ∈ s.nulls ++ [_]
      simp
    · change set s.pc u _ t = _ at hp'
      rw [set_other _ _ htu] at hp'
      exact absurd hp' hp
  | notifyOne u u' dl e hp1 hs1 =>
    change set (set s.pc u _) u' _ t = _ at hp'
    by_cases h1 : t = u'
    · subst h1; rw [set_same] at hp'; simp at hp'
    · rw [set_other _ _ h1] at hp'
      by_cases h2 : t = u
      · subst h2; rw [set_same] at hp'; simp at hp'
      · rw [set_other _ _ h2] at hp'; exact absurd hp' hp
  | tick => exact absurd hp' hp
  | checkFull t dl hp hf he => exact (other (u := t) rfl (by split <;> simp)).elim
  | push t v n hp hn => exact (other (u := t) rfl (by simp)).elim
  | pushLock t v n hp hf => exact (other (u := t) rfl (by simp)).elim
  | pushData t v n x hp hx => exact (other (u := t) rfl (by simp)).elim
  | pushNext t v n x hp hx => exact (other (u := t) rfl (by simp)).elim
  | pushTail t v n hp => exact (other (u := t) rfl (by simp)).elim
  | pushUnlock t hp => exact (other (u := t) rfl (by simp)).elim
  | notifyNone t hp hs => exact (other (u := t) rfl (by simp)).elim
  | pop t dl hp hc => exact (other (u := t) rfl (by simp)).elim
  | popLock t dl hp hf => exact (other (u := t) rfl (by simp)).elim
  | checkEmpty t dl hp hf he => exact (other (u := t) rfl (by simp)).elim
  | sleep t dl hp => exact (other (u := t) rfl (by simp)).elim
  | spurious t dl e hp => exact (other (u := t) rfl (by simp)).elim
  | deadline t d e hp hd => exact (other (u := t) rfl (by simp)).elim
  | popLate t d hp hf => exact (other (u := t) rfl (by simp)).elim
  | finalFull t d l hp hf he => exact (other (u := t) rfl (by simp)).elim
  | popNull t d hp => exact (other (u := t) rfl (by simp)).elim
  | popTake t x m hp hx hm => exact (other (u := t) rfl (by simp)).elim
  | popUnlock t o k v hp => exact (other (u := t) rfl (by simp)).elim
  | popRead t o k v x hp hx => exact (other (u := t) rfl (by simp)).elim

/-- **C24.** Once its deadline has passed, a timed wait does not stay asleep: it can wake up by itself. -/
theorem queue_deadline_wakes {C : Nat → Prop} {s : QState V} {t d : Nat} {e : Bool} (hs : s.pc t = .asleep (some d) e)
    (hd : d ≤ s.now) : ∃ s', Step C s s' ∧ s'.pc t = .popLate d :=
  ⟨_, Step.deadline s t d e hs hd, by show set s.pc t _ t = _; rw [set_same]⟩

end QCEC.Props
