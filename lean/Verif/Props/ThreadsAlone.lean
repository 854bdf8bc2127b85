import Verif.Props.ProcessThreads
/-!
# C83: apart from the tolerance, threads do not influence one another

Whatever the other threads do in between, a thread's managers have the configurations they would have if the thread had run alone.
-/
namespace QCEC.Props
open QCEC QCEC.Prep QCEC.Proc QCEC.Spec.Proc

variable {α : Type} {acts : α → Nat → Bool} {P : Passes (Circ α)}

/-- Each thread has its own managers, and they are as if it had run alone. -/
structure Apart (acts : α → Nat → Bool) (P : Passes (Circ α)) (tol : Rat) (programs : List (List (Call α))) (s : Threads α) : Prop where
  alone : ∀ (t : Nat) (th : Thread α), s.threads[t]? = some th → ∃ done q, programs[t]? = some (done ++ th.todo) ∧
    exec acts P { tolerance := tol } done = some q ∧ q.managers.map some = th.own.map fun i => s.proc.managers[i]?
  nodup : ∀ (t : Nat) (th : Thread α), s.threads[t]? = some th → th.own.Nodup
  disjoint : ∀ (t t' : Nat) (th th' : Thread α) (i : Nat), s.threads[t]? = some th → s.threads[t']? = some th' → i ∈ th.own → i ∈ th'.own → t = t'
  covered : ∀ i, i < s.proc.managers.length → ∃ (t : Nat) (th : Thread α), s.threads[t]? = some th ∧ i ∈ th.own
  running : ∀ (t : Nat) (th : Thread α) (i : Nat), s.threads[t]? = some th → th.running = some i → i ∈ th.own

theorem Apart.bound {tol : Rat} {programs : List (List (Call α))} {s : Threads α} (h : Apart acts P tol programs s) {t : Nat} {th : Thread α}
    (ht : s.threads[t]? = some th) {i : Nat} (hi : i ∈ th.own) : i < s.proc.managers.length := by
  obtain ⟨_, q, _, _, hq⟩ := h.alone t th ht
  have : s.proc.managers[i]? ∈ q.managers.map some := by rw [hq]; exact List.mem_map.mpr ⟨i, hi, rfl⟩
  obtain ⟨c, _, hc⟩ := List.mem_map.mp this
  exact (List.getElem?_eq_some_iff.mp hc.symm).1

/-- One thread makes a step; it may get managers that nobody else has. -/
theorem Apart.update {tol : Rat} {programs : List (List (Call α))} {s : Threads α} (h : Apart acts P tol programs s) {t : Nat} {th : Thread α}
    (ht : s.threads[t]? = some th) (p' : Process) (th' : Thread α) (hlen : s.proc.managers.length ≤ p'.managers.length)
    (hother : ∀ i, i < s.proc.managers.length → i ∉ th.own → p'.managers[i]? = s.proc.managers[i]?)
    (hnodup : th'.own.Nodup) (hkeep : ∀ i ∈ th.own, i ∈ th'.own) (hnew : ∀ i ∈ th'.own, i ∈ th.own ∨ s.proc.managers.length ≤ i)
    (hall : ∀ i, s.proc.managers.length ≤ i → i < p'.managers.length → i ∈ th'.own) (hrun : ∀ i, th'.running = some i → i ∈ th'.own)
    (halone : ∃ done q, programs[t]? = some (done ++ th'.todo) ∧ exec acts P { tolerance := tol } done = some q ∧
      q.managers.map some = th'.own.map fun i => p'.managers[i]?) : Apart acts P tol programs ⟨p', s.threads.set t th'⟩ := by
  have hl : t < s.threads.length := (List.getElem?_eq_some_iff.mp ht).1
  have get : ∀ (u : Nat) (x : Thread α), (s.threads.set t th')[u]? = some x → (u = t ∧ x = th') ∨ (u ≠ t ∧ s.threads[u]? = some x) := by
    intro u x hx
    by_cases e : u = t
    · subst e
      rw [List.getElem?_set_self hl] at hx
      exact Or.inl ⟨rfl, (Option.some.inj hx).symm⟩
    · rw [List.getElem?_set_ne (Ne.symm e)] at hx
      exact Or.inr ⟨e, hx⟩
  have out : ∀ (u : Nat) (x : Thread α), u ≠ t → s.threads[u]? = some x → ∀ i ∈ x.own, i ∉ th'.own := by
    intro u x hu hx i hi hi'
    rcases hnew i hi' with hm | hm
    · exact hu (h.disjoint u t x th i hx ht hi hm)
    · exact absurd (h.bound hx hi) (by omega)
  refine ⟨fun u x hx => ?_, fun u x hx => ?_, fun u u' x x' i hx hx' hi hi' => ?_, fun i hi => ?_, fun u x i hx hr => ?_⟩
  · rcases get u x hx with ⟨rfl, rfl⟩ | ⟨hu, hx⟩
    · exact halone
    · obtain ⟨done, q, h1, h2, h3⟩ := h.alone u x hx
      refine ⟨done, q, h1, h2, h3.trans (List.map_congr_left fun i hi => ?_)⟩
      exact (hother i (h.bound hx hi) fun hm => hu (h.disjoint u t x th i hx ht hi hm)).symm
  · rcases get u x hx with ⟨rfl, rfl⟩ | ⟨_, hx⟩
    · exact hnodup
    · exact h.nodup u x hx
  · rcases get u x hx with ⟨e1, e2⟩ | ⟨hu, hy⟩ <;> rcases get u' x' hx' with ⟨e1', e2'⟩ | ⟨hu', hy'⟩
    · rw [e1, e1']
    · exact absurd (e2 ▸ hi) (out u' x' hu' hy' i hi')
    · exact absurd (e2' ▸ hi') (out u x hu hy i hi)
    · exact h.disjoint u u' x x' i hy hy' hi hi'
  · by_cases hlt : i < s.proc.managers.length
    · obtain ⟨u, x, hx, hm⟩ := h.covered i hlt
      by_cases e : u = t
      · subst e
        rw [ht] at hx
        cases hx
        exact ⟨u, th', List.getElem?_set_self hl, hkeep i hm⟩
      · exact ⟨u, x, by rw [List.getElem?_set_ne (Ne.symm e)]; exact hx, hm⟩
    · exact ⟨t, th', List.getElem?_set_self hl, hall i (by omega) hi⟩
  · rcases get u x hx with ⟨rfl, rfl⟩ | ⟨_, hx⟩
    · exact hrun i hr
    · exact h.running u x i hx hr

theorem apart_step {tol : Rat} {programs : List (List (Call α))} {s s' : Threads α} (h : Apart acts P tol programs s) (st : TStep acts P s s') :
    Apart acts P tol programs s' := by
  cases st with
  | construct t th cfg q1 q2 rest m p' ht hr htodo hm hs =>
    obtain ⟨done, q, h1, h2, h3⟩ := h.alone t th ht
    simp only [step, hm, Option.some.injEq] at hs
    subst hs
    refine h.update ht _ _ (by simp) (fun i hi _ => by rw [List.getElem?_append_left hi]) ?_ (fun i hi => by simp [hi]) ?_ ?_ ?_ ?_
    · refine List.nodup_append.mpr ⟨h.nodup t th ht, by simp, fun a ha b hb e => ?_⟩
      have := h.bound ht ha
      rw [List.mem_singleton] at hb
      omega
    · intro i hi
      rw [List.mem_append, List.mem_singleton] at hi
      rcases hi with hi | rfl
      · exact Or.inl hi
      · exact Or.inr (Nat.le_refl _)
    · intro i h1 h2
      simp only [List.length_append, List.length_cons, List.length_nil] at h2
      rw [List.mem_append, List.mem_singleton]
      right; omega
    · intro i hi
      rw [hr] at hi; cases hi
    · refine ⟨done ++ [.construct cfg q1 q2], { tolerance := cfg.execution.numericalTolerance, managers := q.managers ++ [m.cfg] }, ?_, ?_, ?_⟩
      · rw [h1, htodo]; simp
      · rw [exec_append h2]
        exact exec_one (by simp only [step, hm])
      · simp only [List.map_append, List.map_cons, List.map_nil, List.getElem?_concat_length]
        rw [h3]
        congr 1
        exact List.map_congr_left fun i hi => (List.getElem?_append_left (h.bound ht hi)).symm
  | throw t th cfg q1 q2 rest e p' ht hr htodo hm hs =>
    obtain ⟨done, q, h1, h2, h3⟩ := h.alone t th ht
    simp only [step, hm, Option.some.injEq] at hs
    subst hs
    refine h.update ht _ _ (Nat.le_refl _) (fun i _ _ => rfl) (h.nodup t th ht) (fun i hi => hi) (fun i hi => Or.inl hi) (fun i h1 h2 => absurd h2 (by simp only; omega))
      (fun i hi => by rw [hr] at hi; cases hi) ?_
    refine ⟨done ++ [.construct cfg q1 q2], { q with tolerance := cfg.execution.numericalTolerance }, ?_, ?_, h3⟩
    · rw [h1, htodo]; simp
    · rw [exec_append h2]
      exact exec_one (by simp only [step, hm])
  | set t th k i x rest p' ht hr htodo hk hs =>
    obtain ⟨done, q, h1, h2, h3⟩ := h.alone t th ht
    have hi : i ∈ th.own := List.mem_of_getElem? hk
    have hb := h.bound ht hi
    have hq : q.managers[k]? = s.proc.managers[i]? := by
      have := congrArg (fun l => l[k]?) h3
      simp only [List.getElem?_map, hk, Option.map_some] at this
      cases e : q.managers[k]? with
      | none => rw [e] at this; cases this
      | some c => rw [e] at this; exact Option.some.inj this
    simp only [step] at hs
    obtain ⟨c, hc⟩ : ∃ c, s.proc.managers[i]? = some c := ⟨_, List.getElem?_eq_getElem hb⟩
    rw [hc] at hs hq
    simp only [Option.some.injEq] at hs
    subst hs
    refine h.update ht _ _ (by simp) (fun j _ hj => ?_) (h.nodup t th ht) (fun i hi => hi) (fun i hi => Or.inl hi)
      (fun i h1 h2 => absurd h2 (by simp only [List.length_set]; omega)) (fun i hi => by rw [hr] at hi; cases hi) ?_
    · exact List.getElem?_set_ne (by rintro rfl; exact hj hi)
    · refine ⟨done ++ [.set k x], { tolerance := Setter.onPackage q.tolerance x, managers := q.managers.set k (x.apply c) }, ?_, ?_, ?_⟩
      · rw [h1, htodo]; simp
      · rw [exec_append h2]
        exact exec_one (by simp only [step, hq])
      · have hkl : k < th.own.length := (List.getElem?_eq_some_iff.mp hk).1
        have hkv : th.own[k] = i := (List.getElem?_eq_some_iff.mp hk).2
        refine List.ext_getElem? fun j => ?_
        rw [List.map_set, h3, List.getElem?_map]
        by_cases e : k = j
        · subst e
          rw [List.getElem?_set_self (by simpa using hkl), hk, Option.map_some, List.getElem?_set_self hb]
        · rw [List.getElem?_set_ne e, List.getElem?_map]
          cases ej : th.own[j]? with
          | none => rfl
          | some v =>
            have hne : i ≠ v := by
              intro hv
              have hjl := (List.getElem?_eq_some_iff.mp ej).1
              have hjv := (List.getElem?_eq_some_iff.mp ej).2
              exact e ((List.Nodup.getElem_inj_iff (h.nodup t th ht)).mp (by rw [hkv, hjv, hv]))
            rw [Option.map_some, Option.map_some, List.getElem?_set_ne hne]
  | begin t th k i rest p' ht hr htodo hk hs =>
    obtain ⟨done, q, h1, h2, h3⟩ := h.alone t th ht
    have hi : i ∈ th.own := List.mem_of_getElem? hk
    have hb := h.bound ht hi
    obtain ⟨c, hc⟩ : ∃ c, s.proc.managers[i]? = some c := ⟨_, List.getElem?_eq_getElem hb⟩
    have hq : q.managers[k]? = some c := by
      have := congrArg (fun l => l[k]?) h3
      simp only [List.getElem?_map, hk, Option.map_some, hc] at this
      cases e : q.managers[k]? with
      | none => rw [e] at this; cases this
      | some c => rw [e] at this; exact Option.some.inj this
    simp only [step, hc, Option.some.injEq] at hs
    subst hs
    refine h.update ht _ _ (Nat.le_refl _) (fun i _ _ => rfl) (h.nodup t th ht) (fun i hi => hi) (fun i hi => Or.inl hi)
      (fun i h1 h2 => absurd h2 (by omega)) (fun j hj => by cases hj; exact hi) ?_
    refine ⟨done ++ [.run k], q, ?_, ?_, h3⟩
    · rw [h1, htodo]; simp
    · rw [exec_append h2]
      exact exec_one (by simp only [step, hq])
  | finish t th i ht hr =>
    exact h.update ht _ _ (Nat.le_refl _) (fun i _ _ => rfl) (h.nodup t th ht) (fun i hi => hi) (fun i hi => Or.inl hi)
      (fun i h1 h2 => absurd h2 (by omega)) (fun i hi => by cases hi) (h.alone t th ht)

theorem apart_start (tol : Rat) (programs : List (List (Call α))) : Apart acts P tol programs (.start tol programs) := by
  have own : ∀ (t : Nat) (th : Thread α), (Threads.start tol programs).threads[t]? = some th →
      ∃ l, programs[t]? = some l ∧ th = { todo := l } := by
    intro t th ht
    simp only [Threads.start, List.getElem?_map, Option.map_eq_some_iff] at ht
    obtain ⟨l, hl, rfl⟩ := ht
    exact ⟨l, hl, rfl⟩
  refine ⟨fun t th ht => ?_, fun t th ht => ?_, fun t t' th th' i ht _ hi _ => ?_, fun i hi => ?_, fun t th i ht hr => ?_⟩
  · obtain ⟨l, hl, rfl⟩ := own t th ht
    exact ⟨[], _, hl, rfl, rfl⟩
  · obtain ⟨l, hl, rfl⟩ := own t th ht
    exact List.nodup_nil
  · obtain ⟨l, hl, rfl⟩ := own t th ht
    exact absurd hi (by simp)
  · exact absurd hi (by simp [Threads.start])
  · obtain ⟨l, hl, rfl⟩ := own t th ht
    cases hr

theorem apart_reachable {tol : Rat} {programs : List (List (Call α))} {s : Threads α} (h : TSteps acts P (.start tol programs) s) :
    Apart acts P tol programs s := by
  induction h with
  | refl => exact apart_start tol programs
  | tail _ st ih => exact apart_step ih st

/-- **C83** (nothing but the tolerance is shared): whatever threads do in whatever order, at any time each thread has made a beginning of its program, and if
it had made these calls alone, its managers would have the same configurations. -/
theorem thread_alone {tol : Rat} {programs : List (List (Call α))} {s : Threads α} (h : TSteps acts P (.start tol programs) s) {t : Nat} {th : Thread α}
    (ht : s.threads[t]? = some th) : ∃ done q, programs[t]? = some (done ++ th.todo) ∧ exec acts P { tolerance := tol } done = some q ∧
      q.managers.map some = th.own.map fun i => s.proc.managers[i]? :=
  (apart_reachable h).alone t th ht

/-- **C83** (managers are not shared): every manager belongs to exactly one thread, and only this thread runs it. -/
theorem managers_not_shared {tol : Rat} {programs : List (List (Call α))} {s : Threads α} (h : TSteps acts P (.start tol programs) s) :
    (∀ i, i < s.proc.managers.length → ∃ (t : Nat) (th : Thread α), s.threads[t]? = some th ∧ i ∈ th.own ∧
      ∀ (t' : Nat) (th' : Thread α), s.threads[t']? = some th' → i ∈ th'.own ∨ th'.running = some i → t' = t) ∧
    (∀ (t : Nat) (th : Thread α) (i : Nat), s.threads[t]? = some th → th.running = some i → i < s.proc.managers.length ∧ i ∈ th.own) := by
  have ha := apart_reachable h
  refine ⟨fun i hi => ?_, fun t th i ht hr => ⟨ha.bound ht (ha.running t th i ht hr), ha.running t th i ht hr⟩⟩
  obtain ⟨t, th, ht, hm⟩ := ha.covered i hi
  refine ⟨t, th, ht, hm, fun t' th' ht' h' => ?_⟩
  rcases h' with h' | h'
  · exact ha.disjoint t' t th' th i ht' ht h' hm
  · exact ha.disjoint t' t th' th i ht' ht (ha.running t' th' i ht' h') hm

/-- **C83** (the beginning): until a thread asks for a tolerance, the one the package had at the beginning is in force. -/
theorem concurrent_tolerance_in_force {tol : Rat} {programs : List (List (Call α))} {s : Threads α} (h : TSteps acts P (.start tol programs) s) :
    ∃ l, exec acts P { tolerance := tol } l = some s.proc ∧ s.proc.tolerance = (lastAsked l).getD tol := by
  obtain ⟨l, h1, h2⟩ := concurrent_linearised h
  exact ⟨l, h1, h2⟩

namespace ProcessWitness

/-- `thread_alone` applies to the execution in which another thread changes the tolerance: the first thread's manager still shows its own. -/
theorem alone_case : ∃ s, TSteps all passes (.start 7 [[.construct (tol 5) (circ 2) (circ 2), .run 0], [.construct (tol 3) (circ 2) (circ 2), .run 0]]) s ∧
    ForeignRun s ∧ ∀ (t : Nat) (th : Thread Unit), s.threads[t]? = some th → ∃ done q, exec all passes { tolerance := 7 } done = some q ∧
      q.managers.map some = th.own.map fun i => s.proc.managers[i]? := by
  obtain ⟨s, h1, h2, _⟩ := threads_interfere
  refine ⟨s, h1, h2, fun t th ht => ?_⟩
  obtain ⟨done, q, _, h3, h4⟩ := thread_alone h1 ht
  exact ⟨done, q, h3, h4⟩

end ProcessWitness

end QCEC.Props
