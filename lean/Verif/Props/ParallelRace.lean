import Verif.Props.ParallelWitness
/-!
# Unsynchronised accesses in the parallel flow (C69)

`done` is a plain `bool`, `checkers` a plain vector of pointers, and the verdict of a checker a plain member
(`include/EquivalenceCheckingManager.hpp:258-275`, `include/checker/EquivalenceChecker.hpp:50-52`).  Which of these can be accessed by two
threads at the same time?
-/
namespace QCEC.Props
open QCEC QCEC.Mgr QCEC.Par

/-- The shared variables of the parallel flow that are not protected by anything. -/
inductive Loc
  | done
  /-- the pointer `checkers[i]` -/
  | pointer (i : Nat)
  /-- the verdict stored in the checker `i` -/
  | verdict (i : Nat)
  deriving DecidableEq, Repr

/-- What the next step of worker `i` accesses (`true`: writes), `EquivalenceCheckingManager.hpp:326-348`: it looks at its pointer and may set
it; it reads `done`; it runs the checker, which sets the verdict.  Pushing its id is left to the queue (C22). -/
inductive WorkerAccess (i : Nat) : WPc → Loc → Bool → Prop
  | look : WorkerAccess i .start (.pointer i) false
  | create : WorkerAccess i .start (.pointer i) true
  | done : WorkerAccess i .built .done false
  | call : WorkerAccess i .built (.pointer i) false
  | verdict : WorkerAccess i .running (.verdict i) true

/-- What the next step of the main thread accesses, `EquivalenceCheckingManager.cpp:676-834` and `EquivalenceCheckingManager.hpp:299-306`: a
completed id makes it look at pointer and verdict of this checker and perhaps set `done`, a timeout makes it set `done`, and
`setAndSignalDone` looks at all pointers. -/
inductive MainAccess (s : PState) : Loc → Bool → Prop
  | loop (h : s.main = .wait) : MainAccess s .done false
  | pointer (i : Nat) (q : List Nat) (h : s.main = .wait) (hq : s.queue = i :: q) : MainAccess s (.pointer i) false
  | verdict (i : Nat) (q : List Nat) (h : s.main = .wait) (hq : s.queue = i :: q) : MainAccess s (.verdict i) false
  | stop (i : Nat) (x : Slot) (q : List Nat) (h : s.main = .wait) (hq : s.queue = i :: q) (hx : s.slots[i]? = some x)
      (hf : x.failed = false) (hs : (handle s.cfg s.results x.kind x.eq).2 = .stop) : MainAccess s .done true
  | timeout (h : s.main = .wait) (ht : s.cfg.execution.timeout > 0) : MainAccess s .done true
  | signal (i : Nat) (h : s.main = .signalling i) : MainAccess s (.pointer i) false

/-- Two threads are about to access the same variable, at least one of them to write it. -/
def DataRace (s : PState) : Prop :=
  (∃ (i : Nat) (x : Slot) (l : Loc) (w w' : Bool), s.slots[i]? = some x ∧ WorkerAccess i x.pc l w ∧ MainAccess s l w' ∧ (w || w') = true) ∨
  (∃ (i j : Nat) (x y : Slot) (l : Loc) (w w' : Bool), i ≠ j ∧ s.slots[i]? = some x ∧ s.slots[j]? = some y ∧
    WorkerAccess i x.pc l w ∧ WorkerAccess j y.pc l w' ∧ (w || w') = true)

/-- C69: the list of accesses is complete as far as writes go: whatever a step changes of `done`, of a pointer or of a stored verdict, one of
the threads was about to write. -/
theorem changes_are_accesses {env : ParEnv} {cfg : Configuration} {res : Results} {s s' : PState} (hr : Reachable env cfg res s) (st : Step env s s') :
    (s'.done ≠ s.done → MainAccess s .done true) ∧
    (∀ (i : Nat) (x y : Slot), s.slots[i]? = some x → s'.slots[i]? = some y →
      (y.built ≠ x.built → WorkerAccess i x.pc (.pointer i) true) ∧ (y.eq ≠ x.eq → WorkerAccess i x.pc (.verdict i) true)) := by
  have key : ∀ (k : Nat) (f : Slot → Slot) (z : Slot), s.slots[k]? = some z →
      ((f z).built ≠ z.built → WorkerAccess k z.pc (.pointer k) true) → ((f z).eq ≠ z.eq → WorkerAccess k z.pc (.verdict k) true) →
      ∀ (i : Nat) (x y : Slot), s.slots[i]? = some x → (s.slots.modify k f)[i]? = some y →
      (y.built ≠ x.built → WorkerAccess i x.pc (.pointer i) true) ∧ (y.eq ≠ x.eq → WorkerAccess i x.pc (.verdict i) true) := by
    intro k f z hz h1 h2 i x y hx hy
    obtain ⟨w, hw, rfl⟩ := (getElem?_modify_iff ..).mp hy
    rw [hx] at hw; cases hw
    split
    · rename_i hki; subst hki; rw [hx] at hz; cases hz; exact ⟨h1, h2⟩
    · exact ⟨fun h => absurd rfl h, fun h => absurd rfl h⟩
  have same : ∀ (i : Nat) (x y : Slot), s.slots[i]? = some x → s.slots[i]? = some y →
      (y.built ≠ x.built → WorkerAccess i x.pc (.pointer i) true) ∧ (y.eq ≠ x.eq → WorkerAccess i x.pc (.verdict i) true) := by
    intro i x y hx hy
    rw [hx] at hy; cases hy
    exact ⟨fun h => absurd rfl h, fun h => absurd rfl h⟩
  cases st with
  | construct k z hz hp hm => exact ⟨fun h => absurd rfl h, key k _ z hz (fun _ => hp ▸ .create) (fun h => absurd rfl h)⟩
  | constructThrows k z hz hp hb ht hzz hm => exact ⟨fun h => absurd rfl h, key k _ z hz (fun h => absurd rfl h) (fun h => absurd rfl h)⟩
  | constructTerminates k z hz hp hb ht hzz hm => exact ⟨fun h => absurd rfl h, same⟩
  | stimulusThrows k z hz hp hk ht hm => exact ⟨fun h => absurd rfl h, key k _ z hz (fun _ => hp ▸ .create) (fun h => absurd rfl h)⟩
  | begin k z hz hp hd hm => exact ⟨fun h => absurd rfl h, key k _ z hz (fun h => absurd rfl h) (fun h => absurd rfl h)⟩
  | skip k z hz hp hd hm => exact ⟨fun h => absurd rfl h, key k _ z hz (fun h => absurd rfl h) (fun h => absurd rfl h)⟩
  | runReturns k z c hz hp hc hm => exact ⟨fun h => absurd rfl h, key k _ z hz (fun h => absurd rfl h) (fun _ => hp ▸ .verdict)⟩
  | runThrows k z hz hp ht hm => exact ⟨fun h => absurd rfl h, key k _ z hz (fun h => absurd rfl h) (fun h => absurd rfl h)⟩
  | push k z hz hp hm => exact ⟨fun h => absurd rfl h, key k _ z hz (fun h => absurd rfl h) (fun h => absurd rfl h)⟩
  | pop k z q hm hq hz hf =>
    refine ⟨fun h => ?_, key k _ z hz (fun h => absurd rfl h) (fun h => absurd rfl h)⟩
    by_cases hs : (handle s.cfg s.results z.kind z.eq).2 = .stop
    · exact .stop k z q hm hq hz hf hs
    · exfalso; apply h
      rw [(reachable_base hr).ctl.wait hm]
      simp [PState.popped, hs]
  | popThrows k z q hm hq hz hf => exact ⟨fun h => absurd rfl h, key k _ z hz (fun h => absurd rfl h) (fun h => absurd rfl h)⟩
  | timeout hm ht => exact ⟨fun _ => .timeout hm ht, same⟩
  | signal k z hm hz => exact ⟨fun h => absurd rfl h, key k _ z hz (fun h => absurd rfl h) (fun h => absurd rfl h)⟩
  | signalledAll k hm hk => exact ⟨fun h => absurd rfl h, same⟩
  | join hm hf => exact ⟨fun h => absurd rfl h, same⟩
  | unwind hm hf => exact ⟨fun h => absurd rfl h, same⟩

/-- C69: workers never race with each other, and handling a completed checker never races with the worker that ran it. -/
theorem no_race_on_results {env : ParEnv} {cfg : Configuration} {res : Results} {s : PState} (h : Reachable env cfg res s) :
    (¬ ∃ (i j : Nat) (x y : Slot) (l : Loc) (w w' : Bool), i ≠ j ∧ s.slots[i]? = some x ∧ s.slots[j]? = some y ∧
      WorkerAccess i x.pc l w ∧ WorkerAccess j y.pc l w' ∧ (w || w') = true) ∧
    (∀ i q x l w, s.main = .wait → s.queue = i :: q → s.slots[i]? = some x → ¬ WorkerAccess i x.pc l w) := by
  constructor
  · rintro ⟨i, j, x, y, l, w, w', hij, hx, hy, h1, h2, hw⟩
    generalize x.pc = p at h1
    generalize y.pc = q at h2
    cases h1 <;> cases h2 <;> simp_all
  · intro i q x l w hm hq hx ha
    rw [(reachable_base h).head hx hq] at ha
    cases ha

/-- C69: exactly two accesses can race: the main thread sets `done` while a worker with a checker is about to read it, and the main thread
looks at the pointer of a worker that is about to create its checker. -/
theorem race_iff {env : ParEnv} {cfg : Configuration} {res : Results} {s : PState} (h : Reachable env cfg res s) :
    DataRace s ↔
      (∃ (i : Nat) (x : Slot), s.slots[i]? = some x ∧ x.pc = .built ∧ MainAccess s .done true) ∨
      (∃ (i : Nat) (x : Slot), s.slots[i]? = some x ∧ x.pc = .start ∧ s.main = .signalling i) := by
  obtain ⟨n1, n2⟩ := no_race_on_results h
  constructor
  · rintro (⟨i, x, l, w, w', hx, h1, h2, hw⟩ | hr)
    · cases h2 with
      | loop hm =>
        generalize hp : x.pc = p at h1
        cases h1; simp at hw
      | pointer k q hm hq =>
        have hki : k = i := by
          generalize hp : x.pc = p at h1
          cases h1 <;> rfl
        subst hki
        exact absurd h1 (n2 k q x _ _ hm hq hx)
      | verdict k q hm hq =>
        have hki : k = i := by
          generalize hp : x.pc = p at h1
          cases h1 <;> rfl
        subst hki
        exact absurd h1 (n2 k q x _ _ hm hq hx)
      | stop k y q hm hq hy hf hs =>
        left
        refine ⟨i, x, hx, ?_, .stop k y q hm hq hy hf hs⟩
        generalize hp : x.pc = p at h1
        cases h1; rfl
      | timeout hm ht =>
        left
        refine ⟨i, x, hx, ?_, .timeout hm ht⟩
        generalize hp : x.pc = p at h1
        cases h1; rfl
      | signal k hm =>
        right
        generalize hp : x.pc = p at h1
        cases h1 with
        | look => exact ⟨i, x, hx, hp, hm⟩
        | create => exact ⟨i, x, hx, hp, hm⟩
        | call => simp at hw
    · exact absurd hr n1
  · rintro (⟨i, x, hx, hp, hm⟩ | ⟨i, x, hx, hp, hm⟩)
    · exact .inl ⟨i, x, .done, false, true, hx, hp ▸ .done, hm, rfl⟩
    · exact .inl ⟨i, x, .pointer i, true, false, hx, hp ▸ .create, .signal i hm, rfl⟩

/-- C69: both races can happen in every parallel run with a timeout that starts a worker, whatever the checkers answer. -/
theorem parallel_can_race (env : ParEnv) {cfg : Configuration} (res : Results) (ht : cfg.execution.timeout > 0)
    (hm : (launch env.zxTransformable cfg res).main = .wait) (hk : launchKinds env.zxTransformable cfg ≠ []) :
    (∃ s, Reachable env cfg res s ∧ ∃ (i : Nat) (x : Slot), s.slots[i]? = some x ∧ x.pc = .start ∧ s.main = .signalling i) ∧
    (∃ s, Reachable env cfg res s ∧ ∃ (i : Nat) (x : Slot), s.slots[i]? = some x ∧ x.pc = .built ∧ MainAccess s .done true) := by
  have hcfg : (launch env.zxTransformable cfg res).cfg.execution.timeout > 0 := by
    show (launchCfg env.zxTransformable cfg).execution.timeout > 0
    rw [(launch_flags env.zxTransformable cfg).2.2]; exact ht
  obtain ⟨k, ks, hks⟩ := List.exists_cons_of_ne_nil hk
  have hx : (launch env.zxTransformable cfg res).slots[0]? = some { kind := k } := by
    simp [launch, hks]
  constructor
  · exact ⟨_, .tail (.refl _) (.timeout _ hm hcfg), 0, _, hx, rfl, rfl⟩
  · refine ⟨_, .tail (.refl _) (.construct _ 0 _ hx rfl (by simp [hm])), 0, { kind := k, pc := .built, built := true }, ?_, rfl, .timeout hm hcfg⟩
    refine (getElem?_modify_iff ..).mpr ⟨_, hx, ?_⟩
    simp

/-- C69: without a timeout as well: the alternating checker has finished and the main thread signals the simulation, which is only now
looking for its checker; and it decides while the simulation reads `done`. -/
theorem parallel_races_without_timeout :
    (∃ s, Reachable (listEnv (answering .equivalent .equivalent .equivalent) fun _ => false) (parCfg true true false false 1 2 0) {} s ∧
      DataRace s ∧ s.main = .signalling 1) ∧
    (∃ s, Reachable (listEnv (answering .equivalent .equivalent .equivalent) fun _ => false) (parCfg true true false false 1 2 0) {} s ∧
      DataRace s ∧ s.main = .wait) := by
  constructor
  · obtain ⟨s, hs, hv⟩ := exists_of_view (answers := answering .equivalent .equivalent .equivalent) (throws := fun _ => false)
      (cfg := parCfg true true false false 1 2 0) (full 0 .equivalent ++ [.signal])
      (v := (.signalling 1, .equivalent, [⟨.alternating, .equivalent⟩], [.idle, .start], 0)) rfl
    simp only [view, Prod.mk.injEq] at hv
    obtain ⟨h1, _, _, h2, _⟩ := hv
    refine ⟨s, hs, (race_iff hs).2 (.inr ?_), h1⟩
    have : (s.slots.map (·.pc))[1]? = some .start := by rw [h2]; rfl
    rw [List.getElem?_map, Option.map_eq_some_iff] at this
    obtain ⟨x, hx, hp⟩ := this
    exact ⟨1, x, hx, hp, h1⟩
  · have hs : ∃ s, execAll (answering .equivalent .equivalent .equivalent) (fun _ => false) (launch true (parCfg true true false false 1 2 0) {})
        [.construct 0, .begin 0, .runReturns 0 .equivalent, .push 0, .construct 1] = some s ∧ s.main = .wait ∧ s.queue = [0] ∧
        (∃ x, s.slots[0]? = some x ∧ x.failed = false ∧ (handle s.cfg s.results x.kind x.eq).2 = .stop) ∧
        ∃ x, s.slots[1]? = some x ∧ x.pc = .built := ⟨_, rfl, rfl, rfl, ⟨_, rfl, rfl, rfl⟩, ⟨_, rfl, rfl⟩⟩
    obtain ⟨s, h1, h2, h3, ⟨x, h4, h5, h6⟩, ⟨y, h7, h8⟩⟩ := hs
    have hr : Reachable (listEnv (answering .equivalent .equivalent .equivalent) fun _ => false) (parCfg true true false false 1 2 0) {} s :=
      execAll_steps _ h1
    exact ⟨s, hr, (race_iff hr).2 (.inl ⟨1, y, h7, h8, .stop 0 x [] h2 h3 h4 h5 h6⟩), h2⟩

end QCEC.Props
