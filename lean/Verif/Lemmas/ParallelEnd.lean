import Verif.Lemmas.ParallelCount
/-!
# Invariants of the parallel flow: termination, exceptions, signalling
-/
namespace QCEC.Par
open QCEC QCEC.Mgr QCEC.Spec

/-! ## Every execution is finite -/

/-- Steps left in a worker. -/
def pcWeight : WPc → Nat
  | .start => 6
  | .built => 5
  | .running => 4
  | .pushing => 3
  | .queued => 2
  | .idle => 0

/-- Steps left in the main thread. -/
def mainWeight (n : Nat) : MPc → Nat
  | .wait => n + 4
  | .signalling i => n - i + 2
  | .joining => 1
  | .unwinding => 1
  | .ended _ => 0

/-- A bound on the number of steps left. -/
def measureOf (s : PState) : Nat :=
  (s.slots.map fun x => pcWeight x.pc).sum + 10 * (s.cfg.simulation.maxSims - s.results.startedSimulations) +
  mainWeight s.slots.length s.main

theorem worker_decreases {s s' : PState} {i : Nat} {x : Slot} (hx : s.slots[i]? = some x) (f : Slot → Slot)
    (hlt : pcWeight (f x).pc < pcWeight x.pc) (h1 : s'.slots = s.slots.modify i f) (h2 : s'.cfg = s.cfg)
    (h3 : s'.results = s.results) (h4 : s'.main = s.main) : measureOf s' < measureOf s := by
  unfold measureOf
  rw [h1, h2, h3, h4, List.length_modify]
  have := sum_modify_le (w := fun y => pcWeight y.pc) (f := f) hx rfl rfl
  omega

theorem mainWeight_pos {n : Nat} {m : MPc} (h : ∀ e, m ≠ .ended e) : 0 < mainWeight n m := by
  cases m <;> simp [mainWeight] at *

theorem step_decreases {env : ParEnv} {cfg : Configuration} {s s' : PState} (hb : Base env cfg s) (hst : Step env s s') :
    measureOf s' < measureOf s := by
  cases hst with
  | construct i x hx hp hm => exact worker_decreases hx _ (by simp [hp, pcWeight]) rfl rfl rfl rfl
  | constructThrows i x hx hp hb ht hz hm => exact worker_decreases hx _ (by simp [hp, pcWeight]) rfl rfl rfl rfl
  | constructTerminates i x hx hp hb ht hz hm =>
    have := mainWeight_pos (n := s.slots.length) hm
    have h0 : mainWeight s.slots.length (.ended .terminated) = 0 := rfl
    unfold measureOf
    dsimp only
    omega
  | stimulusThrows i x hx hp hk ht hm => exact worker_decreases hx _ (by simp [hp, pcWeight]) rfl rfl rfl rfl
  | begin i x hx hp hd hm => exact worker_decreases hx _ (by simp [hp, pcWeight]) rfl rfl rfl rfl
  | skip i x hx hp hd hm => exact worker_decreases hx _ (by simp [hp, pcWeight]) rfl rfl rfl rfl
  | runReturns i x c hx hp hc hm => exact worker_decreases hx _ (by simp [hp, pcWeight]) rfl rfl rfl rfl
  | runThrows i x hx hp ht hm => exact worker_decreases hx _ (by simp [hp, pcWeight]) rfl rfl rfl rfl
  | push i x hx hp hm => exact worker_decreases hx _ (by simp [hp, pcWeight]) rfl rfl rfl rfl
  | pop i x q hm hq hx hf =>
    have hpc := hb.head hx hq
    have hs := handle_started s.cfg s.results x.kind x.eq
    have hmw : mainWeight s.slots.length (s.popped i x q).main ≤ mainWeight s.slots.length s.main := by
      rw [hm]
      unfold PState.popped
      simp only
      split <;> simp [mainWeight]
    have hlen : (s.popped i x q).slots.length = s.slots.length := by simp [PState.popped]
    unfold measureOf
    rw [hlen]
    have hsum := sum_modify_le (w := fun y => pcWeight y.pc) (a := 2)
      (f := fun y => { y with pc := if (handle s.cfg s.results x.kind x.eq).2 = .relaunch then .start else .idle }) hx
      (by simp [hpc, pcWeight]) rfl
    have hst : (s.popped i x q).results.startedSimulations = (handle s.cfg s.results x.kind x.eq).1.startedSimulations := rfl
    have hcf : (s.popped i x q).cfg = s.cfg := rfl
    have hsl : (s.popped i x q).slots = s.slots.modify i
      (fun y => { y with pc := if (handle s.cfg s.results x.kind x.eq).2 = .relaunch then .start else .idle }) := rfl
    rw [hst, hcf, hsl]
    rcases hs with ⟨hr, hs⟩ | ⟨hr, hs⟩
    · have hlt := (handle_relaunch hr).2
      simp only [hr, if_true, pcWeight] at hsum ⊢
      rw [hs]
      omega
    · simp only [if_neg hr, pcWeight] at hsum ⊢
      rw [hs]
      omega
  | popThrows i x q hm hq hx hf =>
    have hpc := hb.head hx hq
    have hsum := sum_modify_le (w := fun y => pcWeight y.pc) (a := 2) (b := 0) (f := fun y => { y with pc := .idle }) hx
      (by simp [hpc, pcWeight]) (by simp [pcWeight])
    unfold measureOf PState.upd
    rw [hm]
    simp only [mainWeight, List.length_modify]
    omega
  | timeout hm ht =>
    unfold measureOf
    rw [hm]
    simp only [mainWeight]
    omega
  | signal i x hm hx =>
    have hsum := sum_modify_le (w := fun y => pcWeight y.pc)
      (f := fun y => { y with signalled := y.signalled || y.built }) hx rfl rfl
    have hlt : i < s.slots.length := by
      by_contra hge
      rw [List.getElem?_eq_none (by omega)] at hx
      simp at hx
    unfold measureOf PState.upd
    rw [hm]
    simp only [mainWeight, List.length_modify]
    dsimp only at hsum
    omega
  | signalledAll i hm hi =>
    unfold measureOf
    rw [hm]
    simp only [mainWeight]
    omega
  | join hm hf =>
    unfold measureOf
    rw [hm]
    simp only [mainWeight]
    omega
  | unwind hm hf =>
    unfold measureOf
    rw [hm]
    simp only [mainWeight]
    omega

/-! ## Where an execution can stop -/

/-- Every check that is running can end. -/
def RunsEnd (env : ParEnv) : Prop := ∀ k, ∃ c, env.may k c

theorem slot_progress {env : ParEnv} (hr : RunsEnd env) {s : PState} (hm : ∀ e, s.main ≠ .ended e) {i : Nat} {x : Slot}
    (hx : s.slots[i]? = some x) (hf : x.finished = false) : ∃ s', Step env s s' := by
  cases hp : x.pc with
  | start => exact ⟨_, .construct s i x hx hp hm⟩
  | built =>
    cases hd : s.done with
    | false => exact ⟨_, .begin s i x hx hp hd hm⟩
    | true => exact ⟨_, .skip s i x hx hp hd hm⟩
  | running =>
    obtain ⟨c, hc⟩ := hr x.kind
    exact ⟨_, .runReturns s i x c hx hp hc hm⟩
  | pushing => exact ⟨_, .push s i x hx hp hm⟩
  | queued => simp [Slot.finished, hp] at hf
  | idle => simp [Slot.finished, hp] at hf

/-- A reachable state without successor is final, or the main thread waits although nothing is left to wait for. -/
theorem stuck_cases {env : ParEnv} {cfg : Configuration} (hr : RunsEnd env) {s : PState} (hb : Base env cfg s)
    (hst : ∀ s', ¬ Step env s s') :
    (∃ e, s.main = .ended e) ∨
    (s.main = .wait ∧ s.queue = [] ∧ ¬ s.cfg.execution.timeout > 0 ∧ ∀ x ∈ s.slots, x.pc = .idle) := by
  by_cases hm : ∀ e, s.main ≠ .ended e
  · right
    have hfin : ∀ x ∈ s.slots, x.finished = true := by
      intro x hx
      cases hf : x.finished with
      | true => rfl
      | false =>
        obtain ⟨i, hi⟩ := List.mem_iff_getElem?.mp hx
        obtain ⟨s', h'⟩ := slot_progress hr hm hi hf
        exact absurd h' (hst s')
    cases hmain : s.main with
    | wait =>
      have hq : s.queue = [] := by
        cases hq : s.queue with
        | nil => rfl
        | cons i q =>
          obtain ⟨x, hx, hp⟩ := (hb.queue i).mp (by rw [hq]; simp)
          cases hf : x.failed with
          | false => exact absurd (Step.pop s i x q hmain hq hx hf) (hst _)
          | true => exact absurd (Step.popThrows s i x q hmain hq hx hf) (hst _)
      refine ⟨rfl, hq, fun ht => hst _ (.timeout s hmain ht), fun x hx => ?_⟩
      have := hfin x hx
      simp only [Slot.finished, Bool.or_eq_true, decide_eq_true_eq] at this
      rcases this with h | h
      · obtain ⟨i, hi⟩ := List.mem_iff_getElem?.mp hx
        have := (hb.queue i).mpr ⟨x, hi, h⟩
        rw [hq] at this
        simp at this
      · exact h
    | signalling i =>
      cases hx : s.slots[i]? with
      | none => exact absurd (Step.signalledAll s i hmain (by rw [List.getElem?_eq_none_iff] at hx; exact hx)) (hst _)
      | some x => exact absurd (Step.signal s i x hmain hx) (hst _)
    | joining => exact absurd (Step.join s hmain hfin) (hst _)
    | unwinding => exact absurd (Step.unwind s hmain hfin) (hst _)
    | ended e => exact absurd hmain (hm e)
  · left
    by_contra hne
    exact hm fun e he => hne ⟨e, he⟩

/-! ## Exceptions -/

/-- Exceptions: a failed check whose id was taken makes the run throw, and only that does. -/
structure EInv (env : ParEnv) (s : PState) : Prop where
  rethrown : s.main = .unwinding ∨ s.main = .ended .threw → ∃ x ∈ s.slots, x.pc = .idle ∧ x.failed = true
  clean : s.main = .wait ∨ (∃ i, s.main = .signalling i) ∨ s.main = .joining ∨ s.main = .ended .returned →
    ∀ x ∈ s.slots, x.pc = .idle → x.failed = false
  cause : ∀ x ∈ s.slots, x.failed = true → env.ctorMayThrow x.kind ∨ env.runMayThrow x.kind
  table : (∀ k, ¬ env.ctorMayThrow k) → ∀ x ∈ s.slots, x.pc ≠ .start → x.built = true
  died : s.main = .ended .terminated → env.ctorMayThrow .zx
  over : (∃ e, s.main = .ended e) → s.main ≠ .ended .terminated → s.main = .ended .undefinedBehaviour ∨
    ∀ x ∈ s.slots, x.finished = true

theorem exists_modify {α : Type} {l : List α} {i : Nat} {f : α → α} {P : α → Prop} {x : α} (hx : l[i]? = some x)
    (h : ∃ y ∈ l, P y) (hf : P x → P (f x)) : ∃ y ∈ l.modify i f, P y := by
  obtain ⟨y, hy, hp⟩ := h
  obtain ⟨j, hj⟩ := List.mem_iff_getElem?.mp hy
  refine ⟨if i = j then f y else y, List.mem_iff_getElem?.mpr ⟨j, (getElem?_modify_iff ..).mpr ⟨y, hj, rfl⟩⟩, ?_⟩
  split
  · rename_i hij; subst hij; rw [hx] at hj; cases hj; exact hf hp
  · exact hp

theorem launch_einv (env : ParEnv) (cfg : Configuration) (res : Results) : EInv env (launch env.zxTransformable cfg res) := by
  have hall : ∀ x ∈ (launch env.zxTransformable cfg res).slots, x.pc = .start ∧ x.failed = false := by
    intro x hx
    simp only [launch, List.mem_map] at hx
    obtain ⟨k, _, rfl⟩ := hx
    exact ⟨rfl, rfl⟩
  have hmain : (launch env.zxTransformable cfg res).main = .ended .undefinedBehaviour ∨
      (launch env.zxTransformable cfg res).main = .joining ∨ (launch env.zxTransformable cfg res).main = .wait := by
    unfold launch
    simp only
    split
    · exact Or.inl rfl
    · split
      · exact Or.inr (Or.inl rfl)
      · exact Or.inr (Or.inr rfl)
  refine ⟨?_, ?_, ?_, ?_, ?_, ?_⟩
  · rintro (h | h) <;> rw [h] at hmain <;> simp at hmain
  · intro _ x hx _; exact (hall x hx).2
  · intro x hx h; rw [(hall x hx).2] at h; simp at h
  · intro _ x hx h; exact absurd (hall x hx).1 h
  · intro h; rw [h] at hmain; simp at hmain
  · rintro ⟨e, he⟩ _
    left
    rw [he] at hmain
    simp at hmain
    rw [he, hmain]

/-- A worker step that leaves the main thread alone. -/
theorem EInv.worker {env : ParEnv} {s s' : PState} (h : EInv env s) (hm : ∀ e, s.main ≠ .ended e) {i : Nat} {x : Slot}
    (hx : s.slots[i]? = some x) (f : Slot → Slot) (hp : x.pc ≠ .idle) (hp' : (f x).pc ≠ .idle)
    (hk : (f x).kind = x.kind)
    (hfail : (f x).failed = true → x.failed = true ∨ env.ctorMayThrow x.kind ∨ env.runMayThrow x.kind)
    (hbuilt : (∀ k, ¬ env.ctorMayThrow k) → (x.pc ≠ .start → x.built = true) → (f x).pc ≠ .start → (f x).built = true)
    (h1 : s'.slots = s.slots.modify i f) (h2 : s'.main = s.main) : EInv env s' := by
  have hmem := List.mem_of_getElem? hx
  refine ⟨?_, ?_, ?_, ?_, ?_, ?_⟩
  · rw [h1, h2]
    intro hh
    exact exists_modify hx (h.rethrown hh) (fun h' => absurd h'.1 hp)
  · rw [h1, h2]
    intro hh
    exact forall_modify hx (P := fun y => y.pc = .idle → y.failed = false) (h.clean hh) (fun _ h' => absurd h' hp')
  · rw [h1]
    refine forall_modify hx (P := fun y => y.failed = true → env.ctorMayThrow y.kind ∨ env.runMayThrow y.kind) h.cause
      (fun h' hf => ?_)
    rw [hk]
    rcases hfail hf with h'' | h''
    · exact h' h''
    · exact h''
  · rw [h1]
    intro hn
    exact forall_modify hx (P := fun y => y.pc ≠ .start → y.built = true) (h.table hn) (hbuilt hn)
  · rw [h2]; exact h.died
  · rw [h2]
    rintro ⟨e, he⟩
    exact absurd he (hm e)

theorem step_einv {env : ParEnv} {cfg : Configuration} {s s' : PState} (hb : Base env cfg s) (h : EInv env s)
    (hst : Step env s s') : EInv env s' := by
  cases hst with
  | construct i x hx hp hm =>
    exact h.worker hm hx _ (by simp [hp]) (by simp) rfl (fun h' => Or.inl h') (fun _ _ _ => rfl) rfl rfl
  | constructThrows i x hx hp hb ht hz hm =>
    exact h.worker hm hx _ (by simp [hp]) (by simp) rfl (fun _ => Or.inr (Or.inl ht)) (fun hn => absurd ht (hn _)) rfl rfl
  | constructTerminates i x hx hp hb ht hz hm =>
    exact ⟨by simp, by simp, h.cause, h.table, fun _ => hz ▸ ht, fun _ h' => absurd rfl h'⟩
  | stimulusThrows i x hx hp hk ht hm =>
    exact h.worker hm hx _ (by simp [hp]) (by simp) rfl (fun _ => Or.inr (Or.inr ht)) (fun _ _ _ => rfl) rfl rfl
  | begin i x hx hp hd hm =>
    exact h.worker hm hx _ (by simp [hp]) (by simp) rfl (fun h' => Or.inl h') (fun _ h' _ => h' (by simp [hp])) rfl rfl
  | skip i x hx hp hd hm =>
    exact h.worker hm hx _ (by simp [hp]) (by simp) rfl (fun h' => Or.inl h') (fun _ h' _ => h' (by simp [hp])) rfl rfl
  | runReturns i x c hx hp hc hm =>
    exact h.worker hm hx _ (by simp [hp]) (by simp) rfl (fun h' => Or.inl h') (fun _ h' _ => h' (by simp [hp])) rfl rfl
  | runThrows i x hx hp ht hm =>
    exact h.worker hm hx _ (by simp [hp]) (by simp) rfl (fun _ => Or.inr (Or.inr ht)) (fun _ h' _ => h' (by simp [hp])) rfl rfl
  | push i x hx hp hm =>
    exact h.worker hm hx _ (by simp [hp]) (by simp) rfl (fun h' => Or.inl h') (fun _ h' _ => h' (by simp [hp])) rfl rfl
  | pop i x q hm hq hx hf =>
    have hpc := hb.head hx hq
    refine ⟨?_, ?_, ?_, ?_, ?_, ?_⟩
    · unfold PState.popped
      simp only
      split <;> simp
    · intro _
      refine forall_modify hx (P := fun y => y.pc = .idle → y.failed = false) (h.clean (Or.inl hm)) ?_
      exact fun _ _ => hf
    · refine forall_modify hx (P := fun y => y.failed = true → env.ctorMayThrow y.kind ∨ env.runMayThrow y.kind) h.cause ?_
      exact fun h' hf => h' hf
    · intro hn
      refine forall_modify hx (P := fun y => y.pc ≠ .start → y.built = true) (h.table hn) ?_
      exact fun h' _ => h' (by simp [hpc])
    · unfold PState.popped
      simp only
      split <;> simp
    · unfold PState.popped
      simp only
      split <;> simp
  | popThrows i x q hm hq hx hf =>
    have hpc := hb.head hx hq
    refine ⟨fun _ => ⟨{ x with pc := .idle }, ?_, rfl, hf⟩, by simp, ?_, ?_, by simp, by simp⟩
    · exact List.mem_iff_getElem?.mpr ⟨i, (getElem?_modify_iff ..).mpr ⟨x, hx, by simp⟩⟩
    · refine forall_modify hx (P := fun y => y.failed = true → env.ctorMayThrow y.kind ∨ env.runMayThrow y.kind) h.cause ?_
      exact fun h' hf => h' hf
    · intro hn
      refine forall_modify hx (P := fun y => y.pc ≠ .start → y.built = true) (h.table hn) ?_
      exact fun h' _ => h' (by simp [hpc])
  | timeout hm ht =>
    exact ⟨by simp, fun _ => h.clean (Or.inl hm), h.cause, h.table, by simp, by simp⟩
  | signal i x hm hx =>
    refine ⟨by simp, ?_, ?_, ?_, by simp, by simp⟩
    · intro _
      refine forall_modify hx (P := fun y => y.pc = .idle → y.failed = false) (h.clean (Or.inr (Or.inl ⟨i, hm⟩))) ?_
      exact fun h' => h'
    · refine forall_modify hx (P := fun y => y.failed = true → env.ctorMayThrow y.kind ∨ env.runMayThrow y.kind) h.cause ?_
      exact fun h' hf => h' hf
    · intro hn
      refine forall_modify hx (P := fun y => y.pc ≠ .start → y.built = true) (h.table hn) ?_
      exact fun h' => h'
  | signalledAll i hm hi =>
    exact ⟨by simp, fun _ => h.clean (Or.inr (Or.inl ⟨i, hm⟩)), h.cause, h.table, by simp, by simp⟩
  | join hm hf =>
    exact ⟨by simp only; split <;> simp, fun _ => h.clean (Or.inr (Or.inr (Or.inl hm))), h.cause, h.table,
      by simp only; split <;> simp, fun _ _ => Or.inr hf⟩
  | unwind hm hf =>
    exact ⟨fun _ => h.rethrown (Or.inl hm), by simp, h.cause, h.table, by simp, fun _ _ => Or.inr hf⟩

theorem reachable_einv {env : ParEnv} {cfg : Configuration} {res : Results} {s : PState} (h : Reachable env cfg res s) :
    EInv env s :=
  h.induct (launch_einv env cfg res) fun _ _ hb he hst => step_einv hb he hst

/-! ## Signalling -/

/-- Every running checker has been told to stop once the main thread is past it. -/
structure SInv (s : PState) : Prop where
  upto : ∀ j, s.main = .signalling j → ∀ i x, i < j → s.slots[i]? = some x → x.pc = .running → x.signalled = true
  all : s.main = .joining → ∀ x ∈ s.slots, x.pc = .running → x.signalled = true

theorem launch_sinv (env : ParEnv) (cfg : Configuration) (res : Results) : SInv (launch env.zxTransformable cfg res) := by
  have hall : ∀ x ∈ (launch env.zxTransformable cfg res).slots, x.pc = .start := by
    intro x hx
    simp only [launch, List.mem_map] at hx
    obtain ⟨k, _, rfl⟩ := hx
    rfl
  refine ⟨fun j _ i x _ hx hp => ?_, fun _ x hx hp => ?_⟩
  · rw [hall x (List.mem_of_getElem? hx)] at hp; simp at hp
  · rw [hall x hx] at hp; simp at hp

theorem SInv.worker {s s' : PState} (h : SInv s) {i : Nat} {x : Slot} (hx : s.slots[i]? = some x) (f : Slot → Slot)
    (hp : s.done = true → (f x).pc = .running → x.pc = .running ∧ (f x).signalled = x.signalled)
    (hd : ∀ j, s.main = .signalling j ∨ s.main = .joining → s.done = true)
    (h1 : s'.slots = s.slots.modify i f) (h2 : s'.main = s.main) : SInv s' := by
  refine ⟨?_, ?_⟩
  · rw [h1, h2]
    intro j hj k y hk hy hr
    obtain ⟨z, hz, rfl⟩ := (getElem?_modify_iff ..).mp hy
    split at hr
    · rename_i hij
      subst hij
      rw [hx] at hz; cases hz
      obtain ⟨h3, h4⟩ := hp (hd j (Or.inl hj)) hr
      rw [if_pos rfl, h4]
      exact h.upto j hj i x hk hx h3
    · rename_i hij
      rw [if_neg hij]
      exact h.upto j hj k z hk hz hr
  · rw [h1, h2]
    intro hj
    refine forall_modify hx (P := fun y => y.pc = .running → y.signalled = true) (h.all hj) (fun h' hr => ?_)
    obtain ⟨h3, h4⟩ := hp (hd 0 (Or.inr hj)) hr
    rw [h4]; exact h' h3

theorem step_sinv {env : ParEnv} {cfg : Configuration} {s s' : PState} (hb : Base env cfg s) (h : SInv s)
    (hst : Step env s s') : SInv s' := by
  have hd : ∀ j, s.main = .signalling j ∨ s.main = .joining → s.done = true := by
    rintro j (h' | h')
    · exact hb.ctl.signalling j h'
    · exact hb.ctl.joining h'
  cases hst with
  | construct i x hx hp hm => exact h.worker hx _ (by simp) hd rfl rfl
  | constructThrows i x hx hp hb ht hz hm => exact h.worker hx _ (by simp) hd rfl rfl
  | constructTerminates i x hx hp hb ht hz hm => exact ⟨by simp, by simp⟩
  | stimulusThrows i x hx hp hk ht hm => exact h.worker hx _ (by simp) hd rfl rfl
  | begin i x hx hp hd' hm => exact h.worker hx _ (by simp [hd']) hd rfl rfl
  | skip i x hx hp hd' hm => exact h.worker hx _ (by simp) hd rfl rfl
  | runReturns i x c hx hp hc hm => exact h.worker hx _ (by simp) hd rfl rfl
  | runThrows i x hx hp ht hm => exact h.worker hx _ (by simp) hd rfl rfl
  | push i x hx hp hm => exact h.worker hx _ (by simp) hd rfl rfl
  | pop i x q hm hq hx hf =>
    refine ⟨?_, ?_⟩
    · intro j hj
      unfold PState.popped at hj
      simp only at hj
      split at hj
      · cases hj; intro i x hi; simp at hi
      · simp at hj
    · unfold PState.popped
      simp only
      split <;> simp
  | popThrows i x q hm hq hx hf => exact ⟨by simp, by simp⟩
  | timeout hm ht => exact ⟨by rintro j hj i x hi; cases hj; simp at hi, by simp⟩
  | signal i x hm hx =>
    refine ⟨?_, by simp⟩
    intro j hj k y hk hy hr
    cases hj
    obtain ⟨z, hz, rfl⟩ := (getElem?_modify_iff ..).mp hy
    split at hr
    · rename_i hij
      subst hij
      rw [hx] at hz; cases hz
      have := (hb.slots x (List.mem_of_getElem? hx)).exists_ (Or.inr hr)
      simp [this]
    · rename_i hij
      rw [if_neg hij]
      exact h.upto i hm k z (by omega) hz hr
  | signalledAll i hm hi =>
    refine ⟨by simp, fun _ x hx hr => ?_⟩
    change x ∈ s.slots at hx
    obtain ⟨k, hk⟩ := List.mem_iff_getElem?.mp hx
    have hlt : k < s.slots.length := by
      by_contra hge
      rw [List.getElem?_eq_none (by omega)] at hk
      simp at hk
    exact h.upto i hm k x (by omega) hk hr
  | join hm hf => exact ⟨by simp, by simp⟩
  | unwind hm hf => exact ⟨by simp, by simp⟩

theorem reachable_sinv {env : ParEnv} {cfg : Configuration} {res : Results} {s : PState} (h : Reachable env cfg res s) :
    SInv s :=
  h.induct (launch_sinv env cfg res) fun _ _ hb he hst => step_sinv hb he hst

end QCEC.Par
