import Mathlib.Tactic.ByContra
import Verif.Spec.Verdict
import Verif.Model.Parallel
/-!
# Invariants of the parallel flow
-/
namespace QCEC.Par
open QCEC QCEC.Mgr QCEC.Spec

/-! ## Lists -/

theorem getElem?_modify_iff {α : Type} (l : List α) (i : Nat) (f : α → α) (j : Nat) (y : α) :
    (l.modify i f)[j]? = some y ↔ ∃ x, l[j]? = some x ∧ y = if i = j then f x else x := by
  rw [List.getElem?_modify]
  cases h : l[j]? with
  | none => simp
  | some x =>
    simp only [Option.map_eq_map, Option.map_some, Option.some.injEq]
    constructor
    · rintro rfl; exact ⟨x, rfl, by split <;> rfl⟩
    · rintro ⟨x', rfl, rfl⟩; split <;> rfl

theorem forall_modify {α : Type} {l : List α} {i : Nat} {f : α → α} {P : α → Prop} {x : α} (hx : l[i]? = some x)
    (h : ∀ y ∈ l, P y) (hf : P x → P (f x)) : ∀ y ∈ l.modify i f, P y := by
  intro y hy
  obtain ⟨j, hj⟩ := List.mem_iff_getElem?.mp hy
  rw [getElem?_modify_iff] at hj
  obtain ⟨z, hz, rfl⟩ := hj
  split
  · rename_i hij
    subst hij
    rw [hx] at hz
    cases hz
    exact hf (h x (List.mem_of_getElem? hx))
  · exact h z (List.mem_of_getElem? hz)

theorem sum_modify {α : Type} (w : α → Nat) : ∀ (l : List α) (i : Nat) (f : α → α) (x : α), l[i]? = some x →
    ((l.modify i f).map w).sum + w x = (l.map w).sum + w (f x) := by
  intro l
  induction l with
  | nil => intro i f x h; simp at h
  | cons a r ih =>
    intro i f x h
    cases i with
    | zero =>
      simp only [List.getElem?_cons_zero, Option.some.injEq] at h
      subst h
      simp [List.modify]
      omega
    | succ i =>
      simp only [List.getElem?_cons_succ] at h
      have := ih i f x h
      simp only [List.modify_succ_cons, List.map_cons, List.sum_cons]
      omega

theorem map_modify_same {α β : Type} (g : α → β) (l : List α) (i : Nat) (f : α → α) (h : ∀ x, g (f x) = g x) :
    (l.modify i f).map g = l.map g := by
  apply List.ext_getElem?
  intro j
  simp only [List.getElem?_map, List.getElem?_modify]
  cases l[j]? with
  | none => rfl
  | some x =>
    simp only [Option.map_eq_map, Option.map_some]
    split
    · rw [h]
    · rfl

/-! ## Control and slots -/

/-- `done` and the main thread. -/
structure Ctl (s : PState) : Prop where
  wait : s.main = .wait → s.done = false
  unwinding : s.main = .unwinding → s.done = false
  signalling : ∀ i, s.main = .signalling i → s.done = true
  joining : s.main = .joining → s.done = true

/-- What holds of every slot. -/
structure SlotOk (env : ParEnv) (done : Bool) (x : Slot) : Prop where
  exists_ : x.pc = .built ∨ x.pc = .running → x.built = true
  fresh : x.pc = .start ∨ x.pc = .built ∨ x.pc = .running → x.failed = false
  result : x.pc = .pushing ∨ x.pc = .queued → x.failed = false → x.built = true ∧ (done = true ∨ env.may x.kind x.eq)
  consumed : x.pc = .idle → x.failed = false → x.built = true

theorem SlotOk.mono {env : ParEnv} {d d' : Bool} {x : Slot} (h : SlotOk env d x) (hd : d = true → d' = true) : SlotOk env d' x :=
  ⟨h.exists_, h.fresh, fun a b => ⟨(h.result a b).1, (h.result a b).2.imp hd id⟩, h.consumed⟩

/-- Invariant about control, slots and queue. -/
structure Base (env : ParEnv) (cfg : Configuration) (s : PState) : Prop where
  conf : s.cfg = launchCfg env.zxTransformable cfg
  kinds : s.slots.map (·.kind) = launchKinds env.zxTransformable cfg
  ctl : Ctl s
  slots : ∀ x ∈ s.slots, SlotOk env s.done x
  nodup : s.queue.Nodup
  queue : ∀ i, i ∈ s.queue ↔ ∃ x, s.slots[i]? = some x ∧ x.pc = .queued

theorem launch_base (env : ParEnv) (cfg : Configuration) (res : Results) :
    Base env cfg (launch env.zxTransformable cfg res) := by
  refine ⟨rfl, ?_, ?_, ?_, List.nodup_nil, ?_⟩
  · simp [launch, List.map_map, Function.comp_def]
  · unfold launch
    refine ⟨?_, ?_, fun i => ?_, ?_⟩ <;> simp only <;> intro h <;> split at h <;> (try split at h) <;> simp_all
  · intro x hx
    simp only [launch, List.mem_map] at hx
    obtain ⟨k, _, rfl⟩ := hx
    exact ⟨by simp, by simp, by simp, by simp⟩
  · intro i
    simp only [launch, List.getElem?_map, List.not_mem_nil, false_iff]
    rintro ⟨x, hx, hp⟩
    cases h : (launchKinds env.zxTransformable cfg)[i]? with
    | none => rw [h] at hx; simp at hx
    | some k => rw [h] at hx; simp at hx; rw [← hx] at hp; simp at hp

/-- A worker step that neither touches the queue nor makes or unmakes a queued slot. -/
theorem Base.worker {env : ParEnv} {cfg : Configuration} {s : PState} (h : Base env cfg s) {i : Nat} {x : Slot}
    (hx : s.slots[i]? = some x) (f : Slot → Slot) (hk : ∀ y, (f y).kind = y.kind) (hok : SlotOk env s.done (f x))
    (hq : x.pc ≠ .queued) (hq' : (f x).pc ≠ .queued) : Base env cfg (s.upd i f) := by
  refine ⟨h.conf, ?_, ⟨h.ctl.wait, h.ctl.unwinding, h.ctl.signalling, h.ctl.joining⟩,
    forall_modify hx h.slots (fun _ => hok), h.nodup, ?_⟩
  · show (s.slots.modify i f).map _ = _
    rw [map_modify_same _ _ _ _ hk]; exact h.kinds
  · intro j
    show j ∈ s.queue ↔ ∃ y, (s.slots.modify i f)[j]? = some y ∧ _
    rw [h.queue j]
    constructor
    · rintro ⟨y, hy, hp⟩
      refine ⟨if i = j then f y else y, (getElem?_modify_iff ..).mpr ⟨y, hy, rfl⟩, ?_⟩
      split
      · rename_i hij; subst hij; rw [hx] at hy; cases hy; exact absurd hp hq
      · exact hp
    · rintro ⟨y, hy, hp⟩
      obtain ⟨z, hz, rfl⟩ := (getElem?_modify_iff ..).mp hy
      split at hp
      · rename_i hij; subst hij; rw [hx] at hz; cases hz; exact absurd hp hq'
      · exact ⟨z, hz, hp⟩

/-- The main thread takes the first id from the queue. -/
theorem Base.take {env : ParEnv} {cfg : Configuration} {s s' : PState} (h : Base env cfg s) {i : Nat} {x : Slot} {q : List Nat}
    (hx : s.slots[i]? = some x) (hq : s.queue = i :: q) (f : Slot → Slot) (hk : ∀ y, (f y).kind = y.kind)
    (hd : s.done = true → s'.done = true)
    (hok : SlotOk env s.done x → SlotOk env s'.done (f x)) (hq' : (f x).pc ≠ .queued) (h1 : s'.cfg = s.cfg)
    (h2 : s'.slots = s.slots.modify i f) (h3 : s'.queue = q) (hc : Ctl s') : Base env cfg s' := by
  have hnd := h.nodup
  rw [hq] at hnd
  have hni : i ∉ q := (List.nodup_cons.mp hnd).1
  refine ⟨h1.trans h.conf, ?_, hc, ?_, ?_, ?_⟩
  · rw [h2, map_modify_same _ _ _ _ hk]; exact h.kinds
  · rw [h2]
    intro y hy
    obtain ⟨j, hj⟩ := List.mem_iff_getElem?.mp hy
    obtain ⟨z, hz, rfl⟩ := (getElem?_modify_iff ..).mp hj
    split
    · rename_i hij; subst hij; rw [hx] at hz; cases hz
      exact hok (h.slots x (List.mem_of_getElem? hx))
    · exact (h.slots z (List.mem_of_getElem? hz)).mono hd
  · rw [h3]; exact (List.nodup_cons.mp hnd).2
  · intro j
    rw [h3, h2]
    constructor
    · intro hj
      obtain ⟨y, hy, hp⟩ := (h.queue j).mp (by rw [hq]; exact List.mem_cons_of_mem _ hj)
      refine ⟨y, (getElem?_modify_iff ..).mpr ⟨y, hy, ?_⟩, hp⟩
      rw [if_neg]; rintro rfl; exact hni hj
    · rintro ⟨y, hy, hp⟩
      obtain ⟨z, hz, rfl⟩ := (getElem?_modify_iff ..).mp hy
      split at hp
      · rename_i hij; subst hij; rw [hx] at hz; cases hz; exact absurd hp hq'
      · rename_i hij
        have : j ∈ s.queue := (h.queue j).mpr ⟨z, hz, hp⟩
        rw [hq] at this
        rcases List.mem_cons.mp this with hji | hj
        · exact absurd hji.symm hij
        · exact hj

/-- A slot whose id heads the queue. -/
theorem Base.head {env : ParEnv} {cfg : Configuration} {s : PState} (h : Base env cfg s) {i : Nat} {x : Slot} {q : List Nat}
    (hx : s.slots[i]? = some x) (hq : s.queue = i :: q) : x.pc = .queued := by
  obtain ⟨y, hy, hp⟩ := (h.queue i).mp (by rw [hq]; simp)
  rw [hx] at hy
  cases hy
  exact hp

theorem step_base {env : ParEnv} {cfg : Configuration} {s s' : PState} (h : Base env cfg s) (hst : Step env s s') :
    Base env cfg s' := by
  cases hst with
  | construct i x hx hp hm =>
    have hs := h.slots x (List.mem_of_getElem? hx)
    refine h.worker hx _ (fun _ => rfl) ⟨fun _ => rfl, fun _ => hs.fresh (Or.inl hp), ?_, ?_⟩ (by rw [hp]; simp) (by simp) <;> simp
  | constructThrows i x hx hp hb ht hz hm =>
    refine h.worker hx _ (fun _ => rfl) ⟨?_, ?_, ?_, ?_⟩ (by rw [hp]; simp) (by simp) <;> simp
  | constructTerminates i x hx hp hb ht hz hm =>
    exact ⟨h.conf, h.kinds, ⟨by simp, by simp, by simp, by simp⟩, h.slots, h.nodup, h.queue⟩
  | stimulusThrows i x hx hp hk ht hm =>
    refine h.worker hx _ (fun _ => rfl) ⟨?_, ?_, ?_, ?_⟩ (by rw [hp]; simp) (by simp) <;> simp
  | begin i x hx hp hd hm =>
    have hs := h.slots x (List.mem_of_getElem? hx)
    refine h.worker hx _ (fun _ => rfl) ⟨fun _ => hs.exists_ (Or.inl hp), fun _ => hs.fresh (Or.inr (Or.inl hp)), ?_, ?_⟩
      (by rw [hp]; simp) (by simp) <;> simp
  | skip i x hx hp hd hm =>
    have hs := h.slots x (List.mem_of_getElem? hx)
    refine h.worker hx _ (fun _ => rfl) ⟨?_, ?_, fun _ _ => ⟨hs.exists_ (Or.inl hp), Or.inl hd⟩, ?_⟩
      (by rw [hp]; simp) (by simp) <;> simp
  | runReturns i x c hx hp hc hm =>
    have hs := h.slots x (List.mem_of_getElem? hx)
    refine h.worker hx _ (fun _ => rfl) ⟨?_, ?_, fun _ _ => ⟨hs.exists_ (Or.inr hp), Or.inr hc⟩, ?_⟩
      (by rw [hp]; simp) (by simp) <;> simp
  | runThrows i x hx hp ht hm =>
    refine h.worker hx _ (fun _ => rfl) ⟨?_, ?_, ?_, ?_⟩ (by rw [hp]; simp) (by simp) <;> simp
  | push i x hx hp hm =>
    have hs := h.slots x (List.mem_of_getElem? hx)
    have hnq : i ∉ s.queue := by
      intro hi
      obtain ⟨y, hy, hpy⟩ := (h.queue i).mp hi
      rw [hx] at hy; cases hy; rw [hp] at hpy; simp at hpy
    refine ⟨h.conf, ?_, ⟨h.ctl.wait, h.ctl.unwinding, h.ctl.signalling, h.ctl.joining⟩, ?_, ?_, ?_⟩
    · show (s.slots.modify i _).map _ = _
      rw [map_modify_same _ _ _ _ (by intro; rfl)]; exact h.kinds
    · refine forall_modify hx h.slots (fun _ => ⟨by simp, by simp, fun _ hf => hs.result (Or.inl hp) hf, by simp⟩)
    · show (s.queue ++ [i]).Nodup
      rw [List.nodup_append]
      refine ⟨h.nodup, by simp, ?_⟩
      intro a ha b hb
      simp at hb
      rintro rfl
      exact hnq (hb ▸ ha)
    · intro j
      show j ∈ s.queue ++ [i] ↔ ∃ y, (s.slots.modify i _)[j]? = some y ∧ _
      constructor
      · intro hj
        rcases List.mem_append.mp hj with hj | hj
        · obtain ⟨y, hy, hpy⟩ := (h.queue j).mp hj
          refine ⟨y, (getElem?_modify_iff ..).mpr ⟨y, hy, ?_⟩, hpy⟩
          rw [if_neg]; rintro rfl; exact hnq hj
        · simp at hj
          subst hj
          exact ⟨_, (getElem?_modify_iff ..).mpr ⟨x, hx, rfl⟩, by simp⟩
      · rintro ⟨y, hy, hpy⟩
        obtain ⟨z, hz, rfl⟩ := (getElem?_modify_iff ..).mp hy
        split at hpy
        · rename_i hij; subst hij; simp
        · exact List.mem_append_left _ ((h.queue j).mpr ⟨z, hz, hpy⟩)
  | pop i x q hm hq hx hf =>
    have hpc := h.head hx hq
    have hd := h.ctl.wait hm
    refine h.take (s' := s.popped i x q) hx hq
      (fun y => { y with pc := if (handle s.cfg s.results x.kind x.eq).2 = .relaunch then .start else .idle })
      (fun _ => rfl) (fun hd' => by rw [hd] at hd'; simp at hd') ?_ ?_ rfl rfl rfl ?_
    · intro hs
      have hb := (hs.result (Or.inr hpc) hf).1
      refine ⟨fun _ => hb, fun _ => hf, ?_, fun _ _ => hb⟩
      simp only
      split <;> simp
    · simp only
      split <;> simp
    · unfold PState.popped
      refine ⟨?_, ?_, ?_, ?_⟩ <;> simp only <;> split <;> simp_all
  | popThrows i x q hm hq hx hf =>
    have hd := h.ctl.wait hm
    refine h.take hx hq (fun y => { y with pc := .idle }) (fun _ => rfl) (fun hd' => hd') ?_ (by simp) rfl rfl rfl ?_
    · intro hs
      refine ⟨?_, ?_, ?_, fun _ hf' => ?_⟩ <;> simp_all
    · exact ⟨by simp, fun _ => hd, by simp, by simp⟩
  | timeout hm ht =>
    exact ⟨h.conf, h.kinds, ⟨by simp, by simp, fun _ _ => rfl, fun _ => rfl⟩, fun x hx => (h.slots x hx).mono (fun _ => rfl),
      h.nodup, h.queue⟩
  | signal i x hm hx =>
    have hs := h.slots x (List.mem_of_getElem? hx)
    have hd := h.ctl.signalling i hm
    refine ⟨h.conf, ?_, ⟨by simp, by simp, fun _ _ => hd, by simp⟩, ?_, h.nodup, ?_⟩
    · show (s.slots.modify i _).map _ = _
      rw [map_modify_same _ _ _ _ (by intro; rfl)]; exact h.kinds
    · exact forall_modify hx h.slots (fun _ => ⟨hs.exists_, hs.fresh, hs.result, hs.consumed⟩)
    · intro j
      show j ∈ s.queue ↔ ∃ y, (s.slots.modify i _)[j]? = some y ∧ _
      rw [h.queue j]
      constructor
      · rintro ⟨y, hy, hp⟩
        refine ⟨_, (getElem?_modify_iff ..).mpr ⟨y, hy, rfl⟩, ?_⟩
        split <;> exact hp
      · rintro ⟨y, hy, hp⟩
        obtain ⟨z, hz, rfl⟩ := (getElem?_modify_iff ..).mp hy
        refine ⟨z, hz, ?_⟩
        split at hp <;> exact hp
  | signalledAll i hm hi =>
    exact ⟨h.conf, h.kinds, ⟨by simp, by simp, by simp, fun _ => h.ctl.signalling i hm⟩, h.slots, h.nodup, h.queue⟩
  | join hm hf => exact ⟨h.conf, h.kinds, ⟨by simp, by simp, by simp, by simp⟩, h.slots, h.nodup, h.queue⟩
  | unwind hm hf => exact ⟨h.conf, h.kinds, ⟨by simp, by simp, by simp, by simp⟩, h.slots, h.nodup, h.queue⟩

theorem reachable_base {env : ParEnv} {cfg : Configuration} {res : Results} {s : PState} (h : Reachable env cfg res s) :
    Base env cfg s := by
  unfold Reachable at h
  induction h with
  | refl => exact launch_base env cfg res
  | tail _ hst ih => exact step_base ih hst

end QCEC.Par
