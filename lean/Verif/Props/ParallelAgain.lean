import Verif.Props.ReportsParallel
/-!
# A further parallel run without `reset()` (C70)
-/
namespace QCEC.Props
open QCEC QCEC.Mgr QCEC.Par

variable {env : ParEnv} {cfg : Configuration} {res : Results}

/-- The table of the earlier run holds, where it holds a checker at all, checkers of the kinds launched now. -/
def SameKinds (zxOk : Bool) (c : Configuration) (old : List Slot) : Prop :=
  ∀ (i : Nat) (k : Kind) (y : Slot), (launchKinds zxOk c)[i]? = some k → old[i]? = some y → y.built = true → y.kind = k

/-- A slot of the re-run and one of a run of a fresh manager. -/
structure SlotLike (done : Bool) (x y : Slot) : Prop where
  kind : x.kind = y.kind
  pc : x.pc = y.pc
  failed : x.failed = y.failed
  built : x.pc ≠ .start → x.built = y.built
  start : y.built = true → x.built = true
  eq : x.pc = .pushing ∨ x.pc = .queued → x.failed = false → done = true ∨ x.eq = y.eq

/-- What the user and the main thread see of the two runs is the same. -/
structure RunLike (s t : PState) : Prop where
  cfg : s.cfg = t.cfg
  done : s.done = t.done
  results : s.results = t.results
  queue : s.queue = t.queue
  main : s.main = t.main
  log : s.log = t.log
  timedOut : s.timedOut = t.timedOut
  length : s.slots.length = t.slots.length
  slots : ∀ (i : Nat) (x y : Slot), s.slots[i]? = some x → t.slots[i]? = some y → SlotLike s.done x y

theorem RunLike.other {s t : PState} (h : RunLike s t) {i : Nat} {x : Slot} (hx : s.slots[i]? = some x) :
    ∃ y, t.slots[i]? = some y ∧ SlotLike s.done x y := by
  have hi : i < t.slots.length := by rw [← h.length]; exact (List.getElem?_eq_some_iff.1 hx).1
  exact ⟨t.slots[i], List.getElem?_eq_getElem hi, h.slots i x _ hx (List.getElem?_eq_getElem hi)⟩

/-- Changing a slot on both sides. -/
theorem RunLike.slotsUpd {s t : PState} (h : RunLike s t) {i : Nat} {x y : Slot} (hx : s.slots[i]? = some x) (hy : t.slots[i]? = some y)
    (f g : Slot → Slot) (d : Bool) (hd : s.done = true → d = true) (hfg : SlotLike d (f x) (g y)) :
    ∀ (j : Nat) (a b : Slot), (s.slots.modify i f)[j]? = some a → (t.slots.modify i g)[j]? = some b → SlotLike d a b := by
  intro j a b ha hb
  obtain ⟨a', ha', rfl⟩ := (getElem?_modify_iff ..).mp ha
  obtain ⟨b', hb', rfl⟩ := (getElem?_modify_iff ..).mp hb
  split
  · rename_i hij
    subst hij
    rw [hx] at ha'; rw [hy] at hb'
    cases ha'; cases hb'
    exact hfg
  · have := h.slots j a' b' ha' hb'
    exact ⟨this.kind, this.pc, this.failed, this.built, this.start, fun p q => (this.eq p q).imp hd id⟩

theorem RunLike.upd {s t : PState} (h : RunLike s t) {i : Nat} {x y : Slot} (hx : s.slots[i]? = some x) (hy : t.slots[i]? = some y)
    (f g : Slot → Slot) (hfg : SlotLike s.done (f x) (g y)) : RunLike (s.upd i f) (t.upd i g) :=
  ⟨h.cfg, h.done, h.results, h.queue, h.main, h.log, h.timedOut, by simp [PState.upd, h.length], h.slotsUpd hx hy f g s.done id hfg⟩

/-- Every step of the re-run is a step of a run of a fresh manager. -/
theorem runLike_step {s t s' : PState} (h : RunLike s t) (hb : Base env cfg t) (st : Step env s s') :
    ∃ t', Step env t t' ∧ RunLike s' t' := by
  have hlive : (∀ e, s.main ≠ .ended e) → ∀ e, t.main ≠ .ended e := fun hm e => h.main ▸ hm e
  cases st with
  | construct i x hx hp hm =>
    obtain ⟨y, hy, L⟩ := h.other hx
    exact ⟨_, .construct t i y hy (L.pc ▸ hp) (hlive hm), h.upd hx hy _ _ ⟨L.kind, rfl, L.failed, fun _ => rfl, fun _ => rfl, by simp⟩⟩
  | constructThrows i x hx hp hbf ht hz hm =>
    obtain ⟨y, hy, L⟩ := h.other hx
    have hyb : y.built = false := by
      cases hyb : y.built with
      | false => rfl
      | true => rw [L.start hyb] at hbf; cases hbf
    exact ⟨_, .constructThrows t i y hy (L.pc ▸ hp) hyb (L.kind ▸ ht) (L.kind ▸ hz) (hlive hm),
      h.upd hx hy _ _ ⟨L.kind, rfl, rfl, fun _ => by simp [hbf, hyb], fun e => by simp [hyb] at e, by simp⟩⟩
  | constructTerminates i x hx hp hbf ht hz hm =>
    obtain ⟨y, hy, L⟩ := h.other hx
    have hyb : y.built = false := by
      cases hyb : y.built with
      | false => rfl
      | true => rw [L.start hyb] at hbf; cases hbf
    exact ⟨_, .constructTerminates t i y hy (L.pc ▸ hp) hyb (L.kind ▸ ht) (L.kind ▸ hz) (hlive hm),
      ⟨h.cfg, h.done, h.results, h.queue, rfl, h.log, h.timedOut, h.length, h.slots⟩⟩
  | stimulusThrows i x hx hp hk ht hm =>
    obtain ⟨y, hy, L⟩ := h.other hx
    exact ⟨_, .stimulusThrows t i y hy (L.pc ▸ hp) (L.kind ▸ hk) (L.kind ▸ ht) (hlive hm),
      h.upd hx hy _ _ ⟨L.kind, rfl, rfl, fun _ => rfl, fun _ => rfl, by simp⟩⟩
  | begin i x hx hp hd hm =>
    obtain ⟨y, hy, L⟩ := h.other hx
    exact ⟨_, .begin t i y hy (L.pc ▸ hp) (h.done ▸ hd) (hlive hm),
      h.upd hx hy _ _ ⟨L.kind, rfl, L.failed, fun _ => L.built (by simp [hp]), L.start, by simp⟩⟩
  | skip i x hx hp hd hm =>
    obtain ⟨y, hy, L⟩ := h.other hx
    exact ⟨_, .skip t i y hy (L.pc ▸ hp) (h.done ▸ hd) (hlive hm),
      h.upd hx hy _ _ ⟨L.kind, rfl, L.failed, fun _ => L.built (by simp [hp]), L.start, fun _ _ => .inl hd⟩⟩
  | runReturns i x c hx hp hc hm =>
    obtain ⟨y, hy, L⟩ := h.other hx
    exact ⟨_, .runReturns t i y c hy (L.pc ▸ hp) (L.kind ▸ hc) (hlive hm),
      h.upd hx hy _ _ ⟨L.kind, rfl, L.failed, fun _ => L.built (by simp [hp]), L.start, fun _ _ => .inr rfl⟩⟩
  | runThrows i x hx hp ht hm =>
    obtain ⟨y, hy, L⟩ := h.other hx
    exact ⟨_, .runThrows t i y hy (L.pc ▸ hp) (L.kind ▸ ht) (hlive hm),
      h.upd hx hy _ _ ⟨L.kind, rfl, rfl, fun _ => L.built (by simp [hp]), L.start, by simp⟩⟩
  | push i x hx hp hm =>
    obtain ⟨y, hy, L⟩ := h.other hx
    have U := h.upd hx hy (fun y => { y with pc := .queued }) (fun y => { y with pc := .queued })
      ⟨L.kind, rfl, L.failed, fun _ => L.built (by simp [hp]), L.start, fun _ e => L.eq (.inl hp) e⟩
    exact ⟨_, .push t i y hy (L.pc ▸ hp) (hlive hm),
      ⟨U.cfg, U.done, U.results, by simp only [h.queue], U.main, U.log, U.timedOut, U.length, U.slots⟩⟩
  | pop i x q hm hq hx hf =>
    obtain ⟨y, hy, L⟩ := h.other hx
    have hyq : y.pc = .queued := hb.head hy (h.queue ▸ hq)
    have hxq : x.pc = .queued := L.pc.trans hyq
    have hdone : s.done = false := by rw [h.done]; exact hb.ctl.wait (h.main ▸ hm)
    have heq : x.eq = y.eq := by
      rcases L.eq (.inr hxq) hf with e | e
      · rw [hdone] at e; cases e
      · exact e
    have hh : handle s.cfg s.results x.kind x.eq = handle t.cfg t.results y.kind y.eq := by
      rw [h.cfg, h.results, L.kind, heq]
    refine ⟨_, .pop t i y q (h.main ▸ hm) (h.queue ▸ hq) hy (L.failed ▸ hf), ?_⟩
    have hsl := h.slotsUpd hx hy (fun z => { z with pc := if (handle s.cfg s.results x.kind x.eq).2 = .relaunch then .start else .idle })
      (fun z => { z with pc := if (handle t.cfg t.results y.kind y.eq).2 = .relaunch then .start else .idle })
      (decide ((handle s.cfg s.results x.kind x.eq).2 = .stop)) (by rw [hdone]; simp)
      ⟨L.kind, by simp [hh], L.failed, fun _ => L.built (by simp [hxq]), L.start, by
        intro e; simp only at e; split at e <;> simp at e⟩
    exact ⟨h.cfg, by simp [PState.popped, hh], by simp [PState.popped, hh], rfl, by simp [PState.popped, hh],
      by simp [PState.popped, h.log, L.kind, heq], h.timedOut, by simp [PState.popped, h.length], hsl⟩
  | popThrows i x q hm hq hx hf =>
    obtain ⟨y, hy, L⟩ := h.other hx
    have hyq : y.pc = .queued := hb.head hy (h.queue ▸ hq)
    have hxq : x.pc = .queued := L.pc.trans hyq
    have U := h.upd hx hy (fun y => { y with pc := .idle }) (fun y => { y with pc := .idle })
      ⟨L.kind, rfl, L.failed, fun _ => L.built (by simp [hxq]), L.start, by simp⟩
    exact ⟨_, .popThrows t i y q (h.main ▸ hm) (h.queue ▸ hq) hy (L.failed ▸ hf),
      ⟨U.cfg, U.done, U.results, rfl, rfl, U.log, U.timedOut, U.length, U.slots⟩⟩
  | timeout hm ht =>
    refine ⟨_, .timeout t (h.main ▸ hm) (h.cfg ▸ ht), ⟨h.cfg, rfl, h.results, h.queue, rfl, h.log, rfl, h.length, ?_⟩⟩
    intro i x y hx hy
    have L := h.slots i x y hx hy
    exact ⟨L.kind, L.pc, L.failed, L.built, L.start, fun _ _ => .inl rfl⟩
  | signal i x hm hx =>
    obtain ⟨y, hy, L⟩ := h.other hx
    have U := h.upd hx hy (fun y => { y with signalled := y.signalled || y.built }) (fun y => { y with signalled := y.signalled || y.built })
      ⟨L.kind, L.pc, L.failed, L.built, L.start, L.eq⟩
    exact ⟨_, .signal t i y (h.main ▸ hm) hy, ⟨U.cfg, U.done, U.results, U.queue, rfl, U.log, U.timedOut, U.length, U.slots⟩⟩
  | signalledAll i hm hi =>
    exact ⟨_, .signalledAll t i (h.main ▸ hm) (h.length ▸ hi), ⟨h.cfg, h.done, h.results, h.queue, rfl, h.log, h.timedOut, h.length, h.slots⟩⟩
  | join hm hf =>
    have hft : ∀ y ∈ t.slots, y.finished = true ∧ ∃ x ∈ s.slots, x.built = y.built := by
      intro y hy
      obtain ⟨i, hi⟩ := List.mem_iff_getElem?.1 hy
      have hlt : i < s.slots.length := by rw [h.length]; exact (List.getElem?_eq_some_iff.1 hi).1
      have hx := List.getElem?_eq_getElem hlt
      have L := h.slots i _ y hx hi
      have hxf := hf _ (List.mem_of_getElem? hx)
      refine ⟨by unfold Slot.finished at hxf ⊢; rw [← L.pc]; exact hxf, _, List.mem_of_getElem? hx, L.built ?_⟩
      intro e; unfold Slot.finished at hxf; rw [e] at hxf; simp at hxf
    have hall : (∀ x ∈ s.slots, x.built = true) ↔ ∀ y ∈ t.slots, y.built = true := by
      constructor
      · intro ha y hy
        obtain ⟨_, x, hx, e⟩ := hft y hy
        rw [← e]; exact ha x hx
      · intro ha x hx
        obtain ⟨i, hi⟩ := List.mem_iff_getElem?.1 hx
        obtain ⟨y, hy, L⟩ := h.other hi
        exact L.start (ha y (List.mem_of_getElem? hy))
    refine ⟨_, .join t (h.main ▸ hm) (fun y hy => (hft y hy).1),
      ⟨h.cfg, h.done, h.results, h.queue, ?_, h.log, h.timedOut, h.length, h.slots⟩⟩
    by_cases ha : ∀ x ∈ s.slots, x.built = true
    · simp only [if_pos ha, if_pos (hall.1 ha)]
    · simp only [if_neg ha, if_neg (fun e => ha (hall.2 e))]
  | unwind hm hf =>
    have hft : ∀ y ∈ t.slots, y.finished = true := by
      intro y hy
      obtain ⟨i, hi⟩ := List.mem_iff_getElem?.1 hy
      have hlt : i < s.slots.length := by rw [h.length]; exact (List.getElem?_eq_some_iff.1 hi).1
      have hx := List.getElem?_eq_getElem hlt
      have L := h.slots i _ y hx hi
      have hxf := hf _ (List.mem_of_getElem? hx)
      unfold Slot.finished at hxf ⊢; rw [← L.pc]; exact hxf
    exact ⟨_, .unwind t (h.main ▸ hm) hft, ⟨h.cfg, h.done, h.results, h.queue, rfl, h.log, h.timedOut, h.length, h.slots⟩⟩

theorem castsFail_iff (kinds : List Kind) (old : List Slot) :
    castsFail kinds old = true ↔ ∃ (i : Nat) (y : Slot), kinds[i]? = some .simulation ∧ old[i]? = some y ∧ y.built = true ∧ y.kind ≠ .simulation := by
  unfold castsFail
  rw [List.any_eq_true]
  constructor
  · rintro ⟨⟨k, y⟩, hm, h⟩
    obtain ⟨i, hi⟩ := List.mem_iff_getElem?.1 hm
    rw [List.getElem?_zip_eq_some] at hi
    simp only [Bool.and_eq_true, decide_eq_true_eq] at h
    exact ⟨i, y, h.1.1 ▸ hi.1, hi.2, h.1.2, h.2⟩
  · rintro ⟨i, y, h1, h2, h3, h4⟩
    refine ⟨(.simulation, y), List.mem_iff_getElem?.2 ⟨i, ?_⟩, by simp [h3, h4]⟩
    rw [List.getElem?_zip_eq_some]; exact ⟨h1, h2⟩

theorem launchAgain_slot {zxOk : Bool} {old : List Slot} {i : Nat} {x : Slot} (hx : (launchAgain zxOk cfg res old).slots[i]? = some x) :
    ∃ k, (launchKinds zxOk cfg)[i]? = some k ∧
      ((∃ y, old[i]? = some y ∧ x = { kind := if y.built then y.kind else k, built := y.built, signalled := y.signalled, eq := y.eq }) ∨
       (old[i]? = none ∧ x = { kind := k })) := by
  simp only [launchAgain, List.getElem?_mapIdx, Option.map_eq_some_iff] at hx
  obtain ⟨k, hk, he⟩ := hx
  refine ⟨k, hk, ?_⟩
  cases ho : old[i]? with
  | none => rw [ho] at he; exact .inr ⟨rfl, he.symm⟩
  | some y => rw [ho] at he; exact .inl ⟨y, rfl, he.symm⟩

theorem launch_slot {zxOk : Bool} {i : Nat} {y : Slot} (hy : (launch zxOk cfg res).slots[i]? = some y) :
    ∃ k, (launchKinds zxOk cfg)[i]? = some k ∧ y = { kind := k } := by
  simp only [launch, List.getElem?_map, Option.map_eq_some_iff] at hy
  obtain ⟨k, hk, he⟩ := hy
  exact ⟨k, hk, he.symm⟩

theorem runLike_launch {old : List Slot} (hk : SameKinds env.zxTransformable cfg old) :
    RunLike (launchAgain env.zxTransformable cfg res old) (launch env.zxTransformable cfg res) := by
  refine ⟨rfl, rfl, rfl, rfl, ?_, rfl, rfl, by simp [launchAgain, launch], ?_⟩
  · have : ¬ castsFail (launchKinds env.zxTransformable cfg) old = true := by
      rw [castsFail_iff]
      rintro ⟨i, y, h1, h2, h3, h4⟩
      exact h4 (hk i _ y h1 h2 h3)
    simp [launchAgain, this]
  · intro i x y hx hy
    obtain ⟨k, hk1, rfl⟩ := launch_slot hy
    obtain ⟨k', hk2, h⟩ := launchAgain_slot hx
    rw [hk1] at hk2; cases hk2
    rcases h with ⟨z, hz, rfl⟩ | ⟨_, rfl⟩
    · refine ⟨?_, rfl, rfl, by simp, by simp, by simp⟩
      simp only
      split
      · rename_i hb; exact hk i k z hk1 hz hb
      · rfl
    · exact ⟨rfl, rfl, rfl, by simp, by simp, by simp⟩

/-- C70: a further run without `reset()` whose checkers are of the kinds left in the table does what a run of a fresh manager with the
counters of the earlier run can do: same verdict, same completions handled, same ending.  So all theorems about `Reachable` states
(C13–C19, C21) hold of it. -/
theorem rerun_like_run {old : List Slot} {s : PState} (hk : SameKinds env.zxTransformable cfg old)
    (h : Steps env (launchAgain env.zxTransformable cfg res old) s) : ∃ t, Reachable env cfg res t ∧ RunLike s t := by
  induction h with
  | refl => exact ⟨_, .refl _, runLike_launch hk⟩
  | tail _ st ih =>
    obtain ⟨t, ht, hl⟩ := ih
    obtain ⟨t', st', hl'⟩ := runLike_step hl (reachable_base ht) st
    exact ⟨t', .tail ht st', hl'⟩

/-- C70: but the checkers left over stay what they are: a checker that was told to stop in the earlier run is told to stop from the
beginning to the end of the further one. -/
theorem rerun_still_signalled {old : List Slot} {s : PState} (h : Steps env (launchAgain env.zxTransformable cfg res old) s)
    {i : Nat} {y : Slot} (hi : i < (launchKinds env.zxTransformable cfg).length) (hy : old[i]? = some y) (hb : y.built = true)
    (hs : y.signalled = true) : ∃ x, s.slots[i]? = some x ∧ x.kind = y.kind ∧ x.built = true ∧ x.signalled = true := by
  have keep : ∀ (l : List Slot) (j : Nat) (f : Slot → Slot), (∀ z, (f z).kind = z.kind) → (∀ z, z.built = true → (f z).built = true) →
      (∀ z, z.signalled = true → (f z).signalled = true) →
      (∃ x, l[i]? = some x ∧ x.kind = y.kind ∧ x.built = true ∧ x.signalled = true) →
      ∃ x, (l.modify j f)[i]? = some x ∧ x.kind = y.kind ∧ x.built = true ∧ x.signalled = true := by
    rintro l j f h1 h2 h3 ⟨x, hx, a, b, c⟩
    refine ⟨if j = i then f x else x, (getElem?_modify_iff ..).mpr ⟨x, hx, rfl⟩, ?_⟩
    split
    · exact ⟨(h1 x).trans a, h2 x b, h3 x c⟩
    · exact ⟨a, b, c⟩
  induction h with
  | refl =>
    refine ⟨{ kind := if y.built then y.kind else (launchKinds env.zxTransformable cfg)[i]
              built := y.built
              signalled := y.signalled
              eq := y.eq }, ?_, by simp [hb], hb, hs⟩
    · simp only [launchAgain, List.getElem?_mapIdx, List.getElem?_eq_getElem hi, Option.map_some, hy]
  | tail _ st ih =>
    cases st with
    | constructTerminates => exact ih
    | timeout => exact ih
    | signalledAll => exact ih
    | join => exact ih
    | unwind => exact ih
    | signal j x => exact keep _ j _ (fun _ => rfl) (fun _ h => h) (fun _ h => by simp [h]) ih
    | construct j x => exact keep _ j _ (fun _ => rfl) (fun _ _ => rfl) (fun _ h => h) ih
    | stimulusThrows j x => exact keep _ j _ (fun _ => rfl) (fun _ _ => rfl) (fun _ h => h) ih
    | constructThrows j x => exact keep _ j _ (fun _ => rfl) (fun _ h => h) (fun _ h => h) ih
    | begin j x => exact keep _ j _ (fun _ => rfl) (fun _ h => h) (fun _ h => h) ih
    | skip j x => exact keep _ j _ (fun _ => rfl) (fun _ h => h) (fun _ h => h) ih
    | runReturns j x => exact keep _ j _ (fun _ => rfl) (fun _ h => h) (fun _ h => h) ih
    | runThrows j x => exact keep _ j _ (fun _ => rfl) (fun _ h => h) (fun _ h => h) ih
    | push j x => exact keep _ j _ (fun _ => rfl) (fun _ h => h) (fun _ h => h) ih
    | pop j x => exact keep _ j _ (fun _ => rfl) (fun _ h => h) (fun _ h => h) ih
    | popThrows j x => exact keep _ j _ (fun _ => rfl) (fun _ h => h) (fun _ h => h) ih

/-- C70: and if the configuration is changed in between, a simulation may be launched in a slot with another checker: the run then has
undefined behaviour (a null pointer is dereferenced). -/
theorem rerun_crashes_iff (zxOk : Bool) (c : Configuration) (r : Results) (old : List Slot)
    (hn : (definitiveKinds zxOk c).length ≤ c.execution.nthreads) :
    (launchAgain zxOk c r old).main = .ended .undefinedBehaviour ↔
      ∃ (i : Nat) (y : Slot), (launchKinds zxOk c)[i]? = some .simulation ∧ old[i]? = some y ∧ y.built = true ∧ y.kind ≠ .simulation := by
  have hl := launch_overflow_iff zxOk c r
  rw [← castsFail_iff]
  unfold launchAgain
  simp only
  split
  · simp_all
  · rename_i hc
    simp only [hc]
    constructor
    · intro e; have := hl.1 e; omega
    · intro e; simp at e

/-- A first run with the alternating checker and simulations, which returns, and a second one after `setAlternatingChecker(false)`, without
`reset()`, which crashes. -/
theorem rerun_crash_example :
    ∃ s, Reachable (listEnv stopping fun _ => false) (parCfg true true false false 1 2 0) {} s ∧ s.main = .ended .returned ∧
      (launchAgain true (parCfg true false false false 2 2 0) s.results s.slots).main = .ended .undefinedBehaviour := by
  have hx : (execAll stopping (fun _ => false) (launch true (parCfg true true false false 1 2 0) {}) firstRun).map
      (fun s => (s.main, (launchAgain true (parCfg true false false false 2 2 0) s.results s.slots).main)) =
      some (.ended .returned, .ended .undefinedBehaviour) := rfl
  cases hs : execAll stopping (fun _ => false) (launch true (parCfg true true false false 1 2 0) {}) firstRun with
  | none => rw [hs] at hx; simp at hx
  | some s =>
    rw [hs] at hx
    simp only [Option.map_some, Option.some.injEq, Prod.mk.injEq] at hx
    exact ⟨s, execAll_steps _ hs, hx.1, hx.2⟩

/-- The hypotheses of `rerun_like_run` and `rerun_still_signalled` are met by the two runs of `parallel_rerun_loses_verdict`. -/
theorem rerun_case : ∃ s, Reachable (listEnv stopping fun _ => false) (parCfg true true false false 1 2 0) {} s ∧ s.main = .ended .returned ∧
    SameKinds true (parCfg true true false false 1 2 0) s.slots ∧ ∃ y, s.slots[0]? = some y ∧ y.built = true ∧ y.signalled = true := by
  obtain ⟨s, t, h1, h2, _, _, _, _, ⟨x, hx, _, hsig, _⟩, _⟩ := parallel_rerun_loses_verdict
  have hb := reachable_base h1
  refine ⟨s, h1, h2, ?_, x, hx, returned_built h1 h2 x (List.mem_of_getElem? hx), hsig⟩
  intro i k y hk hy _
  have : (s.slots.map (·.kind))[i]? = some k := by rw [hb.kinds]; exact hk
  rw [List.getElem?_map, hy] at this
  simpa using this

end QCEC.Props
