import Verif.Model.ParallelRelaxed
import Verif.Props.ParallelWitness
/-!
# The parallel flow with delayed visibility of `done` and `checkers` (C72)
-/
namespace QCEC.Props
open QCEC QCEC.Mgr QCEC.Spec QCEC.Par QCEC.ParR

variable {env : ParEnv} {cfg : Configuration} {res : Results}

/-- A slot of the run with delays and one of a run without. -/
structure DelaySlot (done : Bool) (x y : Slot) : Prop where
  kind : x.kind = y.kind
  built : x.built = y.built
  pc : x.pc = y.pc ∨ (done = true ∧ x.pc = .running ∧ y.pc = .pushing)
  failed : done = true ∨ x.failed = y.failed
  eq : done = true ∨ x.eq = y.eq

/-- What the user and the main thread see of the two runs is the same. -/
structure DelayLike (s t : PState) : Prop where
  cfg : s.cfg = t.cfg
  done : s.done = t.done
  results : s.results = t.results
  queue : s.queue = t.queue
  main : s.main = t.main
  log : s.log = t.log
  timedOut : s.timedOut = t.timedOut
  length : s.slots.length = t.slots.length
  slots : ∀ (i : Nat) (x y : Slot), s.slots[i]? = some x → t.slots[i]? = some y → DelaySlot s.done x y

theorem DelaySlot.mono {d d' : Bool} {x y : Slot} (h : DelaySlot d x y) (hd : d = true → d' = true) : DelaySlot d' x y :=
  ⟨h.kind, h.built, h.pc.imp id (fun e => ⟨hd e.1, e.2⟩), h.failed.imp hd id, h.eq.imp hd id⟩

/-- Where the worker with delays is not running, the other one is in the same place. -/
theorem DelaySlot.same {d : Bool} {x y : Slot} (h : DelaySlot d x y) (hx : x.pc ≠ .running) : x.pc = y.pc :=
  h.pc.elim id fun e => absurd e.2.1 hx

theorem DelayLike.other {s t : PState} (h : DelayLike s t) {i : Nat} {x : Slot} (hx : s.slots[i]? = some x) :
    ∃ y, t.slots[i]? = some y ∧ DelaySlot s.done x y := by
  have hi : i < t.slots.length := by rw [← h.length]; exact (List.getElem?_eq_some_iff.1 hx).1
  exact ⟨t.slots[i], List.getElem?_eq_getElem hi, h.slots i x _ hx (List.getElem?_eq_getElem hi)⟩

theorem DelayLike.slotsUpd {s t : PState} (h : DelayLike s t) {i : Nat} {x y : Slot} (hx : s.slots[i]? = some x)
    (hy : t.slots[i]? = some y) (f g : Slot → Slot) (d : Bool) (hd : s.done = true → d = true) (hfg : DelaySlot d (f x) (g y)) :
    ∀ (j : Nat) (a b : Slot), (s.slots.modify i f)[j]? = some a → (t.slots.modify i g)[j]? = some b → DelaySlot d a b := by
  intro j a b ha hb
  obtain ⟨a', ha', rfl⟩ := (getElem?_modify_iff ..).mp ha
  obtain ⟨b', hb', rfl⟩ := (getElem?_modify_iff ..).mp hb
  split
  · rename_i hij
    subst hij
    rw [hx] at ha'; rw [hy] at hb'
    cases ha'; cases hb'
    exact hfg
  · exact (h.slots j a' b' ha' hb').mono hd

theorem DelayLike.upd {s t : PState} (h : DelayLike s t) {i : Nat} {x y : Slot} (hx : s.slots[i]? = some x) (hy : t.slots[i]? = some y)
    (f g : Slot → Slot) (hfg : DelaySlot s.done (f x) (g y)) : DelayLike (s.upd i f) (t.upd i g) :=
  ⟨h.cfg, h.done, h.results, h.queue, h.main, h.log, h.timedOut, by simp [PState.upd, h.length], h.slotsUpd hx hy f g s.done id hfg⟩

/-- Only the run with delays moves. -/
theorem DelayLike.updLeft {s t : PState} (h : DelayLike s t) {i : Nat} {x y : Slot} (hx : s.slots[i]? = some x)
    (hy : t.slots[i]? = some y) (f : Slot → Slot) (hf : DelaySlot s.done (f x) y) : DelayLike (s.upd i f) t := by
  have U := h.upd hx hy f id hf
  have e : t.upd i id = t := by simp [PState.upd]
  rw [e] at U; exact U

/-- A step of a run with delays is a step of a run without, or leaves it where it is. -/
theorem delayLike_step {s t s' : PState} (h : DelayLike s t) (hb : Base env cfg t) (st : RStep env s s') :
    ∃ t', (t' = t ∨ Step env t t') ∧ DelayLike s' t' := by
  have hlive : (∀ e, s.main ≠ .ended e) → ∀ e, t.main ≠ .ended e := fun hm e => h.main ▸ hm e
  cases st with
  | stale i x hx hp hd hm =>
    obtain ⟨y, hy, L⟩ := h.other hx
    have hyp : y.pc = .built := (L.same (by simp [hp])) ▸ hp
    exact ⟨_, .inr (.skip t i y hy hyp (h.done ▸ hd) (hlive hm)),
      h.upd hx hy _ _ ⟨L.kind, L.built, .inr ⟨hd, rfl, rfl⟩, .inl hd, .inl hd⟩⟩
  | miss i x hm hx =>
    obtain ⟨y, hy, L⟩ := h.other hx
    refine ⟨_, .inr (.signal t i y (h.main ▸ hm) hy), ⟨h.cfg, h.done, h.results, h.queue, rfl, h.log, h.timedOut,
      by simp [PState.upd, h.length], ?_⟩⟩
    intro j a b ha hbj
    obtain ⟨b', hb', rfl⟩ := (getElem?_modify_iff ..).mp hbj
    have := h.slots j a b' ha hb'
    split
    · exact ⟨this.kind, this.built, this.pc, this.failed, this.eq⟩
    · exact this
  | usual st =>
  cases st with
  | construct i x hx hp hm =>
    obtain ⟨y, hy, L⟩ := h.other hx
    exact ⟨_, .inr (.construct t i y hy ((L.same (by simp [hp])) ▸ hp) (hlive hm)),
      h.upd hx hy _ _ ⟨L.kind, rfl, .inl rfl, L.failed, L.eq⟩⟩
  | constructThrows i x hx hp hbf ht hz hm =>
    obtain ⟨y, hy, L⟩ := h.other hx
    exact ⟨_, .inr (.constructThrows t i y hy ((L.same (by simp [hp])) ▸ hp) (L.built ▸ hbf) (L.kind ▸ ht) (L.kind ▸ hz) (hlive hm)),
      h.upd hx hy _ _ ⟨L.kind, L.built, .inl rfl, .inr rfl, L.eq⟩⟩
  | constructTerminates i x hx hp hbf ht hz hm =>
    obtain ⟨y, hy, L⟩ := h.other hx
    exact ⟨_, .inr (.constructTerminates t i y hy ((L.same (by simp [hp])) ▸ hp) (L.built ▸ hbf) (L.kind ▸ ht) (L.kind ▸ hz) (hlive hm)),
      ⟨h.cfg, h.done, h.results, h.queue, rfl, h.log, h.timedOut, h.length, h.slots⟩⟩
  | stimulusThrows i x hx hp hk ht hm =>
    obtain ⟨y, hy, L⟩ := h.other hx
    exact ⟨_, .inr (.stimulusThrows t i y hy ((L.same (by simp [hp])) ▸ hp) (L.kind ▸ hk) (L.kind ▸ ht) (hlive hm)),
      h.upd hx hy _ _ ⟨L.kind, rfl, .inl rfl, .inr rfl, L.eq⟩⟩
  | begin i x hx hp hd hm =>
    obtain ⟨y, hy, L⟩ := h.other hx
    exact ⟨_, .inr (.begin t i y hy ((L.same (by simp [hp])) ▸ hp) (h.done ▸ hd) (hlive hm)),
      h.upd hx hy _ _ ⟨L.kind, L.built, .inl rfl, L.failed, L.eq⟩⟩
  | skip i x hx hp hd hm =>
    obtain ⟨y, hy, L⟩ := h.other hx
    exact ⟨_, .inr (.skip t i y hy ((L.same (by simp [hp])) ▸ hp) (h.done ▸ hd) (hlive hm)),
      h.upd hx hy _ _ ⟨L.kind, L.built, .inl rfl, L.failed, L.eq⟩⟩
  | runReturns i x c hx hp hc hm =>
    obtain ⟨y, hy, L⟩ := h.other hx
    rcases L.pc with e | ⟨hd, _, e⟩
    · exact ⟨_, .inr (.runReturns t i y c hy (e ▸ hp) (L.kind ▸ hc) (hlive hm)),
        h.upd hx hy _ _ ⟨L.kind, L.built, .inl rfl, L.failed, .inr rfl⟩⟩
    · exact ⟨t, .inl rfl, h.updLeft hx hy _ ⟨L.kind, L.built, .inl e.symm, .inl hd, .inl hd⟩⟩
  | runThrows i x hx hp ht hm =>
    obtain ⟨y, hy, L⟩ := h.other hx
    rcases L.pc with e | ⟨hd, _, e⟩
    · exact ⟨_, .inr (.runThrows t i y hy (e ▸ hp) (L.kind ▸ ht) (hlive hm)),
        h.upd hx hy _ _ ⟨L.kind, L.built, .inl rfl, .inr rfl, L.eq⟩⟩
    · exact ⟨t, .inl rfl, h.updLeft hx hy _ ⟨L.kind, L.built, .inl e.symm, .inl hd, .inl hd⟩⟩
  | push i x hx hp hm =>
    obtain ⟨y, hy, L⟩ := h.other hx
    have U := h.upd hx hy (fun y => { y with pc := .queued }) (fun y => { y with pc := .queued })
      ⟨L.kind, L.built, .inl rfl, L.failed, L.eq⟩
    exact ⟨_, .inr (.push t i y hy ((L.same (by simp [hp])) ▸ hp) (hlive hm)),
      ⟨U.cfg, U.done, U.results, by simp only [h.queue], U.main, U.log, U.timedOut, U.length, U.slots⟩⟩
  | pop i x q hm hq hx hf =>
    obtain ⟨y, hy, L⟩ := h.other hx
    have hdone : s.done = false := by rw [h.done]; exact hb.ctl.wait (h.main ▸ hm)
    have heq : x.eq = y.eq := L.eq.elim (fun e => by rw [hdone] at e; cases e) id
    have hfl : x.failed = y.failed := L.failed.elim (fun e => by rw [hdone] at e; cases e) id
    have hh : handle s.cfg s.results x.kind x.eq = handle t.cfg t.results y.kind y.eq := by
      rw [h.cfg, h.results, L.kind, heq]
    refine ⟨_, .inr (.pop t i y q (h.main ▸ hm) (h.queue ▸ hq) hy (hfl ▸ hf)), ?_⟩
    have hsl := h.slotsUpd hx hy (fun z => { z with pc := if (handle s.cfg s.results x.kind x.eq).2 = .relaunch then .start else .idle })
      (fun z => { z with pc := if (handle t.cfg t.results y.kind y.eq).2 = .relaunch then .start else .idle })
      (decide ((handle s.cfg s.results x.kind x.eq).2 = .stop)) (by rw [hdone]; simp)
      ⟨L.kind, L.built, .inl (by simp [hh]), .inr hfl, .inr heq⟩
    exact ⟨h.cfg, by simp [PState.popped, hh], by simp [PState.popped, hh], rfl, by simp [PState.popped, hh],
      by simp [PState.popped, h.log, L.kind, heq], h.timedOut, by simp [PState.popped, h.length], hsl⟩
  | popThrows i x q hm hq hx hf =>
    obtain ⟨y, hy, L⟩ := h.other hx
    have hdone : s.done = false := by rw [h.done]; exact hb.ctl.wait (h.main ▸ hm)
    have hfl : x.failed = y.failed := L.failed.elim (fun e => by rw [hdone] at e; cases e) id
    have U := h.upd hx hy (fun y => { y with pc := .idle }) (fun y => { y with pc := .idle })
      ⟨L.kind, L.built, .inl rfl, .inr hfl, L.eq⟩
    exact ⟨_, .inr (.popThrows t i y q (h.main ▸ hm) (h.queue ▸ hq) hy (hfl ▸ hf)),
      ⟨U.cfg, U.done, U.results, rfl, rfl, U.log, U.timedOut, U.length, U.slots⟩⟩
  | timeout hm ht =>
    refine ⟨_, .inr (.timeout t (h.main ▸ hm) (h.cfg ▸ ht)), ⟨h.cfg, rfl, h.results, h.queue, rfl, h.log, rfl, h.length, ?_⟩⟩
    intro i x y hx hy
    exact (h.slots i x y hx hy).mono fun _ => rfl
  | signal i x hm hx =>
    obtain ⟨y, hy, L⟩ := h.other hx
    have U := h.upd hx hy (fun y => { y with signalled := y.signalled || y.built }) (fun y => { y with signalled := y.signalled || y.built })
      ⟨L.kind, L.built, L.pc, L.failed, L.eq⟩
    exact ⟨_, .inr (.signal t i y (h.main ▸ hm) hy), ⟨U.cfg, U.done, U.results, U.queue, rfl, U.log, U.timedOut, U.length, U.slots⟩⟩
  | signalledAll i hm hi =>
    exact ⟨_, .inr (.signalledAll t i (h.main ▸ hm) (h.length ▸ hi)),
      ⟨h.cfg, h.done, h.results, h.queue, rfl, h.log, h.timedOut, h.length, h.slots⟩⟩
  | join hm hf =>
    have hft : ∀ y ∈ t.slots, y.finished = true ∧ ∃ x ∈ s.slots, x.built = y.built := by
      intro y hy
      obtain ⟨i, hi⟩ := List.mem_iff_getElem?.1 hy
      have hlt : i < s.slots.length := by rw [h.length]; exact (List.getElem?_eq_some_iff.1 hi).1
      have hx := List.getElem?_eq_getElem hlt
      have L := h.slots i _ y hx hi
      have hxf := hf _ (List.mem_of_getElem? hx)
      refine ⟨?_, _, List.mem_of_getElem? hx, L.built⟩
      unfold Slot.finished at hxf ⊢
      rw [← L.same (by intro e; rw [e] at hxf; simp at hxf)]; exact hxf
    have hall : (∀ x ∈ s.slots, x.built = true) ↔ ∀ y ∈ t.slots, y.built = true := by
      constructor
      · intro ha y hy
        obtain ⟨_, x, hx, e⟩ := hft y hy
        rw [← e]; exact ha x hx
      · intro ha x hx
        obtain ⟨i, hi⟩ := List.mem_iff_getElem?.1 hx
        obtain ⟨y, hy, L⟩ := h.other hi
        rw [L.built]; exact ha y (List.mem_of_getElem? hy)
    refine ⟨_, .inr (.join t (h.main ▸ hm) (fun y hy => (hft y hy).1)),
      ⟨h.cfg, h.done, h.results, h.queue, ?_, h.log, h.timedOut, h.length, h.slots⟩⟩
    by_cases ha : ∀ x ∈ s.slots, x.built = true
    · simp only [if_pos ha, if_pos (hall.1 ha)]
    · simp only [if_neg ha, if_neg (fun e => ha (hall.2 e))]
  | unwind hm hf =>
    have hft : ∀ y ∈ t.slots, y.finished = true := by
      intro y hy
      obtain ⟨i, hi⟩ := List.mem_iff_getElem?.1 hy
      have hlt : i < s.slots.length := by rw [h.length]; exact (List.getElem?_eq_some_iff.1 hi).1
      have hx := List.getElem?_eq_getElem hlt
      have L := h.slots i _ y hx hi
      have hxf := hf _ (List.mem_of_getElem? hx)
      unfold Slot.finished at hxf ⊢
      rw [← L.same (by intro e; rw [e] at hxf; simp at hxf)]; exact hxf
    exact ⟨_, .inr (.unwind t (h.main ▸ hm) hft), ⟨h.cfg, h.done, h.results, h.queue, rfl, h.log, h.timedOut, h.length, h.slots⟩⟩

theorem delayLike_refl (s : PState) : DelayLike s s := by
  refine ⟨rfl, rfl, rfl, rfl, rfl, rfl, rfl, rfl, ?_⟩
  intro i x y hx hy
  rw [hx] at hy; cases hy
  exact ⟨rfl, rfl, .inl rfl, .inr rfl, .inr rfl⟩

/-- **C72**: whatever old values of `done` and `checkers` the threads read, the run reports what a run that always reads the latest ones can
report: same results, same completions handled, same ending. -/
theorem delayed_like_run {s : PState} (h : RReachable env cfg res s) : ∃ t, Reachable env cfg res t ∧ DelayLike s t := by
  unfold RReachable at h
  induction h with
  | refl => exact ⟨_, .refl _, delayLike_refl _⟩
  | tail _ st ih =>
    obtain ⟨t, ht, hl⟩ := ih
    obtain ⟨t', ht', hl'⟩ := delayLike_step hl (reachable_base ht) st
    rcases ht' with rfl | st'
    · exact ⟨t', ht, hl'⟩
    · exact ⟨t', .tail ht st', hl'⟩

/-- **C72**: and the other way round. -/
theorem run_is_delayed {s : PState} (h : Reachable env cfg res s) : RReachable env cfg res s := by
  unfold Reachable at h
  unfold RReachable
  induction h with
  | refl => exact .refl _
  | tail _ st ih => exact .tail ih (.usual st)

/-- **C72**: so the possible outcomes — how the run ends and the results it reports — are exactly the same. -/
theorem delayed_same_outcomes (env : ParEnv) (cfg : Configuration) (res : Results) (e : PEnding) (r : Results) :
    (∃ s, RReachable env cfg res s ∧ s.main = .ended e ∧ s.results = r) ↔
    (∃ t, Reachable env cfg res t ∧ t.main = .ended e ∧ t.results = r) := by
  constructor
  · rintro ⟨s, hs, hm, hr⟩
    obtain ⟨t, ht, L⟩ := delayed_like_run hs
    exact ⟨t, ht, L.main ▸ hm, L.results ▸ hr⟩
  · rintro ⟨t, ht, hm, hr⟩
    exact ⟨t, run_is_delayed ht, hm, hr⟩

/-- **C72**: a run with delays of sound checkers reports a sound verdict (C17). -/
theorem delayed_sound {s : PState} (eqv : Prop) (hz : ZXAnswers env) (h : RReachable env cfg res s) (hr : s.main = .ended .returned)
    (hsound : ∀ e : Event, env.may e.kind e.verdict → Enabled cfg e.kind → SoundEvent eqv e) :
    SoundVerdict eqv s.results.equivalence := by
  obtain ⟨t, ht, L⟩ := delayed_like_run h
  rw [L.results]
  exact parallel_sound eqv hz ht (L.main ▸ hr) hsound

/-! ## The end of such a run -/

theorem rstep_base {s s' : PState} (h : Base env cfg s) (st : RStep env s s') : Base env cfg s' := by
  cases st with
  | usual st => exact step_base h st
  | stale i x hx hp hd hm =>
    have hs := h.slots x (List.mem_of_getElem? hx)
    refine h.worker hx _ (fun _ => rfl) ⟨fun _ => hs.exists_ (Or.inl hp), fun _ => hs.fresh (Or.inr (Or.inl hp)), ?_, ?_⟩
      (by rw [hp]; simp) (by simp) <;> simp
  | miss i x hm hx =>
    have hd := h.ctl.signalling i hm
    exact ⟨h.conf, h.kinds, ⟨by simp, by simp, fun _ _ => hd, by simp⟩, h.slots, h.nodup, h.queue⟩

theorem rreachable_base {s : PState} (h : RReachable env cfg res s) : Base env cfg s := by
  unfold RReachable at h
  induction h with
  | refl => exact launch_base env cfg res
  | tail _ st ih => exact rstep_base ih st

theorem rstep_decreases {s s' : PState} (hb : Base env cfg s) (st : RStep env s s') : measureOf s' < measureOf s := by
  cases st with
  | usual st => exact step_decreases hb st
  | stale i x hx hp hd hm => exact worker_decreases hx _ (by simp [hp, pcWeight]) rfl rfl rfl rfl
  | miss i x hm hx =>
    have hlt := (List.getElem?_eq_some_iff.1 hx).1
    unfold measureOf
    simp only [hm, mainWeight]
    omega

/-- **C72**: no run with delays is infinite either (C15). -/
theorem delayed_finite (env : ParEnv) (cfg : Configuration) (res : Results) (f : Nat → PState)
    (h0 : f 0 = launch env.zxTransformable cfg res) : ¬ ∀ n, RStep env (f n) (f (n + 1)) := by
  intro h
  have hreach : ∀ n, RReachable env cfg res (f n) := by
    intro n
    induction n with
    | zero => rw [h0]; exact RSteps.refl _
    | succ n ih => exact RSteps.tail ih (h n)
  have hdec : ∀ n, measureOf (f n) + n ≤ measureOf (f 0) := by
    intro n
    induction n with
    | zero => simp
    | succ n ih =>
      have := rstep_decreases (rreachable_base (hreach n)) (h n)
      omega
  have := hdec (measureOf (f 0) + 1)
  omega

/-- The main thread waits, but nothing is left to do. -/
theorem waiting_stuck {t : PState} (hm : t.main = .wait) (hq : t.queue = []) (hto : ¬ t.cfg.execution.timeout > 0)
    (hi : ∀ x ∈ t.slots, x.pc = .idle) : ∀ t', ¬ Step env t t' := by
  intro t' st
  have key : ∀ {i : Nat} {x : Slot}, t.slots[i]? = some x → x.pc = .idle := fun h => hi _ (List.mem_of_getElem? h)
  cases st <;> first
    | (rename_i hx hp _; have := key hx; rw [hp] at this; cases this)
    | (rename_i hx hp _ _; have := key hx; rw [hp] at this; cases this)
    | (rename_i hx hp _ _ _; have := key hx; rw [hp] at this; cases this)
    | (rename_i hx hp _ _ _ _; have := key hx; rw [hp] at this; cases this)
    | simp_all

/-- **C72** (partial, as C15): a run with delays whose checkers all end cannot get stuck before its end, except as in `WaitsForever`. -/
theorem delayed_ends_partial {s : PState} (hp : ParCfg cfg) (hz : ZXAnswers env) (hr : RunsEnd env) (h1 : res.startedSimulations = 0)
    (h2 : res.performedSimulations = 0) (h : RReachable env cfg res s) (hst : ∀ s', ¬ RStep env s s') :
    (∃ e, s.main = .ended e) ∨ WaitsForever cfg s := by
  rcases stuck_cases hr (rreachable_base h) (fun s' st => hst s' (.usual st)) with he | ⟨hm, hq, hto, hidle⟩
  · exact .inl he
  · obtain ⟨t, ht, L⟩ := delayed_like_run h
    have hti : ∀ y ∈ t.slots, y.pc = .idle := by
      intro y hy
      obtain ⟨i, hi⟩ := List.mem_iff_getElem?.1 hy
      have hlt : i < s.slots.length := by rw [L.length]; exact (List.getElem?_eq_some_iff.1 hi).1
      have hx := List.getElem?_eq_getElem hlt
      have hxi := hidle _ (List.mem_of_getElem? hx)
      rw [← (L.slots i _ y hx hi).same (by simp [hxi])]; exact hxi
    rcases parallel_ends_partial hp hz hr h1 h2 ht (waiting_stuck (L.main ▸ hm) (L.queue ▸ hq) (L.cfg ▸ hto) hti) with ⟨e, he⟩ | W
    · rw [← L.main, hm] at he; cases he
    · exact .inr ⟨W.noTimeout, W.noAlternating, W.noConstruction, W.zx, W.sims, L.log ▸ W.zxSilent, L.results ▸ W.allPassed,
        L.results ▸ W.verdict⟩

/-! ## What is lost -/

theorem miss_all {s : PState} (h : RReachable env cfg res s) (hm : s.main = .signalling 0) :
    ∀ n, n ≤ s.slots.length → RReachable env cfg res { s with main := .signalling n }
  | 0, _ => by rw [← hm]; exact h
  | n + 1, hn => .tail (miss_all h hm n (by omega))
      (.miss _ n (s.slots[n]'(by omega)) rfl (by simp))

/-- **C72**: but a checker may run on untold: in every parallel run with a timeout that starts a worker, the main thread may wait for a
checker that is running and that it has not told to stop (compare `parallel_stop_reaches_running`).  No completion has been handled before,
so nothing orders the accesses. -/
theorem delayed_stop_missed (env : ParEnv) {cfg : Configuration} (res : Results) (ht : cfg.execution.timeout > 0)
    (hm : (launch env.zxTransformable cfg res).main = .wait) (hk : launchKinds env.zxTransformable cfg ≠ []) :
    ∃ s, RReachable env cfg res s ∧ s.main = .joining ∧ s.timedOut = true ∧ s.log = [] ∧
      ∃ (i : Nat) (x : Slot), s.slots[i]? = some x ∧ x.pc = .running ∧ x.signalled = false := by
  have hcfg : (launch env.zxTransformable cfg res).cfg.execution.timeout > 0 := by
    show (launchCfg env.zxTransformable cfg).execution.timeout > 0
    rw [(launch_flags env.zxTransformable cfg).2.2]; exact ht
  obtain ⟨k, ks, hks⟩ := List.exists_cons_of_ne_nil hk
  have hx : (launch env.zxTransformable cfg res).slots[0]? = some { kind := k } := by
    simp [launch, hks]
  obtain ⟨a, ha⟩ : ∃ a, a = (launch env.zxTransformable cfg res).upd 0 (fun y => { y with pc := .built, built := true }) := ⟨_, rfl⟩
  have ra : RReachable env cfg res a := by
    rw [ha]; exact .tail (.refl _) (.usual (.construct _ 0 _ hx rfl (by simp [hm])))
  have xa : a.slots[0]? = some { kind := k, pc := .built, built := true } := by
    rw [ha]; exact (getElem?_modify_iff ..).mpr ⟨_, hx, by simp⟩
  have ma : a.main = .wait := by rw [ha]; exact hm
  have ca : a.cfg.execution.timeout > 0 := by rw [ha]; exact hcfg
  have la : a.log = [] := by rw [ha]; rfl
  have rb : RReachable env cfg res { a with done := true, main := .signalling 0, timedOut := true } :=
    .tail ra (.usual (.timeout a ma ca))
  have rc := RSteps.tail rb (.stale _ 0 _ xa rfl rfl (by simp))
  have rd := miss_all rc rfl _ (Nat.le_refl _)
  have re := RSteps.tail rd (.usual (.signalledAll _ _ rfl (Nat.le_refl _)))
  exact ⟨_, re, rfl, rfl, la, 0, { kind := k, pc := .running, built := true },
    (getElem?_modify_iff ..).mpr ⟨_, xa, by simp⟩, rfl, rfl⟩

/-- The hypotheses above are met: the alternating checker alone, with a timeout. -/
theorem delayed_stop_missed_case : (parCfg true true false false 1 2 1).execution.timeout > 0 ∧
    (launch true (parCfg true true false false 1 2 1) {}).main = .wait ∧ launchKinds true (parCfg true true false false 1 2 1) ≠ [] := by
  refine ⟨?_, rfl, by decide⟩
  show (1 : Rat) > 0
  decide +kernel

/-- And those of `delayed_sound`: a run in which a checker starts although the decision has been taken, and which returns. -/
theorem delayed_returns : ∃ s, RReachable (listEnv (answering .equivalent .equivalent .equivalent) fun _ => false)
    (parCfg true true false false 1 2 0) {} s ∧ s.main = .ended .returned ∧ s.results.equivalence = .equivalent ∧
    ∃ x, s.slots[1]? = some x ∧ x.eq = .probablyEquivalent := by
  have hs : ∃ s, execAll (answering .equivalent .equivalent .equivalent) (fun _ => false) (launch true (parCfg true true false false 1 2 0) {})
      (.construct 1 :: full 0 .equivalent) = some s ∧ s.done = true ∧ alive s = true ∧
      (∃ x, s.slots[1]? = some x ∧ x.pc = .built) ∧
      ∃ t, execAll (answering .equivalent .equivalent .equivalent) (fun _ => false) (s.upd 1 fun y => { y with pc := .running })
        [.signal, .signal, .signal, .runReturns 1 .probablyEquivalent, .push 1, .join] = some t ∧ t.main = .ended .returned ∧
        t.results.equivalence = .equivalent ∧ ∃ x, t.slots[1]? = some x ∧ x.eq = .probablyEquivalent :=
    ⟨_, rfl, rfl, rfl, ⟨_, rfl, rfl⟩, _, rfl, rfl, rfl, _, rfl, rfl⟩
  obtain ⟨s, h1, h2, h3, ⟨x, hx, hp⟩, t, h4, h5⟩ := hs
  have r1 : RReachable (listEnv (answering .equivalent .equivalent .equivalent) fun _ => false) (parCfg true true false false 1 2 0) {} s :=
    run_is_delayed (execAll_steps _ h1)
  have r2 := RSteps.tail r1 (.stale s 1 x hx hp h2 (alive_spec h3))
  refine ⟨t, ?_, h5⟩
  have h6 := execAll_steps _ h4
  clear h4 h5
  unfold RReachable
  induction h6 with
  | refl => exact r2
  | tail _ st ih => exact .tail ih (.usual st)

end QCEC.Props
