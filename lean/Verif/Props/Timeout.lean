import Verif.Lemmas.TimeoutTable
import Verif.Props.Sequential
/-!
# The sequential and the symbolic flow together with their timeout thread (C65–C68)

All theorems quantify over all interleavings of the two threads, all points in time at which the deadline lies, all checker outcomes,
all configurations and all states of the manager left over from earlier runs.
-/
namespace QCEC.Props
open QCEC QCEC.Mgr QCEC.Tmo QCEC.Spec

variable {grow : Nat → Nat} {D cap fuel : Nat} {env : Env} {s : State} {p : Prog} {t : TState}

theorem good_flow (hf : flowOf env fuel s = some p) : Good s.begin.done p := by
  unfold flowOf at hf
  split at hf
  · cases hf; exact good_seqProg env fuel s.begin
  · cases hf; exact good_symProg env s.begin
  · cases hf

theorem backed_flow (hf : flowOf env fuel s = some p) : ∀ ne, Backed ne p := by
  unfold flowOf at hf
  intro ne
  split at hf
  · cases hf; exact backed_seqProg env fuel ne s.begin
  · cases hf; exact backed_symProg env ne s.begin
  · cases hf

/-- What the flow does alone is what `run()` of `Model/Manager.lean` says. -/
theorem run_flow (hf : flowOf env fuel s = some p) (fired : Nat → Bool) (hm : Mono fired) :
    run (withFired env fired hm) fuel s =
      some ((p.eval s.begin.timeoutSet fired 0 s.begin.done).andThen fun r => .returned r.report) := by
  have hmode : mode (withFired env fired hm) s.begin.cfg = mode env s.cfg := rfl
  unfold flowOf at hf
  unfold run
  simp only [hmode]
  split at hf
  · rename_i he
    cases hf
    simp only [he]
    rw [show checkSequential (withFired env fired hm) fuel s.begin = _ from (eval_seqProg env fired hm fuel s.begin).symm]; rfl
  · rename_i he
    cases hf
    simp only [he]
    rw [show checkSymbolic (withFired env fired hm) s.begin = _ from (eval_symProg env fired hm s.begin).symm]; rfl
  · cases hf

/-- The timeout thread set `done` before the `m`-th read, or not at all. -/
def firedFrom (o : Option Nat) (i : Nat) : Bool :=
  match o with
  | some m => decide (m ≤ i)
  | none => false

theorem firedFrom_mono (o : Option Nat) : Mono (firedFrom o) := by
  intro i j hij
  cases o with
  | none => simp [firedFrom]
  | some m => simp only [firedFrom, decide_eq_true_eq]; omega

/-- C65: whatever the two threads do, a run that ends, ends as `run()` does when the timeout thread sets `done` at a certain
moment; before the deadline, and without a timeout, it never does. -/
theorem timed_run (hf : flowOf env fuel s = some p) (h : Reachable grow D p s.begin cap t) {e : Ending} (he : t.main = .ended e) :
    ∃ (fired : Nat → Bool) (hm : Mono fired), (t.now < D ∨ ¬ s.cfg.execution.timeout > 0 → ∀ i, fired i = false) ∧
      run (withFired env fired hm) fuel s = some (e.andThen fun r => .returned r.report) := by
  obtain ⟨md, inv⟩ := inv_reachable (good_flow hf) h
  have H := inv.main
  unfold MainOk at H
  rw [he] at H
  refine ⟨firedFrom t.firedAt, firedFrom_mono _, ?_, ?_⟩
  · intro hn i
    cases hfa : t.firedAt with
    | none => rfl
    | some m =>
      exfalso
      rcases hn with hn | hn
      · have := (inv.fired_le m hfa).2; omega
      · have ht : s.begin.timeoutSet = false := by
          show decide (s.cfg.execution.timeout > 0) = false
          simpa using hn
        have ha := inv.absent.2 ht
        rcases inv.pre (by simp [hfa]) with x | ⟨_, _, _, x⟩ | x <;> rw [ha] at x <;> cases x
  · rw [run_flow hf, H.1 (firedFrom t.firedAt) (firedFrom_mono _) (by
        unfold Consistent firedFrom
        cases t.firedAt with
        | none => intro i _; rfl
        | some m => intro i; rfl)]

/-- C65: without a deadline passing the run ends exactly as without a timeout thread. -/
theorem timed_run_early (hf : flowOf env fuel s = some p) (h : Reachable grow D p s.begin cap t) {e : Ending} (he : t.main = .ended e)
    (hn : t.now < D) (hm : Mono fun _ => false) :
    run (withFired env (fun _ => false) hm) fuel s = some (e.andThen fun r => .returned r.report) := by
  obtain ⟨fired, hm', h1, h2⟩ := timed_run hf h he
  obtain rfl : fired = fun _ => false := funext (h1 (.inl hn))
  exact h2

/-- C65: conversely every moment at which the timeout thread may act is realised by an interleaving, whatever the deadline. -/
theorem timed_run_complete (grow : Nat → Nat) (D cap : Nat) (hf : flowOf env fuel s = some p) (fired : Nat → Bool) (hm : Mono fired)
    {e : Ending} (h : run (withFired env fired hm) fuel s = some e) :
    ∃ t e', Reachable grow D p s.begin cap t ∧ t.main = .ended e' ∧ e = e'.andThen fun r => .returned r.report := by
  rw [run_flow hf, Option.some.injEq] at h
  have main : ∀ t0 : TState, Steps grow D (start p s.begin cap) t0 → t0.main = .todo p →
      Ready s.begin.timeoutSet fired D 0 s.begin.done t0 → ∃ t e', Reachable grow D p s.begin cap t ∧ t.main = .ended e' ∧
        e = e'.andThen fun r => .returned r.report := by
    intro t0 st hm0 hr
    obtain ⟨t, st', hend⟩ := schedule (grow := grow) (D := D) s.begin.timeoutSet fired hm p 0 s.begin.done t0 hm0 hr
    exact ⟨t, _, st.trans st', hend, h.symm⟩
  cases ht : s.begin.timeoutSet with
  | false =>
    refine main _ (.refl _) rfl (.inl ⟨ht, ?_, rfl⟩)
    unfold start; simp [ht]
  | true =>
    have hti : (start p s.begin cap).timer = .testing := by unfold start; simp [ht]
    have hl : (start p s.begin cap).live := live_todo rfl
    have s1 : Step grow D (start p s.begin cap) _ := .testFalse _ hl hti rfl
    have s2 : Step grow D { start p s.begin cap with timer := .drowsy } _ := .sleep _ hl rfl
    have s3 := wait_until (grow := grow) (D := D) { start p s.begin cap with timer := .asleep } D
    exact main _ (.head s1 (.head s2 s3)) rfl (.inr (.inl ⟨ht, rfl, by simp, rfl⟩))

/-- C65: so what is proved about `run()` holds of the two threads as well; for instance, the verdict is explained by the checkers' answers
(C09) in every interleaving. -/
theorem timed_verdict_explained (hmode : mode env s.cfg = .sequential) (hf : flowOf env fuel s = some p)
    (h : Reachable grow D p s.begin cap t) {r : State} (he : t.main = .ended (.returned r)) :
    Explained r.log r.results.equivalence ∧ ∀ e ∈ r.log, FromEnv env e ∧ Enabled s.cfg e.kind := by
  obtain ⟨fired, hm, _, h2⟩ := timed_run hf h he
  obtain ⟨a, b, _⟩ := sequential_verdict_explained (env := withFired env fired hm) hmode h2
  exact ⟨a, b⟩

/-- C66: before the deadline, and without a timeout, no execution has undefined behaviour on the vector of checkers. -/
theorem no_race_before_deadline (hf : flowOf env fuel s = some p) (h : Reachable grow D p s.begin cap t)
    (hn : t.now < D ∨ ¬ s.cfg.execution.timeout > 0) : t.main ≠ .undefinedBehaviour := by
  intro he
  rcases hn with hn | hn
  · obtain ⟨md, inv⟩ := inv_reachable (good_flow hf) h
    have H := inv.main
    unfold MainOk at H
    rw [he] at H
    simp only at H
    omega
  · have ht : s.begin.timeoutSet = false := by
      show decide (s.cfg.execution.timeout > 0) = false
      simpa using hn
    have key : ∀ t, Reachable grow D p s.begin cap t → t.timer = .absent ∧ t.main ≠ .undefinedBehaviour := by
      intro t h
      unfold Reachable at h
      induction h with
      | refl => unfold start; simp [ht]
      | tail _ st ih =>
        obtain ⟨a, b⟩ := ih
        cases st <;> simp_all
    exact (key t h).2 he

/-- From anywhere before it acts, the timeout thread can come to the point where it is about to set `done`. -/
theorem to_firing (hl : t.live) (hd : t.done = false)
    (ht : t.timer = .testing ∨ t.timer = .drowsy ∨ t.timer = .asleep ∨ t.timer = .late ∨ t.timer = .firing) :
    ∃ t', Steps grow D t t' ∧ t'.main = t.main ∧ t'.timer = .firing ∧ t'.done = false ∧ t'.vec = t.vec := by
  have late : ∀ t : TState, t.live → t.done = false → t.timer = .late →
      ∃ t', Steps grow D t t' ∧ t'.main = t.main ∧ t'.timer = .firing ∧ t'.done = false ∧ t'.vec = t.vec :=
    fun t hl hd ht => ⟨_, .one (.lateFalse t hl ht hd), rfl, rfl, hd, rfl⟩
  have asleep : ∀ t : TState, t.live → t.done = false → t.timer = .asleep →
      ∃ t', Steps grow D t t' ∧ t'.main = t.main ∧ t'.timer = .firing ∧ t'.done = false ∧ t'.vec = t.vec := by
    intro t hl hd ht
    have w := wait_until (grow := grow) (D := D) t D
    have e : Step grow D { t with now := t.now + D } _ := .expire _ hl ht (by simp)
    obtain ⟨t', a, b⟩ := late { t with now := t.now + D, timer := .late } hl hd rfl
    exact ⟨t', w.trans (.head e a), b⟩
  have drowsy : ∀ t : TState, t.live → t.done = false → t.timer = .drowsy →
      ∃ t', Steps grow D t t' ∧ t'.main = t.main ∧ t'.timer = .firing ∧ t'.done = false ∧ t'.vec = t.vec := by
    intro t hl hd ht
    obtain ⟨t', a, b⟩ := asleep { t with timer := .asleep } hl hd rfl
    exact ⟨t', .head (.sleep t hl ht) a, b⟩
  rcases ht with ht | ht | ht | ht | ht
  · obtain ⟨t', a, b⟩ := drowsy { t with timer := .drowsy } hl hd rfl
    exact ⟨t', .head (.testFalse t hl ht hd) a, b⟩
  · exact drowsy t hl hd ht
  · exact asleep t hl hd ht
  · exact late t hl hd ht
  · exact ⟨t, .refl t, rfl, ht, hd, rfl⟩

/-- The timeout thread has not acted yet while `done` is false. -/
theorem not_yet (hf : flowOf env fuel s = some p) (h : Reachable grow D p s.begin cap t) (ht : s.cfg.execution.timeout > 0)
    (hd : t.done = false) :
    t.timer = .testing ∨ t.timer = .drowsy ∨ t.timer = .asleep ∨ t.timer = .late ∨ t.timer = .firing := by
  obtain ⟨md, inv⟩ := inv_reachable (good_flow hf) h
  have hset : s.begin.timeoutSet = true := decide_eq_true ht
  have hn : t.firedAt = none := by
    have := inv.done_eq
    rw [hd] at this
    cases hfa : t.firedAt with
    | none => rfl
    | some m => simp [hfa] at this
  cases htm : t.timer with
  | absent => have := inv.absent.1 htm; rw [hset] at this; cases this
  | iterating => have := inv.post (.inl htm); rw [hn] at this; simp at this
  | walking b n i => have := inv.post (.inr ⟨b, n, i, htm⟩); rw [hn] at this; simp at this
  | gone => have := inv.gone htm; rw [hd] at this; cases this
  | _ => simp

/-- C66: but whenever a checker is being added before `done` is set, the timeout may strike in this very moment, and the execution
has undefined behaviour. -/
theorem race_when_adding (hf : flowOf env fuel s = some p) (h : Reachable grow D p s.begin cap t) (ht : s.cfg.execution.timeout > 0)
    {k : Prog} (hm : t.main = .emplacing k) (hd : t.done = false) :
    ∃ t', Steps grow D t t' ∧ t'.main = .undefinedBehaviour := by
  have hl : t.live := by constructor <;> simp [hm]
  obtain ⟨t1, a, b, c, d, _⟩ := to_firing (grow := grow) (D := D) hl hd (not_yet hf h ht hd)
  have hl1 : t1.live := by constructor <;> simp [b, hm]
  have s1 : Step grow D t1 _ := .fire t1 hl1 c
  have s2 : Step grow D { t1 with timer := .iterating, done := true, firedAt := some t1.reads } _ := .iterateRace _ k rfl (b.trans hm)
  exact ⟨_, (a.tail s1).tail s2, rfl⟩

/-- C66: and whenever a checker is about to be added to a full vector that already holds one, the timeout thread may be left with a
pointer into the old buffer, which is freed. -/
theorem use_after_free (hf : flowOf env fuel s = some p) (h : Reachable grow D p s.begin cap t) (ht : s.cfg.execution.timeout > 0)
    {k : Prog} (hm : t.main = .todo (.emplace k)) (hd : t.done = false) (hfull : t.vec.cap ≤ t.vec.told.length)
    (hne : 0 < t.vec.told.length) :
    ∃ t' b n i, Steps grow D t t' ∧ t'.main = .todo k ∧ t'.timer = .walking b n i ∧ i < n ∧ b ≠ t'.vec.buf ∧
      Step grow D t' { t' with main := .undefinedBehaviour } := by
  obtain ⟨t1, a, b, c, d, e⟩ := to_firing (grow := grow) (D := D) (live_todo hm) hd (not_yet hf h ht hd)
  have hm1 : t1.main = .todo (.emplace k) := b.trans hm
  have s1 : Step grow D t1 _ := .fire t1 (live_todo hm1) c
  have s2 : Step grow D { t1 with timer := .iterating, done := true, firedAt := some t1.reads } _ :=
    .iterate _ (live_todo hm1) rfl (by simp [hm1])
  have s3 := Step.emplaceBegin (grow := grow) (D := D)
    { t1 with timer := .walking t1.vec.buf t1.vec.told.length 0, done := true, firedAt := some t1.reads } k hm1
  have s4 := Step.emplaceEnd (grow := grow) (D := D)
    { t1 with main := .emplacing k, timer := .walking t1.vec.buf t1.vec.told.length 0, done := true, firedAt := some t1.reads } k rfl
  have hb : t1.vec.buf ≠ (t1.vec.push grow).buf := by
    rw [e]; unfold Vec.push; rw [if_neg (by omega)]; simp
  refine ⟨_, t1.vec.buf, t1.vec.told.length, 0, (((a.tail s1).tail s2).tail s3).tail s4, rfl, rfl, by rw [e]; exact hne, hb, ?_⟩
  exact .tellDangling _ _ _ 0 (live_todo rfl) rfl (by rw [e]; exact hne) (fun hr => hb hr.1)

/-- The flow begins by adding a checker, possibly after reading `done`. -/
def addsFirst : Prog → Prop
  | .emplace _ => True
  | .readDone k => addsFirst (k false)
  | _ => False

/-- The first configured checker can be constructed. -/
def FirstCheckerFits (env : Env) (c : Configuration) : Prop :=
  if c.execution.runSimulationChecker then env.simCtorThrows = false
  else if c.execution.runAlternatingChecker then env.alternating ≠ .ctorThrows
  else if c.execution.runConstructionChecker then env.construction ≠ .ctorThrows
  else c.execution.runZXChecker = true ∧ env.zxTransformable = true ∧ env.zx ≠ .ctorThrows

theorem adds_first (hmode : mode env s.cfg = .sequential) (hc : FirstCheckerFits env s.cfg) (hf : flowOf env fuel s = some p) :
    addsFirst p := by
  unfold flowOf at hf
  rw [hmode] at hf
  cases hf
  have hcfg : s.begin.cfg = s.cfg := rfl
  unfold FirstCheckerFits at hc
  unfold seqProg
  rw [hcfg]
  by_cases h1 : s.cfg.execution.runSimulationChecker = true
  · simp only [h1, if_true] at hc ⊢
    simp only [hc, Bool.false_eq_true, if_false]
    trivial
  · simp only [h1, if_false, Bool.false_eq_true] at hc ⊢
    unfold stagesProg definitiveProg
    rw [hcfg]
    by_cases h2 : s.cfg.execution.runAlternatingChecker = true
    · simp only [h2, if_true] at hc
      simp only [h2, Bool.not_true, Bool.false_eq_true, if_false, addsFirst]
      cases ha : env.alternating with
      | ctorThrows => exact absurd ha hc
      | _ => trivial
    · simp only [h2, if_false, Bool.false_eq_true] at hc
      simp only [h2, Bool.not_false, if_true]
      rw [hcfg]
      by_cases h3 : s.cfg.execution.runConstructionChecker = true
      · simp only [h3, if_true] at hc
        simp only [h3, Bool.not_true, Bool.false_eq_true, if_false, addsFirst]
        cases ha : env.construction with
        | ctorThrows => exact absurd ha hc
        | _ => trivial
      · simp only [h3, if_false, Bool.false_eq_true] at hc
        simp only [h3, Bool.not_false, if_true]
        unfold zxProg
        rw [hcfg]
        obtain ⟨a, b, c⟩ := hc
        simp only [a, Bool.not_true, Bool.false_eq_true, if_false, addsFirst, b, if_true]
        cases ha : env.zx with
        | ctorThrows => exact absurd ha c
        | _ => trivial

/-- C66: so every sequential run with a timeout that gets to add its first checker can have undefined behaviour, whatever the
deadline, the circuits, and the checkers. -/
theorem every_timed_run_can_race (grow : Nat → Nat) (D cap : Nat) (hmode : mode env s.cfg = .sequential)
    (hc : FirstCheckerFits env s.cfg) (ht : s.cfg.execution.timeout > 0) :
    ∃ p t, flowOf env fuel s = some p ∧ Reachable grow D p s.begin cap t ∧ t.main = .undefinedBehaviour := by
  obtain ⟨p, hf⟩ : ∃ p, flowOf env fuel s = some p := by unfold flowOf; rw [hmode]; exact ⟨_, rfl⟩
  have ha := adds_first hmode hc hf
  obtain ⟨t, k, h1, h2, h3⟩ : ∃ t k, Reachable grow D p s.begin cap t ∧ t.main = .emplacing k ∧ t.done = false := by
    have key : ∀ (q : Prog) (t : TState), addsFirst q → t.main = .todo q → t.done = false →
        ∃ t' k, Steps grow D t t' ∧ t'.main = .emplacing k ∧ t'.done = false := by
      intro q
      induction q with
      | emplace k ih => intro t _ hm hd; exact ⟨_, k, .one (.emplaceBegin t k hm), rfl, hd⟩
      | readDone k ih =>
        intro t ha hm hd
        obtain ⟨t', k', a, b⟩ := ih false { t with main := .todo (k t.done), reads := t.reads + 1 } ha (by rw [hd]) hd
        exact ⟨t', k', .head (.readDone t k hm) a, b⟩
      | _ => intro t ha; cases ha
    exact key p (start p s.begin cap) ha rfl rfl
  obtain ⟨t', a, b⟩ := race_when_adding hf h1 ht h2 h3
  exact ⟨p, t', hf, h1.trans a, b⟩

/-- C67: a run with a timeout that returns without a decision does so only after the deadline, even if all checkers finished long before. -/
theorem undecided_run_waits (hf : flowOf env fuel s = some p) (h : Reachable grow D p s.begin cap t) (ht : s.cfg.execution.timeout > 0)
    {r : State} (he : t.main = .ended (.returned r)) (hd : r.done = false) : D ≤ t.now := by
  obtain ⟨md, inv⟩ := inv_reachable (good_flow hf) h
  have H := inv.main
  unfold MainOk at H
  rw [he] at H
  obtain ⟨a, b⟩ := H.2 (decide_eq_true ht) r rfl
  have c := inv.done_eq
  rw [b, ← a, hd] at c
  cases hfa : t.firedAt with
  | none => rw [hfa] at c; simp at c
  | some m => exact (inv.fired_le m hfa).2

/-- C67: once the run is decided and has notified the timeout thread, this thread is waiting only if the notification came between its
test of `done` and its wait. -/
theorem decided_run_waits_only_if_lost (hf : flowOf env fuel s = some p) (h : Reachable grow D p s.begin cap t) {r : State}
    (hm : t.main = .todo (.join r)) (hd : t.done = true) (ha : t.timer = .asleep ∨ t.timer = .drowsy) : t.lost = true := by
  obtain ⟨md, inv⟩ := inv_reachable (good_flow hf) h
  rcases inv.slept hd ha.symm with ⟨k, e⟩ | e
  · rw [hm] at e; cases e
  · exact e

/-- C67: and this can happen in every run: no time has passed, all checkers are finished and the verdict is known, but the timeout
thread sleeps and nothing but the deadline or a spurious wake-up will wake it. -/
theorem notification_can_be_lost (grow : Nat → Nat) (D cap : Nat) (hD : 0 < D) (hf : flowOf env fuel s = some p)
    (ht : s.cfg.execution.timeout > 0) {hm : Mono fun _ => false} {r : State}
    (h : run (withFired env (fun _ => false) hm) fuel s = some (.returned r)) :
    ∃ (t : TState) (r' : State), Reachable grow D p s.begin cap t ∧ t.main = .todo (.join r') ∧ r = r'.report ∧ t.done = r'.done ∧
      t.timer = .asleep ∧ t.now = 0 ∧
      ∀ n u, Step grow D { t with now := n } u → n < D → u = { t with now := n + 1 } ∨ u = { t with now := n, timer := .testing } := by
  have hset : s.begin.timeoutSet = true := decide_eq_true ht
  rw [run_flow hf, Option.some.injEq] at h
  obtain ⟨r', h1, h2⟩ : ∃ r', p.eval s.begin.timeoutSet (fun _ => false) 0 s.begin.done = .returned r' ∧ r = r'.report := by
    cases he : p.eval s.begin.timeoutSet (fun _ => false) 0 s.begin.done with
    | returned r' => rw [he] at h; simp only [Ending.andThen, Ending.returned.injEq] at h; exact ⟨r', rfl, h.symm⟩
    | threw r' => rw [he] at h; cases h
    | terminated => rw [he] at h; cases h
    | diverged => rw [he] at h; cases h
  rw [hset] at h1
  have hti : (start p s.begin cap).timer = .testing := by unfold start; simp [hset]
  have s1 : Step grow D (start p s.begin cap) _ := .testFalse _ (live_todo rfl) hti rfl
  obtain ⟨t, a, b, c, d, e⟩ := schedule_drowsy (grow := grow) (D := D) p 0 s.begin.done { start p s.begin cap with timer := .drowsy } r' rfl
    (.inl (good_flow hf)) rfl rfl h1
  have s2 : Step grow D t _ := .sleep t (live_todo b) c
  refine ⟨{ t with timer := .asleep }, r', (Steps.head s1 a).tail s2, b, h2, e, rfl, d, ?_⟩
  intro n u st hn
  have hmain : ({ t with timer := .asleep, now := n } : TState).main = .todo (.join r') := b
  cases st with
  | time => exact .inl rfl
  | spurious => exact .inr rfl
  | expire _ _ hd => simp only at hd; omega
  | _ => simp_all

/-- C68: when the timeout thread is through, the checker that is running has been told to stop. -/
theorem running_checker_told (hf : flowOf env fuel s = some p) (h : Reachable grow D p s.begin cap t) (hg : t.timer = .gone)
    (hfired : t.firedAt ≠ none) {i : Nat} {k : Prog} (hm : t.main = .checking i k) : t.vec.told[i]? = some true := by
  obtain ⟨md, inv⟩ := inv_reachable (good_flow hf) h
  have B := backed_reachable (backed_flow hf) h
  have H := inv.main
  unfold MainOk at H
  unfold BackedMain at B
  rw [hm] at H B
  obtain ⟨_, c, hi, _⟩ := H
  rcases c with c | c | ⟨_, c, _⟩ | ⟨_, c⟩
  · exact absurd c hfired
  · rw [hg] at c; cases c
  · rw [hg] at c; cases c
  · exact c i (by have := B.1; omega)

/-- C68: and only a timeout tells a checker to stop: in a flow entered without `done` set no checker has been told unless the timeout thread
has set `done`. -/
theorem told_only_by_timeout (h : Reachable grow D p s.begin cap t) {i : Nat} (hi : t.vec.told[i]? = some true) : t.firedAt ≠ none := by
  have key : ∀ t, Reachable grow D p s.begin cap t →
      ((t.timer = .iterating ∨ (∃ b n j, t.timer = .walking b n j)) → t.firedAt ≠ none) ∧
      ((∃ i : Nat, t.vec.told[i]? = some true) → t.firedAt ≠ none) := by
    intro t h
    induction h with
    | refl =>
      constructor
      · rintro (e | ⟨_, _, _, e⟩) <;> · simp only [start] at e; split at e <;> cases e
      · rintro ⟨i, e⟩
        simp only [start, List.getElem?_map, Option.map_eq_some_iff] at e
        obtain ⟨_, _, e⟩ := e
        cases e
    | tail _ st ih =>
      obtain ⟨ih1, ih2⟩ := ih
      cases st with
      | time => exact ⟨ih1, ih2⟩
      | readDone => exact ⟨ih1, ih2⟩
      | emplaceBegin => exact ⟨ih1, ih2⟩
      | emplaceEnd =>
        refine ⟨ih1, fun ⟨i, e⟩ => ih2 ⟨i, ?_⟩⟩
        unfold Vec.push at e
        split at e <;>
        · simp only [List.getElem?_append] at e
          split at e
          · exact e
          · rw [List.getElem?_singleton] at e
            split at e <;> simp at e
      | checkBegin => exact ⟨ih1, ih2⟩
      | checkEnd => exact ⟨ih1, ih2⟩
      | setDone => exact ⟨ih1, ih2⟩
      | notify =>
        refine ⟨fun e => ih1 ?_, ih2⟩
        rcases e with e | ⟨_, _, _, e⟩ <;> simp only at e <;> split at e
        · cases e
        · exact .inl e
        · cases e
        · exact .inr ⟨_, _, _, e⟩
      | clear => exact ⟨ih1, fun ⟨i, e⟩ => by simp at e⟩
      | join => exact ⟨ih1, ih2⟩
      | leave => exact ⟨ih1, ih2⟩
      | stuck => exact ⟨ih1, ih2⟩
      | testTrue => exact ⟨by simp, ih2⟩
      | testFalse => exact ⟨by simp, ih2⟩
      | sleep => exact ⟨by simp, ih2⟩
      | spurious => exact ⟨by simp, ih2⟩
      | expire => exact ⟨by simp, ih2⟩
      | lateTrue => exact ⟨by simp, ih2⟩
      | lateFalse => exact ⟨by simp, ih2⟩
      | fire => exact ⟨by simp, by simp⟩
      | iterate _ ht => exact ⟨fun _ => ih1 (.inl ht), ih2⟩
      | iterateRace => exact ⟨ih1, ih2⟩
      | tell b n j _ ht => exact ⟨fun _ => ih1 (.inr ⟨b, n, j, ht⟩), fun _ => ih1 (.inr ⟨b, n, j, ht⟩)⟩
      | tellDangling => exact ⟨ih1, ih2⟩
      | exit => exact ⟨by simp, ih2⟩
  exact (key t h).2 ⟨i, hi⟩

/-- C68: the running checker is the last one of the vector. -/
theorem running_checker_is_last (hf : flowOf env fuel s = some p) (h : Reachable grow D p s.begin cap t) {i : Nat} {k : Prog}
    (hm : t.main = .checking i k) : i + 1 = t.vec.told.length := by
  have B := backed_reachable (backed_flow hf) h
  unfold BackedMain at B
  rw [hm] at B
  exact B.1

/-- C65: the vector the two threads work on is the manager's table of checkers, those of earlier runs included: when the flow is left, it has
one element for every checker that then reports. -/
theorem vector_is_table (hf : flowOf env fuel s = some p) (h : Reachable grow D p s.begin cap t) {r : State}
    (hm : t.main = .ended (.returned r) ∨ t.main = .ended (.threw r)) : t.vec.told.length = r.checkers.length := by
  have hg : Tracks s.begin.checkers.length p := by
    unfold flowOf at hf
    split at hf
    · cases hf; exact tracks_seqProg env fuel s.begin
    · cases hf; exact tracks_symProg env s.begin
    · cases hf
  have T := tracks_reachable hg h
  unfold TracksMain at T
  rcases hm with hm | hm <;> rw [hm] at T
  · exact (T r (.inl rfl)).symm
  · exact (T r (.inr rfl)).symm

/-- Both threads are about to access the plain variable `done`, at least one of them to write, and nothing orders these accesses. -/
def RaceOnDone (t : TState) : Prop :=
  (∃ k, t.main = .todo (.setDone k)) ∧ (t.timer = .testing ∨ t.timer = .late ∨ t.timer = .firing) ∨
  (∃ k, t.main = .todo (.readDone k)) ∧ t.timer = .firing

/-- C66: every run with a timeout that decides by itself can race with the timeout thread's test of `done`. -/
theorem write_can_race (grow : Nat → Nat) (D cap : Nat) (hf : flowOf env fuel s = some p) (ht : s.cfg.execution.timeout > 0)
    {hm : Mono fun _ => false} {r : State} (h : run (withFired env (fun _ => false) hm) fuel s = some (.returned r)) (hd : r.done = true) :
    ∃ t, Reachable grow D p s.begin cap t ∧ t.now = 0 ∧ RaceOnDone t := by
  have hset : s.begin.timeoutSet = true := decide_eq_true ht
  rw [run_flow hf, Option.some.injEq] at h
  obtain ⟨r', h1, h2⟩ : ∃ r', p.eval s.begin.timeoutSet (fun _ => false) 0 s.begin.done = .returned r' ∧ r'.done = true := by
    cases he : p.eval s.begin.timeoutSet (fun _ => false) 0 s.begin.done with
    | returned r' =>
      rw [he] at h
      simp only [Ending.andThen, Ending.returned.injEq] at h
      exact ⟨r', rfl, by rw [← h] at hd; exact hd⟩
    | threw r' => rw [he] at h; cases h
    | terminated => rw [he] at h; cases h
    | diverged => rw [he] at h; cases h
  rw [hset] at h1
  have hti : (start p s.begin cap).timer = .testing := by unfold start; simp [hset]
  obtain ⟨t, k, a, b, c, d⟩ := schedule_testing (grow := grow) (D := D) p 0 (start p s.begin cap) r' rfl (.inl (good_flow hf)) hti rfl h1 h2
  exact ⟨t, a, d, .inl ⟨⟨k, b⟩, .inl c⟩⟩

/-- C66: and every read of `done` before it is set can race with the timeout thread's assignment. -/
theorem read_can_race (hf : flowOf env fuel s = some p) (h : Reachable grow D p s.begin cap t) (ht : s.cfg.execution.timeout > 0)
    {k : Bool → Prog} (hm : t.main = .todo (.readDone k)) (hd : t.done = false) : ∃ t', Steps grow D t t' ∧ RaceOnDone t' := by
  have hl : t.live := live_todo hm
  obtain ⟨t1, a, b, c, d, _⟩ := to_firing (grow := grow) (D := D) hl hd (not_yet hf h ht hd)
  exact ⟨t1, a, .inr ⟨⟨k, b.trans hm⟩, c⟩⟩

end QCEC.Props
