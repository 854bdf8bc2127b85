import Verif.Lemmas.Timeout
/-!
# Invariant of the flow with its timeout thread
-/
namespace QCEC.Tmo
open QCEC QCEC.Mgr

/-- Shape of the programs: a check is started only right after `done` was read as false, a notification follows every assignment of
`done`, and the result returned knows whether the main thread has set `done` (`md`). -/
inductive Good : Bool → Prog → Prop
  | join {md} (s : State) (h : s.done = md) : Good md (.join s)
  | leave {md} (s : State) (e : Ending) : Good md (.leave s e)
  | stuck {md} (e : Ending) (h : ∀ r, e ≠ .returned r) : Good md (.stuck e)
  | readDone {md} (k : Bool → Prog) (h1 : Good md (k true)) (h2 : Good md (k false)) : Good md (.readDone k)
  | readCheck {md} (k : Bool → Prog) (k' : Prog) (h1 : Good md (k true)) (hk : k false = .check k') (h2 : Good md k') : Good md (.readDone k)
  | emplace {md} (k : Prog) (h : Good md k) : Good md (.emplace k)
  | clear {md} (k : Prog) (h : Good md k) : Good md (.clear k)
  | signal {md} (k : Prog) (h : Good true k) : Good md (.setDone (.notify k))
  | notify (k : Prog) (h : Good true k) : Good true (.notify k)

theorem good_of {next : State → Prog} (hn : ∀ s, Good s.done (next s)) {md : Bool} (s : State) (h : s.done = md) : Good md (next s) :=
  h ▸ hn s

section good
variable (env : Env)

theorem good_zxProg (s : State) : Good s.done (zxProg env s) := by
  unfold zxProg
  split
  · exact .join s rfl
  · by_cases hz : env.zxTransformable = true
    · cases hzx : env.zx with
      | ctorThrows =>
        refine .readDone _ (by simp only [if_true]; exact .join _ rfl) ?_
        simp only [Bool.false_eq_true, if_false, hz, if_true, hzx]
        exact .stuck _ (by simp)
      | runThrows =>
        refine .readDone _ (by simp only [if_true]; exact .join _ rfl) ?_
        simp only [Bool.false_eq_true, if_false, hz, if_true, hzx]
        refine .emplace _ (.readCheck _ _ (by simp only [if_true]; exact .join _ rfl) rfl ?_)
        exact .leave _ _
      | returns r =>
        refine .readDone _ (by simp only [if_true]; exact .join _ rfl) ?_
        simp only [Bool.false_eq_true, if_false, hz, if_true, hzx]
        refine .emplace _ (.readCheck _ _ (by simp only [if_true]; exact .join _ rfl) rfl ?_)
        exact .signal _ (.join _ rfl)
    · refine .readDone _ (by simp only [if_true]; exact .join _ rfl) ?_
      simp only [Bool.false_eq_true, if_false, hz]
      split
      · exact .clear _ (.join _ rfl)
      · exact .join _ rfl

theorem good_definitiveProg (kind : Kind) (enabled : Bool) (o : Outcome) (next : State → Prog) (hn : ∀ s, Good s.done (next s))
    (s : State) : Good s.done (definitiveProg kind enabled o next s) := by
  unfold definitiveProg
  split
  · exact hn s
  · refine .readDone _ (by simp only [if_true]; exact hn s.tick) ?_
    simp only [Bool.false_eq_true, if_false]
    cases o with
    | ctorThrows => exact .leave _ _
    | runThrows =>
      refine .emplace _ (.readCheck _ _ (by simp only [if_true]; exact good_of hn _ rfl) rfl ?_)
      exact .leave _ _
    | returns r =>
      refine .emplace _ (.readCheck _ _ (by simp only [if_true]; exact good_of hn _ rfl) rfl ?_)
      split
      · exact .signal _ (good_of hn _ rfl)
      · exact good_of hn _ rfl

theorem good_stagesProg (s : State) : Good s.done (stagesProg env s) :=
  good_definitiveProg _ _ _ _ (fun s => good_definitiveProg _ _ _ _ (good_zxProg env) s) s

theorem good_afterSims (s : State) : Good s.done (afterSimsProg (stagesProg env) s) := by
  have second : ∀ s : State, Good s.done (if s.cfg.onlySimulationCheckerConfigured && s.simulationsFinished then
      signal (stagesProg env { s with done := true }) else stagesProg env s : Prog) := by
    intro s
    split
    · exact .signal _ (good_stagesProg env { s with done := true })
    · exact good_stagesProg env s
  unfold afterSimsProg
  simp only []
  split
  · exact .signal _ (second s.storeCex)
  · exact second s

theorem good_simProg : ∀ (fuel k : Nat) (s : State), Good s.done (simProg env (afterSimsProg (stagesProg env)) fuel k s) := by
  intro fuel
  induction fuel with
  | zero => intro k s; exact .stuck _ (by simp)
  | succ fuel ih =>
    intro k s
    unfold simProg
    split
    · exact good_afterSims env s
    · refine .readCheck _ _ (by simp only [if_true]; exact good_afterSims env s.tick) rfl ?_
      cases env.sim k with
      | none => exact .leave _ _
      | some r =>
        simp only []
        split
        · exact .leave _ _
        · split
          · exact good_of (good_afterSims env) _ rfl
          · exact good_of (ih (k + 1)) _ rfl

theorem good_seqProg (fuel : Nat) (s : State) : Good s.done (seqProg env fuel s) := by
  unfold seqProg
  split
  · split
    · exact .leave _ _
    · exact .emplace _ (good_simProg env fuel 0 { s with checkers := s.checkers ++ [.simulation] })
  · exact good_stagesProg env s

theorem good_symProg (s : State) : Good s.done (symProg env s) := by
  unfold symProg
  refine .readDone _ (by simp only [if_true]; exact .join _ rfl) ?_
  simp only [Bool.false_eq_true, if_false]
  split
  · cases env.zx with
    | ctorThrows => exact .stuck _ (by simp)
    | runThrows =>
      refine .emplace _ (.readCheck _ _ (by simp only [if_true]; exact .join _ rfl) rfl ?_)
      exact .leave _ _
    | returns r =>
      refine .emplace _ (.readCheck _ _ (by simp only [if_true]; exact .join _ rfl) rfl ?_)
      exact .signal _ (.join _ rfl)
  · exact .clear _ (.leave _ _)
end good

/-- Once set, `done` stays set. -/
def Mono (fired : Nat → Bool) : Prop := ∀ i j, i ≤ j → fired i = true → fired j = true

/-- The sequence of values agrees with what has happened so far. -/
def Consistent (s : TState) (fired : Nat → Bool) : Prop :=
  match s.firedAt with
  | some m => ∀ i, fired i = decide (m ≤ i)
  | none => ∀ i, i < s.reads → fired i = false

/-- Nothing has happened to the vector since the timeout thread set `done`. -/
def Calm (s : TState) : Prop :=
  s.firedAt = none ∨ s.timer = .iterating ∨
  (∃ i, s.timer = .walking s.vec.buf s.vec.told.length i ∧ ∀ j, j < i → j < s.vec.told.length → s.vec.told[j]? = some true) ∨
  (s.timer = .gone ∧ ∀ j, j < s.vec.told.length → s.vec.told[j]? = some true)

/-- The main thread's part of the invariant; `E fired` is how the flow ends when the timeout thread acts at the instant `fired`. -/
def MainOk (E : (Nat → Bool) → Ending) (tset : Bool) (D : Nat) (md : Bool) (s : TState) : Prop :=
  match s.main with
  | .todo p => (Good md p ∨ ∃ k, p = .check k ∧ Good md k ∧ Calm s) ∧
      ∀ fired, Mono fired → Consistent s fired → p.eval tset fired s.reads md = E fired
  | .emplacing k => Good md k ∧ ∀ fired, Mono fired → Consistent s fired → k.eval tset fired s.reads md = E fired
  | .checking i k => Good md k ∧ Calm s ∧ i = s.vec.told.length - 1 ∧
      ∀ fired, Mono fired → Consistent s fired → k.eval tset fired s.reads md = E fired
  | .ended e => (∀ fired, Mono fired → Consistent s fired → e = E fired) ∧
      (tset = true → ∀ r, e = .returned r → r.done = md ∧ s.done = true)
  | .undefinedBehaviour => D ≤ s.now

/-- The invariant; `md`: the main thread has set `done`. -/
structure InvAt (E : (Nat → Bool) → Ending) (tset : Bool) (D : Nat) (md : Bool) (s : TState) : Prop where
  done_eq : s.done = (md || s.firedAt.isSome)
  fired_le : ∀ m, s.firedAt = some m → m ≤ s.reads ∧ D ≤ s.now
  absent : s.timer = .absent ↔ tset = false
  pre : s.firedAt.isSome → s.timer = .iterating ∨ (∃ b n i, s.timer = .walking b n i) ∨ s.timer = .gone
  post : s.timer = .iterating ∨ (∃ b n i, s.timer = .walking b n i) → s.firedAt.isSome
  gone : s.timer = .gone → s.done = true
  late : s.timer = .late ∨ s.timer = .firing → D ≤ s.now
  slept : s.done = true → s.timer = .drowsy ∨ s.timer = .asleep → (∃ k, s.main = .todo (.notify k)) ∨ s.lost = true
  main : MainOk E tset D md s

/-- Steps that leave the main thread's part alone. -/
theorem MainOk.mono {E tset D md} {s s' : TState} (h : MainOk E tset D md s) (hm : s'.main = s.main) (hr : s'.reads = s.reads)
    (hl : s'.vec.told.length = s.vec.told.length) (hd : s.done = true → s'.done = true) (hn : s.now ≤ s'.now)
    (hc : ∀ fired, Consistent s' fired → Consistent s fired) (hcalm : (∀ k, s.main ≠ .emplacing k) → Calm s → Calm s') :
    MainOk E tset D md s' := by
  unfold MainOk at h ⊢
  rw [hm]
  cases hmain : s.main with
  | todo p =>
    rw [hmain] at h
    obtain ⟨h1, h2⟩ := h
    refine ⟨?_, fun f a b => hr ▸ h2 f a (hc f b)⟩
    rcases h1 with h1 | ⟨k, a, b, c⟩
    · exact .inl h1
    · exact .inr ⟨k, a, b, hcalm (by simp [hmain]) c⟩
  | emplacing k => rw [hmain] at h; exact ⟨h.1, fun f a b => hr ▸ h.2 f a (hc f b)⟩
  | checking i k =>
    rw [hmain] at h
    exact ⟨h.1, hcalm (by simp [hmain]) h.2.1, hl ▸ h.2.2.1, fun f a b => hr ▸ h.2.2.2 f a (hc f b)⟩
  | ended e => rw [hmain] at h; exact ⟨fun f a b => h.1 f a (hc f b), fun ht r hr => ⟨(h.2 ht r hr).1, hd (h.2 ht r hr).2⟩⟩
  | undefinedBehaviour => rw [hmain] at h; simp only at h ⊢; omega

theorem Good.notCheck {md p} (h : Good md p) : ∀ k, p ≠ .check k := by intro k e; subst e; cases h

theorem Vec.push_length (grow : Nat → Nat) (v : Vec) : (v.push grow).told.length = v.told.length + 1 := by
  unfold Vec.push; split <;> simp

/-- Steps of the timeout thread that do not touch `done` or the vector, and time. -/
theorem InvAt.timer {E tset D md} {s : TState} (h : InvAt E tset D md s) (t : Timer) (n : Nat)
    (hn : s.now ≤ n)
    (ha : t = .absent ↔ tset = false) (hp : s.firedAt.isSome → t = .iterating ∨ (∃ b n i, t = .walking b n i) ∨ t = .gone)
    (hq : t = .iterating ∨ (∃ b n i, t = .walking b n i) → s.firedAt.isSome)
    (hg : t = .gone → s.done = true) (hl : t = .late ∨ t = .firing → D ≤ n)
    (hs : s.done = true → t = .drowsy ∨ t = .asleep → (∃ k, s.main = .todo (.notify k)) ∨ s.lost = true)
    (hc : (∀ k, s.main ≠ .emplacing k) → Calm s → Calm { s with timer := t, now := n }) : InvAt E tset D md { s with timer := t, now := n } where
  done_eq := h.done_eq
  fired_le m hm := ⟨(h.fired_le m hm).1, Nat.le_trans (h.fired_le m hm).2 hn⟩
  absent := ha
  pre := hp
  post := hq
  gone := hg
  late := hl
  slept := hs
  main := h.main.mono rfl rfl rfl id hn (fun _ a => a) hc

theorem calm_none {s : TState} (h : s.firedAt = none) : Calm s := .inl h

theorem inv_step {grow : Nat → Nat} {E tset D md} {s s' : TState} (h : InvAt E tset D md s) (st : Step grow D s s') :
    ∃ md', InvAt E tset D md' s' := by
  have hnone : ∀ t, s.timer = t → t ≠ .iterating → (∀ b n i, t ≠ .walking b n i) → t ≠ .gone → s.firedAt = none := by
    intro t ht a b c
    cases hf : s.firedAt with
    | none => rfl
    | some m =>
      rcases h.pre (by simp [hf]) with e | ⟨x, y, z, e⟩ | e
      · exact absurd (ht.symm.trans e) a
      · exact absurd (ht.symm.trans e) (b x y z)
      · exact absurd (ht.symm.trans e) c
  have hab : ∀ t, s.timer = t → t ≠ .absent → tset = true := by
    intro t ht a
    cases htt : tset with
    | true => rfl
    | false => exact absurd (h.absent.2 htt) (ht ▸ a)
  cases st with
  | time =>
    exact ⟨md, h.timer s.timer _ (by omega) h.absent h.pre h.post h.gone (fun a => by have := h.late a; omega) h.slept (fun _ c => c)⟩
  | readDone k hm =>
    have H := h.main
    unfold MainOk at H; rw [hm] at H
    obtain ⟨g, ev⟩ := H
    have g' : Good md (.readDone k) := by
      rcases g with g | ⟨k', e, _⟩
      · exact g
      · cases e
    refine ⟨md, ⟨h.done_eq, fun m e => ⟨Nat.le_trans (h.fired_le m e).1 (Nat.le_succ _), (h.fired_le m e).2⟩, h.absent, h.pre, h.post, h.gone,
      h.late, ?_, ?_⟩⟩
    · intro a b
      rcases h.slept a b with ⟨k', e⟩ | e
      · rw [hm] at e; cases e
      · exact .inr e
    · unfold MainOk
      refine ⟨?_, ?_⟩
      · cases g' with
        | readDone _ h1 h2 => left; cases s.done <;> assumption
        | readCheck _ k' h1 hk h2 =>
          cases hd : s.done with
          | true => exact .inl h1
          | false =>
            refine .inr ⟨k', hk, h2, calm_none ?_⟩
            have := h.done_eq
            rw [hd] at this
            show s.firedAt = none
            cases hf : s.firedAt with
            | none => rfl
            | some m => simp [hf] at this
      · intro fired fm fc
        have hold : Consistent s fired := by
          unfold Consistent at fc ⊢
          cases hf : s.firedAt with
          | none => simp only [hf] at fc ⊢; intro i hi; exact fc i (by omega)
          | some m => simp only [hf] at fc ⊢; exact fc
        have he := ev fired fm hold
        simp only [Prog.eval] at he
        rw [← he]
        congr 2
        rw [h.done_eq]
        unfold Consistent at fc
        cases hf : s.firedAt with
        | none =>
          simp only [hf] at fc
          rw [fc s.reads (by omega)]; simp
        | some m =>
          simp only [hf] at fc
          have ht : tset = true := by
            cases htt : tset with
            | true => rfl
            | false =>
              have := h.absent.2 htt
              rcases h.pre (by simp [hf]) with e | ⟨x, y, z, e⟩ | e <;> simp_all
          rw [fc s.reads, decide_eq_true (h.fired_le m hf).1, ht]; simp
  | emplaceBegin k hm =>
    have H := h.main
    unfold MainOk at H; rw [hm] at H
    obtain ⟨g, ev⟩ := H
    have g' : Good md k := by
      rcases g with g | ⟨k', e, _⟩
      · cases g; assumption
      · cases e
    refine ⟨md, ⟨h.done_eq, h.fired_le, h.absent, h.pre, h.post, h.gone, h.late, ?_, ?_⟩⟩
    · intro a b
      rcases h.slept a b with ⟨k', e⟩ | e
      · rw [hm] at e; cases e
      · exact .inr e
    · unfold MainOk
      exact ⟨g', fun f a b => ev f a b⟩
  | emplaceEnd k hm =>
    have H := h.main
    unfold MainOk at H; rw [hm] at H
    obtain ⟨g, ev⟩ := H
    refine ⟨md, ⟨h.done_eq, h.fired_le, h.absent, h.pre, h.post, h.gone, h.late, ?_, ?_⟩⟩
    · intro a b
      rcases h.slept a b with ⟨k', e⟩ | e
      · rw [hm] at e; cases e
      · exact .inr e
    · unfold MainOk
      exact ⟨.inl g, fun f a b => ev f a b⟩
  | checkBegin k hm =>
    have H := h.main
    unfold MainOk at H; rw [hm] at H
    obtain ⟨g, ev⟩ := H
    obtain ⟨k', e, gk, c⟩ : ∃ k', Prog.check k = .check k' ∧ Good md k' ∧ Calm s := by
      rcases g with g | g
      · exact absurd rfl (g.notCheck k)
      · exact g
    cases e
    refine ⟨md, ⟨h.done_eq, h.fired_le, h.absent, h.pre, h.post, h.gone, h.late, ?_, ?_⟩⟩
    · intro a b
      rcases h.slept a b with ⟨k', e⟩ | e
      · rw [hm] at e; cases e
      · exact .inr e
    · unfold MainOk
      exact ⟨gk, c, rfl, fun f a b => ev f a b⟩
  | checkEnd i k hm =>
    have H := h.main
    unfold MainOk at H; rw [hm] at H
    obtain ⟨g, _, _, ev⟩ := H
    refine ⟨md, ⟨h.done_eq, h.fired_le, h.absent, h.pre, h.post, h.gone, h.late, ?_, ?_⟩⟩
    · intro a b
      rcases h.slept a b with ⟨k', e⟩ | e
      · rw [hm] at e; cases e
      · exact .inr e
    · unfold MainOk
      exact ⟨.inl g, fun f a b => ev f a b⟩
  | setDone k hm =>
    have H := h.main
    unfold MainOk at H; rw [hm] at H
    obtain ⟨g, ev⟩ := H
    obtain ⟨k', e, gk⟩ : ∃ k', k = .notify k' ∧ Good true k' := by
      rcases g with g | ⟨k', e, _⟩
      · cases g; exact ⟨_, rfl, by assumption⟩
      · cases e
    subst e
    refine ⟨true, ⟨by simp, h.fired_le, h.absent, h.pre, h.post, fun _ => rfl, h.late, fun _ _ => .inl ⟨k', rfl⟩, ?_⟩⟩
    unfold MainOk
    exact ⟨.inl (.notify _ gk), fun f a b => ev f a b⟩
  | notify k hm =>
    have H := h.main
    unfold MainOk at H; rw [hm] at H
    obtain ⟨g, ev⟩ := H
    obtain ⟨e, gk⟩ : md = true ∧ Good true k := by
      rcases g with g | ⟨k', e, _⟩
      · cases g; exact ⟨rfl, by assumption⟩
      · cases e
    subst e
    by_cases ha : s.timer = .asleep
    · have hf := hnone _ ha (by simp) (by simp) (by simp)
      refine ⟨true, ⟨h.done_eq, h.fired_le, ?_, ?_, ?_, ?_, ?_, ?_, ?_⟩⟩
      · simp only [if_pos ha]
        have := hab _ ha (by simp)
        simp [this]
      · simp [hf]
      · simp [ha]
      · simp [ha]
      · simp [ha]
      · simp [ha]
      · unfold MainOk
        exact ⟨.inl gk, fun f a b => ev f a b⟩
    · refine ⟨true, ⟨h.done_eq, h.fired_le, ?_, ?_, ?_, ?_, ?_, ?_, ?_⟩⟩
      · simp only [if_neg ha]; exact h.absent
      · simp only [if_neg ha]; exact h.pre
      · simp only [if_neg ha]; exact h.post
      · simp only [if_neg ha]; exact h.gone
      · simp only [if_neg ha]; exact h.late
      · simp only [if_neg ha]
        intro _ b
        rcases b with b | b
        · right; simp [b]
        · exact absurd b ha
      · unfold MainOk
        exact ⟨.inl gk, fun f a b => ev f a b⟩
  | clear k hm =>
    have H := h.main
    unfold MainOk at H; rw [hm] at H
    obtain ⟨g, ev⟩ := H
    have g' : Good md k := by
      rcases g with g | ⟨k', e, _⟩
      · cases g; assumption
      · cases e
    refine ⟨md, ⟨h.done_eq, h.fired_le, h.absent, h.pre, h.post, h.gone, h.late, ?_, ?_⟩⟩
    · intro a b
      rcases h.slept a b with ⟨k', e⟩ | e
      · rw [hm] at e; cases e
      · exact .inr e
    · unfold MainOk
      exact ⟨.inl g', fun f a b => ev f a b⟩
  | join r hm ht =>
    have H := h.main
    unfold MainOk at H; rw [hm] at H
    obtain ⟨g, ev⟩ := H
    have g' : r.done = md := by
      rcases g with g | ⟨k', e, _⟩
      · cases g; assumption
      · cases e
    refine ⟨md, ⟨h.done_eq, h.fired_le, h.absent, h.pre, h.post, h.gone, h.late, ?_, ?_⟩⟩
    · intro a b
      rcases h.slept a b with ⟨k', e⟩ | e
      · rw [hm] at e; cases e
      · exact .inr e
    · unfold MainOk
      refine ⟨fun f a b => ev f a b, fun t r' e => ?_⟩
      cases e
      refine ⟨g', ?_⟩
      rcases ht with ht | ht
      · rw [h.absent.1 ht] at t; cases t
      · exact h.gone ht
  | leave r e hm =>
    have H := h.main
    unfold MainOk at H; rw [hm] at H
    obtain ⟨g, ev⟩ := H
    refine ⟨md, ⟨h.done_eq, h.fired_le, h.absent, h.pre, h.post, h.gone, h.late, ?_, ?_⟩⟩
    · intro a b
      rcases h.slept a b with ⟨k', e⟩ | e
      · rw [hm] at e; cases e
      · exact .inr e
    · unfold MainOk
      refine ⟨fun f a b => ?_, fun t r' e => ?_⟩
      · have := ev f a b
        simp only [Prog.eval] at this
        rw [← this]
        by_cases ht : s.timer = .absent
        · simp [ht, h.absent.1 ht]
        · have : tset = true := by
            cases htt : tset with
            | true => rfl
            | false => exact absurd (h.absent.2 htt) ht
          simp [ht, this]
      · have ht : s.timer ≠ .absent := fun c => by rw [h.absent.1 c] at t; cases t
        simp [ht] at e
  | stuck e hm =>
    have H := h.main
    unfold MainOk at H; rw [hm] at H
    obtain ⟨g, ev⟩ := H
    have g' : ∀ r, e ≠ .returned r := by
      rcases g with g | ⟨k', e, _⟩
      · cases g; assumption
      · cases e
    refine ⟨md, ⟨h.done_eq, h.fired_le, h.absent, h.pre, h.post, h.gone, h.late, ?_, ?_⟩⟩
    · intro a b
      rcases h.slept a b with ⟨k', e⟩ | e
      · rw [hm] at e; cases e
      · exact .inr e
    · unfold MainOk
      exact ⟨fun f a b => ev f a b, fun t r' e => absurd e (g' r')⟩
  | testTrue hl ht hd =>
    have hf := hnone _ ht (by simp) (by simp) (by simp)
    refine ⟨md, h.timer .gone s.now (by omega) ?_ (by simp [hf]) (by simp) (fun _ => hd) (by simp) (by simp) (fun _ _ => calm_none hf)⟩
    simp [hab _ ht (by simp)]
  | testFalse hl ht hd =>
    have hf := hnone _ ht (by simp) (by simp) (by simp)
    refine ⟨md, h.timer .drowsy s.now (by omega) ?_ (by simp [hf]) (by simp) (by simp) (by simp) (by simp [hd]) (fun _ _ => calm_none hf)⟩
    simp [hab _ ht (by simp)]
  | sleep hl ht =>
    have hf := hnone _ ht (by simp) (by simp) (by simp)
    refine ⟨md, h.timer .asleep s.now (by omega) ?_ (by simp [hf]) (by simp) (by simp) (by simp) (fun a _ => h.slept a (.inl ht)) (fun _ _ => calm_none hf)⟩
    simp [hab _ ht (by simp)]
  | spurious hl ht =>
    have hf := hnone _ ht (by simp) (by simp) (by simp)
    refine ⟨md, h.timer .testing s.now (by omega) ?_ (by simp [hf]) (by simp) (by simp) (by simp) (by simp) (fun _ _ => calm_none hf)⟩
    simp [hab _ ht (by simp)]
  | expire hl ht hd =>
    have hf := hnone _ ht (by simp) (by simp) (by simp)
    refine ⟨md, h.timer .late s.now (by omega) ?_ (by simp [hf]) (by simp) (by simp) (fun _ => hd) (by simp) (fun _ _ => calm_none hf)⟩
    simp [hab _ ht (by simp)]
  | lateTrue hl ht hd =>
    have hf := hnone _ ht (by simp) (by simp) (by simp)
    refine ⟨md, h.timer .gone s.now (by omega) ?_ (by simp [hf]) (by simp) (fun _ => hd) (by simp) (by simp) (fun _ _ => calm_none hf)⟩
    simp [hab _ ht (by simp)]
  | lateFalse hl ht hd =>
    have hf := hnone _ ht (by simp) (by simp) (by simp)
    refine ⟨md, h.timer .firing s.now (by omega) ?_ (by simp [hf]) (by simp) (by simp) (fun _ => h.late (.inl ht)) (by simp) (fun _ _ => calm_none hf)⟩
    simp [hab _ ht (by simp)]
  | fire hl ht =>
    have hf := hnone _ ht (by simp) (by simp) (by simp)
    have hts := hab _ ht (by simp)
    refine ⟨md, ⟨by simp, ?_, by simp [hts], by simp, by simp, by simp, by simp, by simp, ?_⟩⟩
    · intro m e
      simp only [Option.some.injEq] at e
      exact ⟨by simp only; omega, h.late (.inr ht)⟩
    · refine h.main.mono rfl rfl rfl (fun _ => rfl) (Nat.le_refl _) ?_ (fun _ _ => .inr (.inl rfl))
      intro fired fc
      unfold Consistent at fc ⊢
      simp only [hf] at fc ⊢
      intro i hi
      rw [fc i]; simp; omega
  | iterate hl ht hm =>
    have hs := h.post (.inl ht)
    refine ⟨md, h.timer _ s.now (by omega) ?_ (fun _ => .inr (.inl ⟨_, _, _, rfl⟩)) (fun _ => hs) (by simp) (by simp) (by simp)
      (fun _ _ => .inr (.inr (.inl ⟨0, rfl, by simp⟩)))⟩
    simp [hab _ ht (by simp)]
  | iterateRace k ht hm =>
    have hs := h.post (.inl ht)
    obtain ⟨m, hs⟩ := Option.isSome_iff_exists.1 hs
    refine ⟨md, ⟨h.done_eq, h.fired_le, h.absent, h.pre, h.post, h.gone, h.late, ?_, ?_⟩⟩
    · intro a b
      simp [ht] at b
    · unfold MainOk
      exact (h.fired_le m hs).2
  | tell b n i hl ht hi hr =>
    have hs := h.post (.inr ⟨b, n, i, ht⟩)
    have hts := hab _ ht (by simp)
    refine ⟨md, ⟨h.done_eq, h.fired_le, by simp [hts], fun _ => .inr (.inl ⟨_, _, _, rfl⟩), fun _ => hs, by simp, by simp, by simp, ?_⟩⟩
    refine h.main.mono rfl rfl (by simp) id (Nat.le_refl _) (fun _ a => a) ?_
    intro _ c
    rcases c with c | c | ⟨i', c, d⟩ | ⟨c, d⟩
    · rw [c] at hs; simp at hs
    · rw [ht] at c; cases c
    · rw [ht] at c
      cases c
      refine .inr (.inr (.inl ⟨i + 1, by simp, ?_⟩))
      intro j hj hj'
      simp only [List.length_set] at hj'
      simp only [List.getElem?_set]
      by_cases e : i = j
      · subst e; simp [hj']
      · rw [if_neg e]; exact d j (by omega) hj'
    · rw [ht] at c; cases c
  | tellDangling b n i hl ht hi hr =>
    have hs := h.post (.inr ⟨b, n, i, ht⟩)
    obtain ⟨m, hs⟩ := Option.isSome_iff_exists.1 hs
    refine ⟨md, ⟨h.done_eq, h.fired_le, h.absent, h.pre, h.post, h.gone, h.late, ?_, ?_⟩⟩
    · intro a b
      simp [ht] at b
    · unfold MainOk
      exact (h.fired_le m hs).2
  | exit b n i hl ht hi =>
    have hs := h.post (.inr ⟨b, n, i, ht⟩)
    refine ⟨md, h.timer .gone s.now (by omega) ?_ (by simp) (by simp) ?_ (by simp) (by simp) ?_⟩
    · simp [hab _ ht (by simp)]
    · intro _; rw [h.done_eq, hs]; simp
    · intro _ c
      rcases c with c | c | ⟨i', c, d⟩ | ⟨c, d⟩
      · rw [c] at hs; simp at hs
      · rw [ht] at c; cases c
      · rw [ht] at c
        cases c
        exact .inr (.inr (.inr ⟨rfl, fun j hj => d j (by simp only at hj; omega) hj⟩))
      · rw [ht] at c; cases c

/-- The invariant holds in all reachable states. -/
theorem inv_reachable {grow : Nat → Nat} {D : Nat} {p : Prog} {r : State} {cap : Nat} {s : TState} (hg : Good r.done p)
    (h : Reachable grow D p r cap s) : ∃ md, InvAt (fun fired => p.eval r.timeoutSet fired 0 r.done) r.timeoutSet D md s := by
  unfold Reachable at h
  induction h with
  | refl =>
    refine ⟨r.done, ⟨by simp [start], by simp [start], ?_, by simp [start], ?_, ?_, ?_, ?_, ?_⟩⟩
    · unfold start; cases r.timeoutSet <;> simp
    · unfold start; cases r.timeoutSet <;> simp
    · unfold start; cases r.timeoutSet <;> simp
    · unfold start; cases r.timeoutSet <;> simp
    · unfold start; cases r.timeoutSet <;> simp
    · unfold MainOk start
      exact ⟨.inl hg, fun _ _ _ => rfl⟩
  | tail _ st ih =>
    obtain ⟨md, ih⟩ := ih
    exact inv_step ih st

end QCEC.Tmo
