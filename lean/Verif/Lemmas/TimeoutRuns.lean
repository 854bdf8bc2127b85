import Verif.Lemmas.TimeoutInv
/-!
# Schedules of the flow with its timeout thread
-/
namespace QCEC.Tmo
open QCEC QCEC.Mgr

variable {grow : Nat → Nat} {D : Nat}

theorem Steps.trans {a b c : TState} (h1 : Steps grow D a b) (h2 : Steps grow D b c) : Steps grow D a c := by
  induction h2 with
  | refl => exact h1
  | tail _ st ih => exact .tail ih st

theorem Steps.one {a b : TState} (h : Step grow D a b) : Steps grow D a b := .tail (.refl a) h

theorem Steps.head {a b c : TState} (h1 : Step grow D a b) (h2 : Steps grow D b c) : Steps grow D a c := (Steps.one h1).trans h2

/-- Time passes. -/
theorem wait_until (s : TState) (n : Nat) : Steps grow D s { s with now := s.now + n } := by
  induction n with
  | zero => exact .refl s
  | succ n ih => exact .tail ih (.time _)

/-- The timeout thread tells all checkers of the vector. -/
theorem walk (n : Nat) : ∀ (s : TState) (i : Nat), s.live → (∀ k, s.main ≠ .emplacing k) →
    s.timer = .walking s.vec.buf s.vec.told.length i → s.vec.told.length - i = n →
    ∃ s', Steps grow D s s' ∧ s'.main = s.main ∧ s'.timer = .gone ∧ s'.done = s.done ∧ s'.now = s.now := by
  induction n with
  | zero =>
    intro s i hl hm ht hn
    exact ⟨_, .one (.exit s _ _ i hl ht (by omega)), rfl, rfl, rfl, rfl⟩
  | succ n ih =>
    intro s i hl hm ht hn
    have st : Step grow D s _ := .tell s _ _ i hl ht (by omega) ⟨rfl, by omega, fun k e => absurd e (hm k)⟩
    obtain ⟨s', a, b, c, d, e⟩ := ih
      { s with timer := .walking s.vec.buf s.vec.told.length (i + 1), vec := { s.vec with told := s.vec.told.set i true } } (i + 1)
      hl hm (by simp) (by simp; omega)
    exact ⟨s', .head st a, b, c, d, e⟩

/-- From its sleep, with the deadline passed, the timeout thread gets to its end, setting `done` if necessary. -/
theorem finish_timer (s : TState) (hl : s.live) (hm : ∀ k, s.main ≠ .emplacing k) (ht : s.timer = .asleep) (hd : D ≤ s.now) :
    ∃ s', Steps grow D s s' ∧ s'.main = s.main ∧ s'.timer = .gone ∧ s'.done = true := by
  have s1 : Step grow D s _ := .expire s hl ht hd
  cases hdone : s.done with
  | true =>
    exact ⟨_, .head s1 (.one (.lateTrue _ hl rfl hdone)), rfl, rfl, hdone⟩
  | false =>
    have s2 : Step grow D { s with timer := .late } _ := .lateFalse _ hl rfl hdone
    have s3 : Step grow D { s with timer := .firing } _ := .fire _ hl rfl
    have s4 : Step grow D { s with timer := .iterating, done := true, firedAt := some s.reads } _ := .iterate _ hl rfl hm
    obtain ⟨s', a, b, c, d, e⟩ := walk (grow := grow) (D := D) _
      { s with timer := .walking s.vec.buf s.vec.told.length 0, done := true, firedAt := some s.reads } 0 hl hm rfl rfl
    exact ⟨s', .head s1 (.head s2 (.head s3 (.head s4 a))), b, c, d⟩

/-- The two threads are where the schedule wants them before read number `n`. -/
def Ready (tset : Bool) (fired : Nat → Bool) (D n : Nat) (md : Bool) (s : TState) : Prop :=
  (tset = false ∧ s.timer = .absent ∧ s.done = md) ∨ (tset = true ∧ s.timer = .asleep ∧ D ≤ s.now ∧ s.done = md) ∨
  (tset = true ∧ s.timer = .gone ∧ s.done = true ∧ (md = true ∨ fired n = true))

theorem live_todo {s : TState} {p : Prog} (h : s.main = .todo p) : s.live := by constructor <;> simp [h]

/-- Every instant at which `done` may be set is realised by a schedule without undefined behaviour. -/
theorem schedule (tset : Bool) (fired : Nat → Bool) (hf : Mono fired) (p : Prog) : ∀ (n : Nat) (md : Bool) (s : TState),
    s.main = .todo p → Ready tset fired D n md s → ∃ s', Steps grow D s s' ∧ s'.main = .ended (p.eval tset fired n md) := by
  induction p with
  | join r =>
    intro n md s hm hr
    rcases hr with ⟨_, t, _⟩ | ⟨_, t, d, _⟩ | ⟨_, t, _⟩
    · exact ⟨_, .one (.join s r hm (.inl t)), rfl⟩
    · obtain ⟨s', a, b, c, _⟩ := finish_timer (grow := grow) s (live_todo hm) (by simp [hm]) t d
      exact ⟨_, .tail a (.join s' r (b.trans hm) (.inr c)), rfl⟩
    · exact ⟨_, .one (.join s r hm (.inr t)), rfl⟩
  | leave r e =>
    intro n md s hm hr
    refine ⟨_, .one (.leave s r e hm), ?_⟩
    rcases hr with ⟨a, t, _⟩ | ⟨a, t, d, _⟩ | ⟨a, t, _⟩ <;> simp [Prog.eval, a, t]
  | stuck e =>
    intro n md s hm hr
    exact ⟨_, .one (.stuck s e hm), rfl⟩
  | readDone k ih =>
    intro n md s hm hr
    -- bring the value of `done` to what it should be
    obtain ⟨s1, st, hm1, hd, hr1⟩ : ∃ s1, Steps grow D s s1 ∧ s1.main = s.main ∧ s1.done = (md || (tset && fired n)) ∧
        Ready tset fired D (n + 1) md { s1 with main := .todo (k s1.done), reads := s1.reads + 1 } := by
      rcases hr with ⟨a, t, d⟩ | ⟨a, t, d, e⟩ | ⟨a, t, d, e⟩
      · exact ⟨s, .refl s, rfl, by simp [a, d], .inl ⟨a, t, d⟩⟩
      · cases hfn : fired n with
        | false => exact ⟨s, .refl s, rfl, by simp [e], .inr (.inl ⟨a, t, d, e⟩)⟩
        | true =>
          obtain ⟨s', x, y, z, w⟩ := finish_timer (grow := grow) s (live_todo hm) (by simp [hm]) t d
          exact ⟨s', x, y, by simp [w, a], .inr (.inr ⟨a, z, w, .inr (hf n (n + 1) (Nat.le_succ n) hfn)⟩)⟩
      · refine ⟨s, .refl s, rfl, ?_, .inr (.inr ⟨a, t, d, ?_⟩)⟩
        · rcases e with e | e <;> simp [d, e, a]
        · rcases e with e | e
          · exact .inl e
          · exact .inr (hf n (n + 1) (Nat.le_succ n) e)
    have rd : Step grow D s1 _ := .readDone s1 k (hm1.trans hm)
    obtain ⟨s', x, y⟩ := ih s1.done (n + 1) md _ rfl hr1
    refine ⟨s', st.trans (.head rd x), ?_⟩
    rw [y, hd]; rfl
  | emplace k ih =>
    intro n md s hm hr
    obtain ⟨s', x, y⟩ := ih n md { s with main := .todo k, vec := s.vec.push grow } rfl hr
    exact ⟨s', .head (.emplaceBegin s k hm) (.head (.emplaceEnd _ k rfl) x), y⟩
  | check k ih =>
    intro n md s hm hr
    obtain ⟨s', x, y⟩ := ih n md { s with main := .todo k } rfl hr
    exact ⟨s', .head (.checkBegin s k hm) (.head (.checkEnd _ _ k rfl) x), y⟩
  | setDone k ih =>
    intro n md s hm hr
    obtain ⟨s', x, y⟩ := ih n true { s with main := .todo k, done := true } rfl (by
      rcases hr with ⟨a, t, d⟩ | ⟨a, t, d, e⟩ | ⟨a, t, d, e⟩
      · exact .inl ⟨a, t, rfl⟩
      · exact .inr (.inl ⟨a, t, d, rfl⟩)
      · exact .inr (.inr ⟨a, t, rfl, .inl rfl⟩))
    exact ⟨s', .head (.setDone s k hm) x, y⟩
  | notify k ih =>
    intro n md s hm hr
    by_cases ht : s.timer = .asleep
    · have hst : Step grow D s _ := .notify s k hm
      simp only [if_pos ht] at hst
      obtain ⟨a, d, e⟩ : tset = true ∧ D ≤ s.now ∧ s.done = md := by
        rcases hr with ⟨a, t, d⟩ | ⟨a, t, d, e⟩ | ⟨a, t, d, e⟩
        · rw [ht] at t; cases t
        · exact ⟨a, d, e⟩
        · rw [ht] at t; cases t
      cases hdone : s.done with
      | true =>
        obtain ⟨s', x, y⟩ := ih n md { s with main := .todo k, timer := .gone, lost := s.lost || decide (s.timer = .drowsy) } rfl
          (.inr (.inr ⟨a, rfl, hdone, .inl (e ▸ hdone)⟩))
        exact ⟨s', .head hst (.head (.testTrue _ (live_todo rfl) rfl hdone) x), y⟩
      | false =>
        obtain ⟨s', x, y⟩ := ih n md { s with main := .todo k, timer := .asleep, lost := s.lost || decide (s.timer = .drowsy) } rfl
          (.inr (.inl ⟨a, rfl, d, e⟩))
        exact ⟨s', .head hst (.head (.testFalse _ (live_todo rfl) rfl hdone) (.head (.sleep _ (live_todo rfl) rfl) x)), y⟩
    · have hst : Step grow D s _ := .notify s k hm
      simp only [if_neg ht] at hst
      obtain ⟨s', x, y⟩ := ih n md { s with main := .todo k, lost := s.lost || decide (s.timer = .drowsy) } rfl hr
      exact ⟨s', .head hst x, y⟩
  | clear k ih =>
    intro n md s hm hr
    obtain ⟨s', x, y⟩ := ih n md { s with main := .todo k, vec := { s.vec with told := [] } } rfl hr
    exact ⟨s', .head (.clear s k hm) x, y⟩

/-- While the timeout thread is about to wait, the main thread can get to the end of the function. -/
theorem schedule_drowsy (p : Prog) : ∀ (n : Nat) (md : Bool) (s : TState) (r : State), s.main = .todo p → Good md p ∨ (∃ k, p = .check k ∧ Good md k) →
    s.timer = .drowsy → s.done = md → p.eval true (fun _ => false) n md = .returned r →
    ∃ s', Steps grow D s s' ∧ s'.main = .todo (.join r) ∧ s'.timer = .drowsy ∧ s'.now = s.now ∧ s'.done = r.done := by
  induction p with
  | join r' =>
    intro n md s r hm hg ht hd he
    rcases hg with hg | ⟨k, e, _⟩
    · cases hg
      cases he
      exact ⟨s, .refl s, hm, ht, rfl, by simp_all⟩
    · cases e
  | leave r' e => intro n md s r hm hg ht hd he; simp [Prog.eval] at he
  | stuck e =>
    intro n md s r hm hg ht hd he
    rcases hg with hg | ⟨k, e, _⟩
    · cases hg with
      | stuck _ h => exact absurd he (h r)
    · cases e
  | readDone k ih =>
    intro n md s r hm hg ht hd he
    have hg' : Good md (.readDone k) := by
      rcases hg with hg | ⟨k, e, _⟩
      · exact hg
      · cases e
    have hkd : Good md (k s.done) ∨ ∃ k', k s.done = .check k' ∧ Good md k' := by
      cases hg' with
      | readDone _ h1 h2 => left; cases s.done <;> assumption
      | readCheck _ k' h1 hk h2 =>
        cases s.done with
        | true => exact .inl h1
        | false => exact .inr ⟨k', hk, h2⟩
    simp only [Prog.eval, Bool.and_false, Bool.or_false] at he
    obtain ⟨s', a, b, c, d, f⟩ := ih s.done (n + 1) md { s with main := .todo (k s.done), reads := s.reads + 1 } r rfl hkd ht hd (hd ▸ he)
    exact ⟨s', .head (.readDone s k hm) a, b, c, d, f⟩
  | emplace k ih =>
    intro n md s r hm hg ht hd he
    have hk : Good md k := by
      rcases hg with hg | ⟨k, e, _⟩
      · cases hg; assumption
      · cases e
    obtain ⟨s', a, b, c, d, f⟩ := ih n md { s with main := .todo k, vec := s.vec.push grow } r rfl (.inl hk) ht hd he
    exact ⟨s', .head (.emplaceBegin s k hm) (.head (.emplaceEnd _ k rfl) a), b, c, d, f⟩
  | check k ih =>
    intro n md s r hm hg ht hd he
    have hk : Good md k := by
      rcases hg with hg | ⟨k, e, h⟩
      · exact absurd rfl (hg.notCheck k)
      · cases e; exact h
    obtain ⟨s', a, b, c, d, f⟩ := ih n md { s with main := .todo k } r rfl (.inl hk) ht hd he
    exact ⟨s', .head (.checkBegin s k hm) (.head (.checkEnd _ _ k rfl) a), b, c, d, f⟩
  | setDone k ih =>
    intro n md s r hm hg ht hd he
    obtain hk : Good true k := by
      rcases hg with hg | ⟨k, e, _⟩
      · cases hg with
        | signal k' h => exact .notify _ h
      · cases e
    obtain ⟨s', a, b, c, d, f⟩ := ih n true { s with main := .todo k, done := true } r rfl (.inl hk) ht rfl he
    exact ⟨s', .head (.setDone s k hm) a, b, c, d, f⟩
  | notify k ih =>
    intro n md s r hm hg ht hd he
    have hk : Good md k := by
      rcases hg with hg | ⟨k, e, _⟩
      · cases hg; assumption
      · cases e
    have hst : Step grow D s _ := .notify s k hm
    simp only [ht, if_neg (show Timer.drowsy ≠ Timer.asleep by simp)] at hst
    obtain ⟨s', a, b, c, d, f⟩ := ih n md { s with main := .todo k, timer := .drowsy, lost := s.lost || decide (Timer.drowsy = .drowsy) } r rfl (.inl hk) rfl hd he
    exact ⟨s', .head hst a, b, c, d, f⟩
  | clear k ih =>
    intro n md s r hm hg ht hd he
    have hk : Good md k := by
      rcases hg with hg | ⟨k, e, _⟩
      · cases hg; assumption
      · cases e
    obtain ⟨s', a, b, c, d, f⟩ := ih n md { s with main := .todo k, vec := { s.vec with told := [] } } r rfl (.inl hk) ht hd he
    exact ⟨s', .head (.clear s k hm) a, b, c, d, f⟩

/-- Before it has set `done`, the main thread can get to its assignment of `done` while the timeout thread is about to read it. -/
theorem schedule_testing (p : Prog) : ∀ (n : Nat) (s : TState) (r : State), s.main = .todo p → Good false p ∨ (∃ k, p = .check k ∧ Good false k) →
    s.timer = .testing → s.done = false → p.eval true (fun _ => false) n false = .returned r → r.done = true →
    ∃ s' k, Steps grow D s s' ∧ s'.main = .todo (.setDone k) ∧ s'.timer = .testing ∧ s'.now = s.now := by
  induction p with
  | join r' =>
    intro n s r hm hg ht hd he hr
    rcases hg with hg | ⟨k, e, _⟩
    · cases hg
      cases he
      simp_all
    · cases e
  | leave r' e => intro n s r hm hg ht hd he; simp [Prog.eval] at he
  | stuck e =>
    intro n s r hm hg ht hd he
    rcases hg with hg | ⟨k, e, _⟩
    · cases hg with
      | stuck _ h => exact absurd he (h r)
    · cases e
  | readDone k ih =>
    intro n s r hm hg ht hd he hr
    have hg' : Good false (.readDone k) := by
      rcases hg with hg | ⟨k, e, _⟩
      · exact hg
      · cases e
    have hkd : Good false (k s.done) ∨ ∃ k', k s.done = .check k' ∧ Good false k' := by
      cases hg' with
      | readDone _ h1 h2 => left; cases s.done <;> assumption
      | readCheck _ k' h1 hk h2 =>
        cases s.done with
        | true => exact .inl h1
        | false => exact .inr ⟨k', hk, h2⟩
    simp only [Prog.eval, Bool.and_false, Bool.or_false] at he
    obtain ⟨s', k', a, b⟩ := ih s.done (n + 1) { s with main := .todo (k s.done), reads := s.reads + 1 } r rfl hkd ht hd (hd ▸ he) hr
    exact ⟨s', k', .head (.readDone s k hm) a, b⟩
  | emplace k ih =>
    intro n s r hm hg ht hd he hr
    have hk : Good false k := by
      rcases hg with hg | ⟨k, e, _⟩
      · cases hg; assumption
      · cases e
    obtain ⟨s', k', a, b⟩ := ih n { s with main := .todo k, vec := s.vec.push grow } r rfl (.inl hk) ht hd he hr
    exact ⟨s', k', .head (.emplaceBegin s k hm) (.head (.emplaceEnd _ k rfl) a), b⟩
  | check k ih =>
    intro n s r hm hg ht hd he hr
    have hk : Good false k := by
      rcases hg with hg | ⟨k, e, h⟩
      · exact absurd rfl (hg.notCheck k)
      · cases e; exact h
    obtain ⟨s', k', a, b⟩ := ih n { s with main := .todo k } r rfl (.inl hk) ht hd he hr
    exact ⟨s', k', .head (.checkBegin s k hm) (.head (.checkEnd _ _ k rfl) a), b⟩
  | setDone k ih => intro n s r hm hg ht hd he hr; exact ⟨s, k, .refl s, hm, ht, rfl⟩
  | notify k ih =>
    intro n s r hm hg ht hd he hr
    rcases hg with hg | ⟨k, e, _⟩
    · cases hg
    · cases e
  | clear k ih =>
    intro n s r hm hg ht hd he hr
    have hk : Good false k := by
      rcases hg with hg | ⟨k, e, _⟩
      · cases hg; assumption
      · cases e
    obtain ⟨s', k', a, b⟩ := ih n { s with main := .todo k, vec := { s.vec with told := [] } } r rfl (.inl hk) ht hd he hr
    exact ⟨s', k', .head (.clear s k hm) a, b⟩

end QCEC.Tmo
