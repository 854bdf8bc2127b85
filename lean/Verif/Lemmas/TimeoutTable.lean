import Verif.Lemmas.TimeoutTold
/-!
# The vector of the two-thread model is the table of checkers of the manager
-/
namespace QCEC.Tmo
open QCEC QCEC.Mgr

/-- A run ends with this many checkers. -/
def EndsWith (n : Nat) (e : Ending) : Prop := ∀ r, e = .returned r ∨ e = .threw r → r.checkers.length = n

/-- The program ends with as many checkers as are in the vector; `n`: as many as are in it now. -/
inductive Tracks : Nat → Prog → Prop
  | join {n} (s : State) (h : s.checkers.length = n) : Tracks n (.join s)
  | leave {n} (s : State) (e : Ending) (h : EndsWith n e) : Tracks n (.leave s e)
  | stuck {n} (e : Ending) (h : EndsWith n e) : Tracks n (.stuck e)
  | readDone {n} (k : Bool → Prog) (h1 : Tracks n (k true)) (h2 : Tracks n (k false)) : Tracks n (.readDone k)
  | emplace {n} (k : Prog) (h : Tracks (n + 1) k) : Tracks n (.emplace k)
  | check {n} (k : Prog) (h : Tracks n k) : Tracks n (.check k)
  | setDone {n} (k : Prog) (h : Tracks n k) : Tracks n (.setDone k)
  | notify {n} (k : Prog) (h : Tracks n k) : Tracks n (.notify k)
  | clear {n} (k : Prog) (h : Tracks 0 k) : Tracks n (.clear k)

theorem Tracks.signal {n : Nat} {k : Prog} (h : Tracks n k) : Tracks n (Tmo.signal k) := .setDone _ (.notify _ h)

theorem endsWith_returned {n : Nat} {r : State} (h : r.checkers.length = n) : EndsWith n (.returned r) := by
  rintro r' (e | e) <;> cases e; exact h
theorem endsWith_threw {n : Nat} {r : State} (h : r.checkers.length = n) : EndsWith n (.threw r) := by
  rintro r' (e | e) <;> cases e; exact h
theorem endsWith_terminated {n : Nat} : EndsWith n .terminated := by rintro r' (e | e) <;> cases e
theorem endsWith_diverged {n : Nat} : EndsWith n .diverged := by rintro r' (e | e) <;> cases e

theorem len_tick (s : State) : s.tick.checkers = s.checkers := rfl
theorem len_setEq (s : State) (c : Criterion) : (s.setEq c).checkers = s.checkers := rfl
theorem len_record (s : State) (k : Kind) (c : Criterion) : (s.record k c).checkers = s.checkers := rfl
theorem len_simStarted (s : State) : s.simStarted.checkers = s.checkers := rfl
theorem len_simPerformed (s : State) (c : Criterion) : (s.simPerformed c).checkers = s.checkers := rfl
theorem len_storeCex (s : State) : s.storeCex.checkers = s.checkers := rfl

section tracks
variable (env : Env)

theorem tracks_zxProg (s : State) : Tracks s.checkers.length (zxProg env s) := by
  unfold zxProg
  split
  · exact .join s rfl
  · refine .readDone _ (by simp only [if_true]; exact .join _ rfl) ?_
    simp only [Bool.false_eq_true, if_false]
    split
    · cases env.zx with
      | ctorThrows => exact .stuck _ endsWith_terminated
      | runThrows =>
        refine .emplace _ (.readDone _ (by simp only [if_true]; exact .join _ (by simp [len_tick])) ?_)
        simp only [Bool.false_eq_true, if_false]
        exact .check _ (.leave _ _ (endsWith_threw (by simp [len_tick])))
      | returns r =>
        refine .emplace _ (.readDone _ (by simp only [if_true]; exact .join _ (by simp [len_tick])) ?_)
        simp only [Bool.false_eq_true, if_false]
        exact .check _ (Tracks.signal (.join _ (by simp [len_tick, len_setEq, len_record])))
    · split
      · exact .clear _ (.join _ rfl)
      · exact .join _ rfl

theorem tracks_definitiveProg (kind : Kind) (enabled : Bool) (o : Outcome) (next : State → Prog)
    (hn : ∀ s, Tracks s.checkers.length (next s)) (s : State) : Tracks s.checkers.length (definitiveProg kind enabled o next s) := by
  have hn' : ∀ n s, s.checkers.length = n → Tracks n (next s) := fun n s h => h ▸ hn s
  unfold definitiveProg
  split
  · exact hn s
  · refine .readDone _ (by simp only [if_true]; exact hn' _ _ rfl) ?_
    simp only [Bool.false_eq_true, if_false]
    cases o with
    | ctorThrows => exact .leave _ _ (endsWith_threw rfl)
    | runThrows =>
      refine .emplace _ (.readDone _ (by simp only [if_true]; exact hn' _ _ (by simp [len_tick])) ?_)
      simp only [Bool.false_eq_true, if_false]
      exact .check _ (.leave _ _ (endsWith_threw (by simp [len_tick])))
    | returns r =>
      refine .emplace _ (.readDone _ (by simp only [if_true]; exact hn' _ _ (by simp [len_tick])) ?_)
      simp only [Bool.false_eq_true, if_false]
      refine .check _ ?_
      split
      · exact Tracks.signal (hn' _ _ (by simp [len_tick, len_setEq, len_record]))
      · exact hn' _ _ (by simp [len_tick, len_record])

theorem tracks_stagesProg (s : State) : Tracks s.checkers.length (stagesProg env s) :=
  tracks_definitiveProg _ _ _ _ (fun s => tracks_definitiveProg _ _ _ _ (tracks_zxProg env) s) s

theorem tracks_afterSims (s : State) : Tracks s.checkers.length (afterSimsProg (stagesProg env) s) := by
  have second : ∀ s : State, Tracks s.checkers.length (if s.cfg.onlySimulationCheckerConfigured && s.simulationsFinished then
      signal (stagesProg env { s with done := true }) else stagesProg env s : Prog) := by
    intro s
    split
    · exact Tracks.signal (tracks_stagesProg env { s with done := true })
    · exact tracks_stagesProg env s
  unfold afterSimsProg
  simp only []
  split
  · exact Tracks.signal (second s.storeCex)
  · exact second s

theorem tracks_simProg : ∀ (fuel k : Nat) (s : State), Tracks s.checkers.length (simProg env (afterSimsProg (stagesProg env)) fuel k s) := by
  intro fuel
  induction fuel with
  | zero => intro k s; exact .stuck _ endsWith_diverged
  | succ fuel ih =>
    intro k s
    unfold simProg
    split
    · exact tracks_afterSims env s
    · refine .readDone _ (by simp only [if_true]; exact tracks_afterSims env s.tick) ?_
      simp only [Bool.false_eq_true, if_false]
      refine .check _ ?_
      cases env.sim k with
      | none => exact .leave _ _ (endsWith_threw rfl)
      | some r =>
        simp only []
        split
        · exact .leave _ _ (endsWith_returned rfl)
        · split
          · exact tracks_afterSims env ((s.tick.simStarted.simPerformed r).setEq .notEquivalent)
          · exact ih (k + 1) ((s.tick.simStarted.simPerformed r).setEq .probablyEquivalent)

theorem tracks_seqProg (fuel : Nat) (s : State) : Tracks s.checkers.length (seqProg env fuel s) := by
  unfold seqProg
  split
  · split
    · exact .leave _ _ (endsWith_threw rfl)
    · have h := tracks_simProg env fuel 0 { s with checkers := s.checkers ++ [.simulation] }
      exact .emplace _ (by simpa using h)
  · exact tracks_stagesProg env s

theorem tracks_symProg (s : State) : Tracks s.checkers.length (symProg env s) := by
  unfold symProg
  refine .readDone _ (by simp only [if_true]; exact .join _ rfl) ?_
  simp only [Bool.false_eq_true, if_false]
  split
  · cases env.zx with
    | ctorThrows => exact .stuck _ endsWith_terminated
    | runThrows =>
      refine .emplace _ (.readDone _ (by simp only [if_true]; exact .join _ (by simp [len_tick])) ?_)
      simp only [Bool.false_eq_true, if_false]
      exact .check _ (.leave _ _ (endsWith_threw (by simp [len_tick])))
    | returns r =>
      refine .emplace _ (.readDone _ (by simp only [if_true]; exact .join _ (by simp [len_tick])) ?_)
      simp only [Bool.false_eq_true, if_false]
      exact .check _ (Tracks.signal (.join _ (by simp [len_tick, len_setEq, len_record])))
  · exact .clear _ (.leave _ _ (endsWith_returned rfl))
end tracks

/-- The invariant. -/
def TracksMain (s : TState) : Prop :=
  match s.main with
  | .todo p => Tracks s.vec.told.length p
  | .emplacing k => Tracks (s.vec.told.length + 1) k
  | .checking _ k => Tracks s.vec.told.length k
  | .ended e => EndsWith s.vec.told.length e
  | .undefinedBehaviour => True

theorem TracksMain.same {s s' : TState} (h : TracksMain s) (hm : s'.main = s.main) (hl : s'.vec.told.length = s.vec.told.length) :
    TracksMain s' := by
  unfold TracksMain at h ⊢
  rw [hm, hl]; exact h

theorem tracks_step {grow : Nat → Nat} {D : Nat} {s s' : TState} (h : TracksMain s) (st : Step grow D s s') : TracksMain s' := by
  cases st with
  | time => exact h.same rfl rfl
  | readDone k hm =>
    unfold TracksMain at h ⊢
    rw [hm] at h
    simp only at h ⊢
    generalize s.vec.told.length = b at h ⊢
    cases h with
    | readDone _ h1 h2 => cases s.done <;> assumption
  | emplaceBegin k hm =>
    unfold TracksMain at h ⊢
    rw [hm] at h
    simp only at h ⊢
    generalize s.vec.told.length = b at h ⊢
    cases h; assumption
  | emplaceEnd k hm =>
    unfold TracksMain at h ⊢
    rw [hm] at h
    simp only [Vec.push_length] at h ⊢
    exact h
  | checkBegin k hm =>
    unfold TracksMain at h ⊢
    rw [hm] at h
    simp only at h ⊢
    generalize s.vec.told.length = b at h ⊢
    cases h; assumption
  | checkEnd i k hm =>
    unfold TracksMain at h ⊢
    rw [hm] at h
    exact h
  | setDone k hm =>
    unfold TracksMain at h ⊢
    rw [hm] at h
    simp only at h ⊢
    generalize s.vec.told.length = b at h ⊢
    cases h; assumption
  | notify k hm =>
    unfold TracksMain at h ⊢
    rw [hm] at h
    simp only at h ⊢
    generalize s.vec.told.length = b at h ⊢
    cases h; assumption
  | clear k hm =>
    unfold TracksMain at h ⊢
    rw [hm] at h
    simp only [List.length_nil] at h ⊢
    generalize s.vec.told.length = b at h
    cases h; assumption
  | join r hm =>
    unfold TracksMain at h ⊢
    rw [hm] at h
    simp only at h ⊢
    generalize s.vec.told.length = b at h ⊢
    cases h with
    | join _ h => exact endsWith_returned h
  | leave r e hm =>
    unfold TracksMain at h ⊢
    rw [hm] at h
    simp only at h ⊢
    generalize s.vec.told.length = b at h ⊢
    cases h with
    | leave _ _ h =>
      split
      · exact h
      · exact endsWith_terminated
  | stuck e hm =>
    unfold TracksMain at h ⊢
    rw [hm] at h
    simp only at h ⊢
    generalize s.vec.told.length = b at h ⊢
    cases h; assumption
  | iterateRace k a b => trivial
  | tellDangling b n i a c d e => trivial
  | tell b n i a c d e => exact h.same rfl (by simp)
  | _ => exact h.same rfl rfl

theorem tracks_reachable {grow : Nat → Nat} {D : Nat} {p : Prog} {r : State} {cap : Nat} {s : TState} (hg : Tracks r.checkers.length p)
    (h : Reachable grow D p r cap s) : TracksMain s := by
  unfold Reachable at h
  induction h with
  | refl => unfold TracksMain start; simpa using hg
  | tail _ st ih => exact tracks_step ih st

end QCEC.Tmo
