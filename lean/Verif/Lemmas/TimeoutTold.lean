import Verif.Lemmas.TimeoutRuns
/-!
# A checker that runs is in the vector
-/
namespace QCEC.Tmo
open QCEC QCEC.Mgr

/-- The program runs a checker only if there is one; `ne`: the vector is not empty. -/
inductive Backed : Bool → Prog → Prop
  | join {ne} (s : State) : Backed ne (.join s)
  | leave {ne} (s : State) (e : Ending) : Backed ne (.leave s e)
  | stuck {ne} (e : Ending) : Backed ne (.stuck e)
  | readDone {ne} (k : Bool → Prog) (h1 : Backed ne (k true)) (h2 : Backed ne (k false)) : Backed ne (.readDone k)
  | emplace {ne} (k : Prog) (h : Backed true k) : Backed ne (.emplace k)
  | check (k : Prog) (h : Backed true k) : Backed true (.check k)
  | setDone {ne} (k : Prog) (h : Backed ne k) : Backed ne (.setDone k)
  | notify {ne} (k : Prog) (h : Backed ne k) : Backed ne (.notify k)
  | clear {ne} (k : Prog) (h : Backed false k) : Backed ne (.clear k)

theorem Backed.signal {ne : Bool} {k : Prog} (h : Backed ne k) : Backed ne (Tmo.signal k) := .setDone _ (.notify _ h)

section backed
variable (env : Env)

theorem backed_zxProg (ne : Bool) (s : State) : Backed ne (zxProg env s) := by
  unfold zxProg
  split
  · exact .join s
  · refine .readDone _ (by simp only [if_true]; exact .join _) ?_
    simp only [Bool.false_eq_true, if_false]
    split
    · cases env.zx with
      | ctorThrows => exact .stuck _
      | runThrows =>
        refine .emplace _ (.readDone _ (by simp only [if_true]; exact .join _) ?_)
        simp only [Bool.false_eq_true, if_false]
        exact .check _ (.leave _ _)
      | returns r =>
        refine .emplace _ (.readDone _ (by simp only [if_true]; exact .join _) ?_)
        simp only [Bool.false_eq_true, if_false]
        exact .check _ (Backed.signal (.join _))
    · split
      · exact .clear _ (.join _)
      · exact .join _

theorem backed_definitiveProg (kind : Kind) (enabled : Bool) (o : Outcome) (next : State → Prog) (hn : ∀ ne s, Backed ne (next s))
    (ne : Bool) (s : State) : Backed ne (definitiveProg kind enabled o next s) := by
  unfold definitiveProg
  split
  · exact hn ne s
  · refine .readDone _ (by simp only [if_true]; exact hn _ _) ?_
    simp only [Bool.false_eq_true, if_false]
    cases o with
    | ctorThrows => exact .leave _ _
    | runThrows =>
      refine .emplace _ (.readDone _ (by simp only [if_true]; exact hn _ _) ?_)
      simp only [Bool.false_eq_true, if_false]
      exact .check _ (.leave _ _)
    | returns r =>
      refine .emplace _ (.readDone _ (by simp only [if_true]; exact hn _ _) ?_)
      simp only [Bool.false_eq_true, if_false]
      refine .check _ ?_
      split
      · exact Backed.signal (hn _ _)
      · exact hn _ _

theorem backed_stagesProg (ne : Bool) (s : State) : Backed ne (stagesProg env s) :=
  backed_definitiveProg _ _ _ _ (fun ne s => backed_definitiveProg _ _ _ _ (backed_zxProg env) ne s) ne s

theorem backed_afterSims (ne : Bool) (s : State) : Backed ne (afterSimsProg (stagesProg env) s) := by
  have second : ∀ s : State, Backed ne (if s.cfg.onlySimulationCheckerConfigured && s.simulationsFinished then
      signal (stagesProg env { s with done := true }) else stagesProg env s : Prog) := by
    intro s
    split
    · exact Backed.signal (backed_stagesProg env ne _)
    · exact backed_stagesProg env ne s
  unfold afterSimsProg
  simp only []
  split
  · exact Backed.signal (second s.storeCex)
  · exact second s

theorem backed_simProg : ∀ (fuel k : Nat) (s : State), Backed true (simProg env (afterSimsProg (stagesProg env)) fuel k s) := by
  intro fuel
  induction fuel with
  | zero => intro k s; exact .stuck _
  | succ fuel ih =>
    intro k s
    unfold simProg
    split
    · exact backed_afterSims env true s
    · refine .readDone _ (by simp only [if_true]; exact backed_afterSims env true _) ?_
      simp only [Bool.false_eq_true, if_false]
      refine .check _ ?_
      cases env.sim k with
      | none => exact .leave _ _
      | some r =>
        simp only []
        split
        · exact .leave _ _
        · split
          · exact backed_afterSims env true _
          · exact ih (k + 1) _

theorem backed_seqProg (fuel : Nat) (ne : Bool) (s : State) : Backed ne (seqProg env fuel s) := by
  unfold seqProg
  split
  · split
    · exact .leave _ _
    · exact .emplace _ (backed_simProg env fuel 0 _)
  · exact backed_stagesProg env ne s

theorem backed_symProg (ne : Bool) (s : State) : Backed ne (symProg env s) := by
  unfold symProg
  refine .readDone _ (by simp only [if_true]; exact .join _) ?_
  simp only [Bool.false_eq_true, if_false]
  split
  · cases env.zx with
    | ctorThrows => exact .stuck _
    | runThrows =>
      refine .emplace _ (.readDone _ (by simp only [if_true]; exact .join _) ?_)
      simp only [Bool.false_eq_true, if_false]
      exact .check _ (.leave _ _)
    | returns r =>
      refine .emplace _ (.readDone _ (by simp only [if_true]; exact .join _) ?_)
      simp only [Bool.false_eq_true, if_false]
      exact .check _ (Backed.signal (.join _))
  · exact .clear _ (.leave _ _)
end backed

/-- The invariant. -/
def BackedMain (s : TState) : Prop :=
  match s.main with
  | .todo p => Backed (decide (0 < s.vec.told.length)) p
  | .emplacing k => Backed true k
  | .checking i k => i + 1 = s.vec.told.length ∧ Backed true k
  | _ => True

theorem BackedMain.same {s s' : TState} (h : BackedMain s) (hm : s'.main = s.main) (hl : s'.vec.told.length = s.vec.told.length) :
    BackedMain s' := by
  unfold BackedMain at h ⊢
  rw [hm, hl]; exact h

theorem backed_step {grow : Nat → Nat} {D : Nat} {s s' : TState} (h : BackedMain s) (st : Step grow D s s') : BackedMain s' := by
  cases st with
  | time => exact h.same rfl rfl
  | readDone k hm =>
    unfold BackedMain at h ⊢
    rw [hm] at h
    simp only at h ⊢
    generalize decide (0 < s.vec.told.length) = b at h ⊢
    cases h with
    | readDone _ h1 h2 => cases s.done <;> assumption
  | emplaceBegin k hm =>
    unfold BackedMain at h ⊢
    rw [hm] at h
    simp only at h ⊢
    generalize decide (0 < s.vec.told.length) = b at h
    cases h; assumption
  | emplaceEnd k hm =>
    unfold BackedMain at h ⊢
    rw [hm] at h
    simp only [Vec.push_length] at h ⊢
    simpa using h
  | checkBegin k hm =>
    unfold BackedMain at h ⊢
    rw [hm] at h
    generalize hb : decide (0 < s.vec.told.length) = b at h
    cases h with
    | check _ h =>
      have : 0 < s.vec.told.length := of_decide_eq_true hb
      exact ⟨by simp only; omega, h⟩
  | checkEnd i k hm =>
    unfold BackedMain at h ⊢
    rw [hm] at h
    have : 0 < s.vec.told.length := by have := h.1; omega
    simp only [decide_eq_true this]
    exact h.2
  | setDone k hm =>
    unfold BackedMain at h ⊢
    rw [hm] at h
    simp only at h ⊢
    generalize decide (0 < s.vec.told.length) = b at h
    cases h; assumption
  | notify k hm =>
    unfold BackedMain at h ⊢
    rw [hm] at h
    simp only at h ⊢
    generalize decide (0 < s.vec.told.length) = b at h
    cases h; assumption
  | clear k hm =>
    unfold BackedMain at h ⊢
    rw [hm] at h
    simp only at h ⊢
    generalize decide (0 < s.vec.told.length) = b at h
    cases h; simpa
  | join r hm => trivial
  | leave r e hm => trivial
  | stuck e hm => trivial
  | iterateRace k a b => trivial
  | tellDangling b n i a c d e => trivial
  | tell b n i a c d e => exact h.same rfl (by simp)
  | _ => exact h.same rfl rfl

theorem backed_reachable {grow : Nat → Nat} {D : Nat} {p : Prog} {r : State} {cap : Nat} {s : TState} (hg : ∀ ne, Backed ne p)
    (h : Reachable grow D p r cap s) : BackedMain s := by
  unfold Reachable at h
  induction h with
  | refl => exact hg _
  | tail _ st ih => exact backed_step ih st

end QCEC.Tmo
