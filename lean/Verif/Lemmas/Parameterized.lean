import Mathlib.Tactic.Linarith
import Mathlib.Tactic.Ring
import Verif.Spec.Parameterized
/-!
# Lemmas about the flow for parameterised circuits
-/
namespace QCEC.Param
open QCEC QCEC.Spec.Param

theorem results_append (a b : List Event) : results (a ++ b) = results a ++ results b := by simp [results]

@[simp] theorem results_nil : results [] = [] := rfl
@[simp] theorem results_inst (t : Rat) (l : List Event) : results (.instantiate t :: l) = results l := rfl
@[simp] theorem results_zx (a b : Subject) (r : Res) (l : List Event) : results (.zx a b (.ok r) :: l) = r :: results l := rfl
@[simp] theorem results_check (i : Nat) (a b : Subject) (r : Res) (l : List Event) : results (.check i a b (.ok r) :: l) = r :: results l := rfl
@[simp] theorem results_random (a b : Subject) (r : Res) (l : List Event) : results (.random a b (.ok r) :: l) = r :: results l := rfl

theorem instantiations_append (a b : List Event) : instantiations (a ++ b) = instantiations a + instantiations b := by
  induction a with
  | nil => simp [instantiations]
  | cons e a ih => cases e <;> simp [instantiations, ih] <;> omega

theorem elapsed_append (a b : List Event) : elapsed (a ++ b) = elapsed a + elapsed b := by simp [elapsed]

@[simp] theorem elapsed_nil : elapsed [] = 0 := rfl

theorem elapsed_cons (e : Event) (a : List Event) : elapsed (e :: a) = duration e + elapsed a := by simp [elapsed]

/-- Totals after the results `rs`. -/
def total (s : Stats) (rs : List Res) : Stats := rs.foldl Stats.update s

theorem total_append (s : Stats) (a b : List Res) : total s (a ++ b) = total (total s a) b := by simp [total]

theorem total_fields (rs : List Res) : ∀ s : Stats,
    (total s rs).preprocessing = s.preprocessing + (rs.map Res.preprocessing).sum ∧ (total s rs).runtime = s.runtime + (rs.map Res.check).sum ∧
    (total s rs).started = s.started + (rs.map Res.started).sum ∧ (total s rs).finished = s.finished + (rs.map Res.performed).sum := by
  induction rs with
  | nil => intro s; simp [total]
  | cons r rs ih =>
    intro s
    have := ih (s.update r)
    simp only [total, List.foldl_cons, List.map_cons, List.sum_cons] at *
    have e1 : (s.update r).preprocessing = s.preprocessing + r.preprocessing := rfl
    have e2 : (s.update r).runtime = s.runtime + r.check := rfl
    have e3 : (s.update r).started = s.started + r.started := rfl
    have e4 : (s.update r).finished = s.finished + r.performed := rfl
    refine ⟨?_, ?_, ?_, ?_⟩
    · rw [this.1, e1]; ring
    · rw [this.2.1, e2]; ring
    · rw [this.2.2.1, e3]; ring
    · rw [this.2.2.2, e4]; ring

theorem sums_write (rs : List Res) (k : Nat) (r : Res) : Sums ((total {} rs).write k r) rs := by
  obtain ⟨a, b, c, d⟩ := total_fields rs {}
  refine ⟨?_, ?_, ?_, ?_⟩ <;> simp_all [Stats.write]

theorem adjust_zero (u : Rat) : adjust 0 u = 0 := by simp [adjust]

/-- What the loop over the additional instantiations does. -/
theorem loop_stats (w : World) (x : Ctx) : ∀ (n i : Nat) (t rt : Rat) (s : Stats),
    (∀ t' rt' s', (loop w x n i t rt s).2 = .go t' rt' s' →
      s' = total s (results (loop w x n i t rt s).1) ∧ instantiations (loop w x n i t rt s).1 = n) ∧
    (∀ r, (loop w x n i t rt s).2 = .done (.ok r) →
      r.instantiations = instantiations (loop w x n i t rt s).1 + i + 1 ∧
      ((∃ q, r = (total s (results (loop w x n i t rt s).1)).write (instantiations (loop w x n i t rt s).1 + i + 1) q) ∨
       (r.equivalence = .noInformation ∧ t ≠ 0 ∧ ∃ ev j l l' res k q, (loop w x n i t rt s).1 = ev ++ [.check (j + 1) l l' (.ok res)] ∧
          r = { (total s (results ev)).write k q with equivalence := .noInformation }))) := by
  intro n
  induction n with
  | zero =>
    intro i t rt s
    simp only [loop]
    refine ⟨?_, ?_⟩
    · intro t' rt' s' h
      simp only [LoopEnd.go.injEq] at h
      simp [total, instantiations, h.2.2]
    · intro r h; simp at h
  | succ n ih =>
    intro i t rt s
    simp only [loop]
    split
    · exact ⟨by simp, by simp⟩
    · rename_i b₁ b₂ hb
      split
      · exact ⟨by simp, by simp⟩
      · rename_i res hr
        split
        · rename_i hneg
          refine ⟨by simp, ?_⟩
          intro r h
          simp only [LoopEnd.done.injEq, Except.ok.injEq] at h
          subst h
          refine ⟨?_, Or.inr ⟨rfl, ?_, [.instantiate (w.clock (i + 1))], i, .bound b₁, .bound b₂, res, i + 2, res, by simp [hr], ?_⟩⟩
          · simp [instantiations, Stats.write]; omega
          · rintro rfl
            simp [adjust_zero] at hneg
          · simp [total]
        · split
          · refine ⟨by simp, ?_⟩
            intro r h
            simp only [LoopEnd.done.injEq, Except.ok.injEq] at h
            subst h
            refine ⟨by simp [instantiations, Stats.write]; omega, Or.inl ⟨res, ?_⟩⟩
            have e : instantiations [Event.instantiate (w.clock (i + 1)), .check (i + 1) (.bound b₁) (.bound b₂) (checkInstantiated w x.cfg (i + 2) b₁ b₂)] + i + 1 = i + 2 := by
              simp [instantiations]; omega
            rw [e]
            simp [total, hr]
          · obtain ⟨ih1, ih2⟩ := ih (i + 1) (adjust (adjust t (w.clock (i + 1))) res.time) (w.clock (i + 1)) (s.update res)
            refine ⟨?_, ?_⟩
            · intro t' rt' s' h
              obtain ⟨a, b⟩ := ih1 t' rt' s' h
              refine ⟨?_, ?_⟩
              · rw [a]; simp [total, hr]
              · simp only [instantiations, List.cons_append, List.nil_append, b]
            · intro r h
              obtain ⟨a, b⟩ := ih2 r h
              refine ⟨?_, ?_⟩
              · simp only [instantiations, List.cons_append, List.nil_append, a]; omega
              · rcases b with ⟨q, b⟩ | ⟨b1, b2, ev, j, l, l', res', k, q, b3, b4⟩
                · left
                  refine ⟨q, ?_⟩
                  rw [b]
                  simp only [instantiations, List.cons_append, List.nil_append]
                  congr 1
                  · simp [total, hr]
                  · omega
                · right
                  refine ⟨b1, ?_, .instantiate (w.clock (i + 1)) :: .check (i + 1) (.bound b₁) (.bound b₂) (checkInstantiated w x.cfg (i + 2) b₁ b₂) :: ev, j, l, l', res', k, q, ?_, ?_⟩
                  · rintro rfl
                    simp [adjust_zero] at b2
                  · rw [b3]; simp
                  · rw [b4]; simp [total, hr]

/-- How the loop reaches its verdict. -/
theorem loop_verdict (w : World) (x : Ctx) : ∀ (n i : Nat) (t rt : Rat) (s : Stats),
    (∀ t' rt' s', (loop w x n i t rt s).2 = .go t' rt' s' → ∀ e ∈ (loop w x n i t rt s).1, refuted e = false) ∧
    (∀ r, (loop w x n i t rt s).2 = .done (.ok r) →
      ∃ ev j b₁ b₂ res b, (loop w x n i t rt s).1 = ev ++ [.check (j + 1) (.bound b₁) (.bound b₂) (.ok res)] ∧
        w.manager (j + 2) x.cfg [.zx false] (.bound b₁) (.bound b₂) = .ok res ∧
        instantiate w x.tol x.params x.mat b x.c₁ x.c₂ = .ok (b₁, b₂) ∧ (∀ e ∈ ev, refuted e = false) ∧
        ((r.equivalence = .notEquivalent ∧ res.equivalence = .notEquivalent) ∨ (r.equivalence = .noInformation ∧ t ≠ 0))) := by
  intro n
  induction n with
  | zero =>
    intro i t rt s
    simp [loop]
  | succ n ih =>
    intro i t rt s
    simp only [loop]
    split
    · exact ⟨by simp, by simp⟩
    · rename_i b₁ b₂ hb
      split
      · exact ⟨by simp, by simp⟩
      · rename_i res hr
        split
        · rename_i hneg
          refine ⟨by simp, ?_⟩
          intro r h
          simp only [LoopEnd.done.injEq, Except.ok.injEq] at h
          subst h
          refine ⟨[.instantiate (w.clock (i + 1))], i, b₁, b₂, res, _, by simp [hr], hr, hb, by simp [refuted], Or.inr ⟨rfl, ?_⟩⟩
          rintro rfl
          simp [adjust_zero] at hneg
        · split
          · rename_i hne
            refine ⟨by simp, ?_⟩
            intro r h
            simp only [LoopEnd.done.injEq, Except.ok.injEq] at h
            subst h
            exact ⟨[.instantiate (w.clock (i + 1))], i, b₁, b₂, res, _, by simp [hr], hr, hb, by simp [refuted], Or.inl ⟨hne, hne⟩⟩
          · rename_i hne
            obtain ⟨ih1, ih2⟩ := ih (i + 1) (adjust (adjust t (w.clock (i + 1))) res.time) (w.clock (i + 1)) (s.update res)
            refine ⟨?_, ?_⟩
            · intro t' rt' s' h e he
              simp only [List.cons_append, List.nil_append, List.mem_cons] at he
              rcases he with rfl | rfl | he
              · rfl
              · simp [refuted, hr, hne]
              · exact ih1 t' rt' s' h e he
            · intro r h
              obtain ⟨ev, j, b₁', b₂', res', b, h1, h1', h2, h3, h4⟩ := ih2 r h
              refine ⟨.instantiate (w.clock (i + 1)) :: .check (i + 1) (.bound b₁) (.bound b₂) (checkInstantiated w x.cfg (i + 2) b₁ b₂) :: ev, j, b₁', b₂', res', b, ?_, h1', h2, ?_, ?_⟩
              · rw [h1]; simp
              · intro e he
                simp only [List.mem_cons] at he
                rcases he with rfl | rfl | he
                · rfl
                · simp [refuted, hr, hne]
                · exact h3 e he
              · refine h4.imp id (fun h => ⟨h.1, ?_⟩)
                rintro rfl
                exact h.2 (by simp [adjust_zero])

theorem loop_unlimited (w : World) (x : Ctx) : ∀ (n i : Nat) {t : Rat} (_ : t = 0) (rt : Rat) (s : Stats) (t' rt' : Rat) (s' : Stats),
    (loop w x n i t rt s).2 = .go t' rt' s' → t' = 0 := by
  intro n
  induction n with
  | zero => intro i t ht rt s t' rt' s' h; simp only [loop, LoopEnd.go.injEq] at h; rw [← h.1, ht]
  | succ n ih =>
    intro i t ht rt s t' rt' s'
    simp only [loop]
    split
    · simp
    · split
      · simp
      · split
        · simp
        · split
          · simp
          · exact ih (i + 1) (by rw [ht, adjust_zero, adjust_zero]) _ _ t' rt' s'

theorem loop_results (w : World) (x : Ctx) : ∀ (n i : Nat) (t rt : Rat) (s : Stats) (t' rt' : Rat) (s' : Stats),
    (loop w x n i t rt s).2 = .go t' rt' s' → (results (loop w x n i t rt s).1).length = n := by
  intro n
  induction n with
  | zero => intro i t rt s t' rt' s' h; simp [loop]
  | succ n ih =>
    intro i t rt s t' rt' s'
    simp only [loop]
    split
    · simp
    · split
      · simp
      · rename_i hr
        split
        · simp
        · split
          · simp
          · intro h
            simp [hr, ih _ _ _ _ _ _ _ h]

/-- Time the loop takes from the budget. -/
theorem loop_time (w : World) (x : Ctx) {d c : Rat} (hd : ∀ k cfg st l r res, w.manager k cfg st l r = .ok res → 0 ≤ res.preprocessing ∧ 0 ≤ res.check ∧ res.preprocessing + res.check ≤ d)
    (hd0 : 0 ≤ d) (hc : ∀ k, 0 ≤ w.clock k ∧ w.clock k ≤ c) :
    ∀ (n i : Nat) (t rt : Rat) (s : Stats), 0 ≤ t →
    (∀ t' rt' s', (loop w x n i t rt s).2 = .go t' rt' s' →
      (t' = t - elapsed (loop w x n i t rt s).1 ∧ 0 ≤ t') ∨ t = 0 ∨ ∃ p, p <+: (loop w x n i t rt s).1 ∧ elapsed p = t) ∧
    (elapsed (loop w x n i t rt s).1 ≤ t + c + d ∨ t = 0 ∨ ∃ p, p <+: (loop w x n i t rt s).1 ∧ elapsed p = t) ∧
    (∀ e ∈ (loop w x n i t rt s).1, charged e = true) := by
  have hc0 : 0 ≤ c := (hc 0).1.trans (hc 0).2
  intro n
  induction n with
  | zero =>
    intro i t rt s ht
    simp only [loop]
    refine ⟨?_, Or.inl (by simp [elapsed]; linarith), by simp⟩
    intro t' rt' s' h
    simp only [LoopEnd.go.injEq] at h
    left
    simp [elapsed, ← h.1, ht]
  | succ n ih =>
    intro i t rt s ht
    simp only [loop]
    obtain ⟨hk0, hkc⟩ := hc (i + 1)
    split
    · refine ⟨by simp, Or.inl (by simp [elapsed]; linarith), by simp⟩
    · rename_i b₁ b₂ hb
      split
      · rename_i e hr
        refine ⟨by simp, Or.inl ?_, by simp [charged]⟩
        simp only [elapsed_cons, duration, result?, hr, elapsed_nil]
        linarith
      · rename_i res hr
        obtain ⟨hp, hq, hle⟩ := hd _ _ _ _ _ _ hr
        have he2 : elapsed [Event.instantiate (w.clock (i + 1)), .check (i + 1) (.bound b₁) (.bound b₂) (checkInstantiated w x.cfg (i + 2) b₁ b₂)]
            = w.clock (i + 1) + (res.preprocessing + res.check) := by
          simp only [elapsed_cons, duration, result?, hr, elapsed_nil]
          ring
        have hch : ∀ e ∈ [Event.instantiate (w.clock (i + 1)), .check (i + 1) (.bound b₁) (.bound b₂) (checkInstantiated w x.cfg (i + 2) b₁ b₂)], charged e = true := by
          simp [charged]
        split
        · exact ⟨by simp, Or.inl (by rw [he2]; linarith), hch⟩
        · rename_i hneg
          split
          · exact ⟨by simp, Or.inl (by rw [he2]; linarith), hch⟩
          · obtain ⟨ih1, ih2, ih3⟩ := ih (i + 1) (adjust (adjust t (w.clock (i + 1))) res.time) (w.clock (i + 1)) (s.update res) (not_lt.1 hneg)
            have key : t = 0 ∨ elapsed [Event.instantiate (w.clock (i + 1))] = t ∨
                elapsed [Event.instantiate (w.clock (i + 1)), .check (i + 1) (.bound b₁) (.bound b₂) (checkInstantiated w x.cfg (i + 2) b₁ b₂)] = t ∨
                (adjust (adjust t (w.clock (i + 1))) res.time = t - (w.clock (i + 1) + (res.preprocessing + res.check)) ∧
                  adjust (adjust t (w.clock (i + 1))) res.time ≠ 0) := by
              by_cases h0 : t = 0
              · exact Or.inl h0
              right
              by_cases h1 : t - w.clock (i + 1) = 0
              · left
                simp only [elapsed_cons, duration, elapsed_nil]
                linarith
              right
              rw [he2]
              by_cases h2 : t - w.clock (i + 1) - res.time = 0
              · left
                simp only [Res.time] at h2
                linarith
              · right
                simp only [adjust, h0, h1, if_false, h2, ne_eq, not_false_eq_true, and_true]
                simp only [Res.time]
                ring
            have pre1 : ∀ l, [Event.instantiate (w.clock (i + 1))] <+:
                [Event.instantiate (w.clock (i + 1)), .check (i + 1) (.bound b₁) (.bound b₂) (checkInstantiated w x.cfg (i + 2) b₁ b₂)] ++ l :=
              fun l => ⟨_, by rfl⟩
            have pre2 : ∀ l, [Event.instantiate (w.clock (i + 1)), .check (i + 1) (.bound b₁) (.bound b₂) (checkInstantiated w x.cfg (i + 2) b₁ b₂)] <+:
                [Event.instantiate (w.clock (i + 1)), .check (i + 1) (.bound b₁) (.bound b₂) (checkInstantiated w x.cfg (i + 2) b₁ b₂)] ++ l :=
              fun l => List.prefix_append _ _
            refine ⟨?_, ?_, ?_⟩
            · intro t' rt' s' h
              rcases key with h0 | h0 | h0 | ⟨h0, h0'⟩
              · exact Or.inr (Or.inl h0)
              · exact Or.inr (Or.inr ⟨_, pre1 _, h0⟩)
              · exact Or.inr (Or.inr ⟨_, pre2 _, h0⟩)
              · rcases ih1 t' rt' s' h with ⟨h1, h2⟩ | h1 | ⟨p, h1, h2⟩
                · left
                  rw [elapsed_append, he2]
                  refine ⟨?_, h2⟩
                  rw [h1, h0]
                  ring
                · exact absurd h1 h0'
                · refine Or.inr (Or.inr ⟨_ ++ p, (List.prefix_append_right_inj _).2 h1, ?_⟩)
                  rw [elapsed_append, he2, h2, h0]
                  ring
            · rcases key with h0 | h0 | h0 | ⟨h0, h0'⟩
              · exact Or.inr (Or.inl h0)
              · exact Or.inr (Or.inr ⟨_, pre1 _, h0⟩)
              · exact Or.inr (Or.inr ⟨_, pre2 _, h0⟩)
              · rcases ih2 with h1 | h1 | ⟨p, h1, h2⟩
                · left
                  rw [elapsed_append, he2]
                  linarith
                · exact absurd h1 h0'
                · refine Or.inr (Or.inr ⟨_ ++ p, (List.prefix_append_right_inj _).2 h1, ?_⟩)
                  rw [elapsed_append, he2, h2, h0]
                  ring
            · intro e he
              rcases List.mem_append.1 he with he | he
              · exact hch e he
              · exact ih3 e he

end QCEC.Param
