import Verif.Model.ZX
import Mathlib.Order.WellFounded
import Mathlib.Tactic.ByContra
/-!
# Lemmas: simplification loops of the ZX checker
-/
namespace QCEC.ZX
open QCEC

variable {D X : Type} {E : Engine D X} {stop : Nat → Bool}

/-- The program ends with the same result for all large enough numbers of rounds. -/
def Ends (p : Nat → St D → Option (Bool × St D)) (s : St D) : Prop := ∃ res f0, ∀ f, f0 ≤ f → p f s = some res

/-- The rules `R` are exhausted on `d`. -/
def Exhausted (E : Engine D X) (R : Rule → Prop) (d : D) : Prop := ∀ r, R r → ∀ x ∈ E.elems r d, E.check r d x = false

/-- A rewrite step: a rule whose check succeeded. -/
def Rewrites (E : Engine D X) (d' d : D) : Prop := ∃ r x, E.check r d x = true ∧ d' = E.apply r d x

/-- What holds of every run of a program built from sweeps. -/
structure Steps (E : Engine D X) (stop : Nat → Bool) (R : Rule → Prop) (p : St D → Option (Bool × St D)) : Prop where
  path : ∀ s b s', p s = some (b, s') → if b then Relation.TransGen (Rewrites E) s'.d s.d else s'.d = s.d
  polls : ∀ s b s', p s = some (b, s') → s.polls ≤ s'.polls
  frozen : ∀ s b s', p s = some (b, s') → stop s.polls = true → b = false
  done : ∀ s s', p s = some (false, s') → stop s'.polls = false → Exhausted E R s'.d

/-- In addition: whatever the result, the rules are exhausted unless the program was stopped. -/
def Saturates (E : Engine D X) (stop : Nat → Bool) (R : Rule → Prop) (p : St D → Option (Bool × St D)) : Prop :=
  ∀ s b s', p s = some (b, s') → stop s'.polls = false → Exhausted E R s'.d

variable (hm : ∀ i j, i ≤ j → stop i = true → stop j = true)

theorem stop_false_of_le (hm : ∀ i j, i ≤ j → stop i = true → stop j = true) {i j : Nat} (h : i ≤ j) (hj : stop j = false) : stop i = false := by
  cases hi : stop i with
  | false => rfl
  | true => rw [hm i j h hi] at hj; cases hj

/-- A partial sweep that has seen the candidates `l`. -/
theorem fold_visit (hm : ∀ i j, i ≤ j → stop i = true → stop j = true) (r : Rule) (l : List X) (a : Bool × St D) :
    let res := l.foldl (visitOne E stop r) a
    a.2.polls ≤ res.2.polls ∧ (a.1 = true → res.1 = true) ∧
    ((res.1 = true ∧ (res.2.d = a.2.d ∨ Relation.TransGen (Rewrites E) res.2.d a.2.d) ∧ (a.1 = false → Relation.TransGen (Rewrites E) res.2.d a.2.d)) ∨
     (res.1 = false ∧ res.2.d = a.2.d ∧ (stop res.2.polls = false → ∀ x ∈ l, E.check r a.2.d x = false))) := by
  induction l generalizing a with
  | nil =>
    refine ⟨Nat.le_refl _, id, ?_⟩
    cases h : a.1 with
    | true => exact Or.inl ⟨h, Or.inl rfl, by simp⟩
    | false => exact Or.inr ⟨h, rfl, by simp⟩
  | cons x l ih =>
    simp only [List.foldl_cons]
    obtain ⟨i1, i2, i3⟩ := ih (visitOne E stop r a x)
    -- the single candidate
    have one : a.2.polls ≤ (visitOne E stop r a x).2.polls ∧
        (((visitOne E stop r a x).1 = true ∧ Rewrites E (visitOne E stop r a x).2.d a.2.d) ∨
         ((visitOne E stop r a x).1 = a.1 ∧ (visitOne E stop r a x).2.d = a.2.d ∧
          (stop (visitOne E stop r a x).2.polls = false → E.check r a.2.d x = false))) := by
      unfold visitOne
      split
      · split
        · rename_i hs
          refine ⟨Nat.le_succ _, Or.inr ⟨rfl, rfl, ?_⟩⟩
          intro h
          have := hm _ _ (Nat.le_succ a.2.polls) hs
          simp only [St.polled] at h
          rw [this] at h; cases h
        · split
          · rename_i hc
            exact ⟨Nat.le_succ _, Or.inl ⟨rfl, r, x, hc, rfl⟩⟩
          · rename_i hc
            exact ⟨Nat.le_succ _, Or.inr ⟨rfl, rfl, fun _ => by simpa using hc⟩⟩
      · split
        · rename_i hc
          exact ⟨Nat.le_refl _, Or.inl ⟨rfl, r, x, hc, rfl⟩⟩
        · rename_i hc
          exact ⟨Nat.le_refl _, Or.inr ⟨rfl, rfl, fun _ => by simpa using hc⟩⟩
    obtain ⟨o1, o2⟩ := one
    refine ⟨Nat.le_trans o1 i1, ?_, ?_⟩
    · intro ha
      rcases o2 with ⟨h, _⟩ | ⟨h, _⟩
      · exact i2 h
      · exact i2 (h.trans ha)
    · rcases o2 with ⟨h1, h2⟩ | ⟨h1, h2, h3⟩
      · -- something was applied here
        have hr := i2 h1
        refine Or.inl ⟨hr, ?_, ?_⟩
        · rcases i3 with ⟨_, h, _⟩ | ⟨h, _⟩
          · rcases h with h | h
            · rw [h]; exact Or.inr (.single h2)
            · exact Or.inr (h.trans (.single h2))
          · rw [h] at hr; cases hr
        · intro _
          rcases i3 with ⟨_, h, _⟩ | ⟨h, _⟩
          · rcases h with h | h
            · rw [h]; exact .single h2
            · exact h.trans (.single h2)
          · rw [h] at hr; cases hr
      · rw [h1, h2] at i3
        rcases i3 with ⟨j1, j2, j3⟩ | ⟨j1, j2, j3⟩
        · exact Or.inl ⟨j1, j2, j3⟩
        · refine Or.inr ⟨j1, j2, ?_⟩
          intro hs y hy
          rcases List.mem_cons.1 hy with rfl | hy
          · exact h3 (stop_false_of_le hm i1 hs)
          · exact j3 hs y hy

/-- Once stopped, the rules with polling do nothing. -/
theorem fold_frozen (hm : ∀ i j, i ≤ j → stop i = true → stop j = true) (r : Rule) (hr : r.polls = true) (l : List X) (a : Bool × St D)
    (hs : stop a.2.polls = true) : (l.foldl (visitOne E stop r) a).1 = a.1 := by
  induction l generalizing a with
  | nil => rfl
  | cons x l ih =>
    simp only [List.foldl_cons]
    have h1 : visitOne E stop r a x = (a.1, a.2.polled) := by simp [visitOne, hr, hs]
    rw [ih, h1]
    rw [h1]
    exact hm _ _ (Nat.le_succ _) hs

/-- A loop whose body is a `Steps` program, from any starting flag. -/
theorem whileMore_steps (hm : ∀ i j, i ≤ j → stop i = true → stop j = true) {R : Rule → Prop} {body : St D → Option (Bool × St D)}
    (hp : ∀ s b s', body s = some (b, s') → if b then Relation.TransGen (Rewrites E) s'.d s.d else s'.d = s.d)
    (hq : ∀ s b s', body s = some (b, s') → s.polls ≤ s'.polls)
    (hd : ∀ s s', body s = some (false, s') → stop s'.polls = false → Exhausted E R s'.d)
    (f : Nat) : ∀ (b0 : Bool) (s : St D) (b : Bool) (s' : St D), whileMore stop body f b0 s = some (b, s') →
      (b0 = true → b = true) ∧ (s'.d = s.d ∧ b = b0 ∨ Relation.TransGen (Rewrites E) s'.d s.d ∧ b = true) ∧ s.polls < s'.polls ∧
      (stop s.polls = true → b = b0 ∧ s'.d = s.d) ∧ (stop s'.polls = false → Exhausted E R s'.d) := by
  induction f with
  | zero => intro b0 s b s' h; simp [whileMore] at h
  | succ f ih =>
    intro b0 s b s' h
    rw [whileMore] at h
    split at h
    · rename_i hs
      simp only [Option.some.injEq, Prod.mk.injEq] at h
      obtain ⟨rfl, rfl⟩ := h
      refine ⟨id, Or.inl ⟨rfl, rfl⟩, Nat.lt_succ_self _, fun _ => ⟨rfl, rfl⟩, ?_⟩
      intro h
      have := hm _ _ (Nat.le_succ s.polls) hs
      simp only [St.polled] at h
      rw [this] at h; cases h
    · rename_i hs
      split at h
      · cases h
      · rename_i s1 hb
        simp only [Option.some.injEq, Prod.mk.injEq] at h
        obtain ⟨rfl, rfl⟩ := h
        have e := hp _ _ _ hb
        simp only [Bool.false_eq_true, if_false] at e
        refine ⟨id, Or.inl ⟨e, rfl⟩, hq _ _ _ hb, fun h => absurd h hs, hd _ _ hb⟩
      · rename_i s1 hb
        obtain ⟨_, j2, j3, _, j5⟩ := ih _ _ _ _ h
        have e := hp _ _ _ hb
        simp only [if_true] at e
        have q := hq _ _ _ hb
        have hb' : b = true := by rcases j2 with ⟨_, h⟩ | ⟨_, h⟩ <;> exact h
        refine ⟨fun _ => hb', Or.inr ⟨?_, hb'⟩, Nat.lt_trans q j3, fun h => absurd h hs, j5⟩
        rcases j2 with ⟨h, _⟩ | ⟨h, _⟩
        · rw [h]; exact e
        · exact h.trans e

/-- A loop from flag `false`. -/
theorem whileMore_good (hm : ∀ i j, i ≤ j → stop i = true → stop j = true) {R : Rule → Prop} {body : St D → Option (Bool × St D)}
    (hp : ∀ s b s', body s = some (b, s') → if b then Relation.TransGen (Rewrites E) s'.d s.d else s'.d = s.d)
    (hq : ∀ s b s', body s = some (b, s') → s.polls ≤ s'.polls)
    (hd : ∀ s s', body s = some (false, s') → stop s'.polls = false → Exhausted E R s'.d)
    (f : Nat) : Steps E stop R (whileMore stop body f false) ∧ Saturates E stop R (whileMore stop body f false) := by
  have k := whileMore_steps (E := E) hm (R := R) hp hq hd f false
  refine ⟨⟨?_, ?_, ?_, ?_⟩, ?_⟩
  · intro s b s' h
    obtain ⟨_, j2, _, _, _⟩ := k s b s' h
    rcases j2 with ⟨h1, h2⟩ | ⟨h1, h2⟩
    · subst h2; simpa using h1
    · subst h2; simpa using h1
  · intro s b s' h; exact Nat.le_of_lt (k s b s' h).2.2.1
  · intro s b s' h hs; exact ((k s b s' h).2.2.2.1 hs).1
  · intro s s' h; exact (k s _ s' h).2.2.2.2
  · intro s b s' h; exact (k s _ s' h).2.2.2.2

/-- A sweep that finds nothing to apply has looked at every candidate. -/
def Covers (E : Engine D X) : Prop :=
  ∀ r k d, (∀ x ∈ E.visit r k d, E.check r d x = false) → ∀ x ∈ E.elems r d, E.check r d x = false

theorem simplify_good (hm : ∀ i j, i ≤ j → stop i = true → stop j = true) (hc : Covers E) (f : Nat) (r : Rule) :
    Steps E stop (· = r) (simplify E stop f r) ∧ Saturates E stop (· = r) (simplify E stop f r) := by
  refine whileMore_good hm ?_ ?_ ?_ f
  · intro s b s' h
    simp only [sweep, Option.some.injEq] at h
    have k := fold_visit (E := E) hm r (E.visit r s.sweeps s.d) (false, { s with sweeps := s.sweeps + 1 })
    simp only [h] at k
    obtain ⟨_, _, k⟩ := k
    rcases k with ⟨rfl, _, h⟩ | ⟨rfl, h, _⟩
    · simpa using h
    · simpa using h
  · intro s b s' h
    simp only [sweep, Option.some.injEq] at h
    have k := fold_visit (E := E) hm r (E.visit r s.sweeps s.d) (false, { s with sweeps := s.sweeps + 1 })
    simp only [h] at k
    exact k.1
  · intro s s' h hs r' hr x hx
    subst hr
    simp only [sweep, Option.some.injEq] at h
    have k := fold_visit (E := E) hm r' (E.visit r' s.sweeps s.d) (false, { s with sweeps := s.sweeps + 1 })
    simp only [h] at k
    obtain ⟨_, _, k⟩ := k
    rcases k with ⟨h, _⟩ | ⟨_, e, h⟩
    · cases h
    · rw [e] at hx ⊢
      exact hc r' s.sweeps s.d (h hs) x hx

/-- Running programs one after the other. -/
theorem orAll_good (hm : ∀ i j, i ≤ j → stop i = true → stop j = true) {R : Rule → Prop}
    (ps : List ((St D → Option (Bool × St D)) × (Rule → Prop))) (h : ∀ p ∈ ps, Steps E stop p.2 p.1)
    (hR : ∀ r, R r → ∃ p ∈ ps, p.2 r) : Steps E stop R (orAll (ps.map Prod.fst)) := by
  have key : ∀ (qs : List ((St D → Option (Bool × St D)) × (Rule → Prop))), (∀ p ∈ qs, Steps E stop p.2 p.1) →
      ∀ s b s', orAll (qs.map Prod.fst) s = some (b, s') →
        (if b then Relation.TransGen (Rewrites E) s'.d s.d else s'.d = s.d) ∧ s.polls ≤ s'.polls ∧ (stop s.polls = true → b = false) ∧
        (b = false → stop s'.polls = false → ∀ p ∈ qs, Exhausted E p.2 s'.d) := by
    intro qs
    induction qs with
    | nil =>
      intro _ s b s' h
      simp only [List.map_nil, orAll, Option.some.injEq, Prod.mk.injEq] at h
      obtain ⟨rfl, rfl⟩ := h
      simp
    | cons p r ih =>
      intro hq s b s' h
      rw [List.map_cons, orAll] at h
      split at h
      · cases h
      · rename_i b1 s1 h1
        split at h
        · cases h
        · rename_i b2 s2 h2
          simp only [Option.some.injEq, Prod.mk.injEq] at h
          obtain ⟨rfl, rfl⟩ := h
          have g := hq p (by simp)
          obtain ⟨j1, j2, j3, j4⟩ := ih (fun q hq' => hq q (by simp [hq'])) _ _ _ h2
          have p1 := g.path _ _ _ h1
          have p2 := g.polls _ _ _ h1
          refine ⟨?_, Nat.le_trans p2 j2, ?_, ?_⟩
          · cases b1 <;> cases b2 <;> simp at p1 j1 ⊢
            · rw [j1, p1]
            · rw [← p1]; exact j1
            · rw [j1]; exact p1
            · exact j1.trans p1
          · intro hs
            rw [g.frozen _ _ _ h1 hs, j3 (hm _ _ p2 hs)]; rfl
          · intro hb hs q hq'
            have hb1 : b1 = false := by cases b1 <;> simp_all
            have hb2 : b2 = false := by cases b2 <;> simp_all
            subst hb1 hb2
            rcases List.mem_cons.1 hq' with rfl | hq'
            · simp at j1
              rw [j1]
              exact g.done _ _ h1 (stop_false_of_le hm j2 hs)
            · exact j4 rfl hs q hq'
  refine ⟨?_, ?_, ?_, ?_⟩
  · intro s b s' hh; exact (key ps h s b s' hh).1
  · intro s b s' hh; exact (key ps h s b s' hh).2.1
  · intro s b s' hh hs; exact (key ps h s b s' hh).2.2.1 hs
  · intro s s' hh hs r hr
    obtain ⟨p, hp, hr'⟩ := hR r hr
    exact (key ps h s _ s' hh).2.2.2 rfl hs p hp r hr'

/-- Rules used by `interiorCliffordSimp`. -/
def interiorRules (r : Rule) : Prop := r = .id ∨ r = .spider ∨ r = .pivotPauli ∨ r = .localComp

/-- A `Steps` program followed by a loop. -/
theorem then_while (hm : ∀ i j, i ≤ j → stop i = true → stop j = true) {R R' : Rule → Prop} {p body : St D → Option (Bool × St D)}
    (hp : Steps E stop R' p) (hb : Steps E stop R body) (f : Nat) (q : St D → Option (Bool × St D))
    (hq : q = fun s => match p s with | none => none | some (b, s') => whileMore stop body f b s') :
    Steps E stop R q ∧ Saturates E stop R q := by
  subst hq
  have key : ∀ s b s', (match p s with | none => none | some (b, s') => whileMore stop body f b s') = some (b, s') →
      (if b then Relation.TransGen (Rewrites E) s'.d s.d else s'.d = s.d) ∧ s.polls ≤ s'.polls ∧ (stop s.polls = true → b = false) ∧
        (stop s'.polls = false → Exhausted E R s'.d) := by
    intro s b s' h
    split at h
    · cases h
    · rename_i b1 s1 h1
      obtain ⟨k1, k2, k3, k4, k5⟩ := whileMore_steps (E := E) hm (R := R) hb.path hb.polls hb.done f _ _ _ _ h
      have p1 := hp.path _ _ _ h1
      have p2 := hp.polls _ _ _ h1
      refine ⟨?_, by omega, ?_, k5⟩
      · rcases k2 with ⟨e1, e2⟩ | ⟨e1, e2⟩
        · rw [e2, e1]; exact p1
        · rw [e2]
          simp only [if_true]
          cases b1 with
          | true => exact e1.trans (by simpa using p1)
          | false => simp at p1; rw [← p1]; exact e1
      · intro hs
        rw [(k4 (hm _ _ p2 hs)).1]
        exact hp.frozen _ _ _ h1 hs
  refine ⟨⟨?_, ?_, ?_, ?_⟩, ?_⟩
  · intro s b s' h; exact (key s b s' h).1
  · intro s b s' h; exact (key s b s' h).2.1
  · intro s b s' h hs; exact (key s b s' h).2.2.1 hs
  · intro s s' h; exact (key s _ s' h).2.2.2
  · intro s b s' h; exact (key s _ s' h).2.2.2

theorem interior_good (hm : ∀ i j, i ≤ j → stop i = true → stop j = true) (hc : Covers E) (f : Nat) :
    Steps E stop interiorRules (interiorCliffordSimp E stop f) ∧ Saturates E stop interiorRules (interiorCliffordSimp E stop f) := by
  have hs := fun r => (simplify_good (E := E) hm hc f r).1
  refine then_while hm (hs .spider) (body := orAll [simplify E stop f .id, simplify E stop f .spider,
    simplify E stop f .pivotPauli, simplify E stop f .localComp]) ?_ f _ rfl
  refine orAll_good hm [(simplify E stop f .id, (· = .id)), (simplify E stop f .spider, (· = .spider)),
    (simplify E stop f .pivotPauli, (· = .pivotPauli)), (simplify E stop f .localComp, (· = .localComp))] ?_ ?_
  · intro p hp
    simp only [List.mem_cons, List.not_mem_nil, or_false] at hp
    rcases hp with rfl | rfl | rfl | rfl <;> exact hs _
  · intro r hr
    rcases hr with rfl | rfl | rfl | rfl <;> simp

theorem clifford_good (hm : ∀ i j, i ≤ j → stop i = true → stop j = true) (hc : Covers E) (f : Nat) :
    Steps E stop (fun r => interiorRules r ∨ r = .pivot) (cliffordSimp E stop f) ∧
      Saturates E stop (fun r => interiorRules r ∨ r = .pivot) (cliffordSimp E stop f) := by
  have hb : Steps E stop (fun r => interiorRules r ∨ r = .pivot) (orAll [interiorCliffordSimp E stop f, simplify E stop f .pivot]) := by
    refine orAll_good hm [(interiorCliffordSimp E stop f, interiorRules), (simplify E stop f .pivot, (· = .pivot))] ?_ ?_
    · intro p hp
      simp only [List.mem_cons, List.not_mem_nil, or_false] at hp
      rcases hp with rfl | rfl
      · exact (interior_good hm hc f).1
      · exact (simplify_good hm hc f _).1
    · intro r hr
      rcases hr with hr | rfl
      · exact ⟨_, List.mem_cons_self, hr⟩
      · simp
  exact whileMore_good hm hb.path hb.polls hb.done f

/-- The body of the loop of `fullReduce`. -/
theorem reduceBody_good (hm : ∀ i j, i ≤ j → stop i = true → stop j = true) (hc : Covers E) (f : Nat) :
    Steps E stop (fun _ => True) (orAll [cliffordSimp E stop f, simplify E stop f .gadget, interiorCliffordSimp E stop f,
      simplify E stop f .pivotGadget]) := by
  refine orAll_good hm [(cliffordSimp E stop f, fun r => interiorRules r ∨ r = .pivot), (simplify E stop f .gadget, (· = .gadget)),
    (interiorCliffordSimp E stop f, interiorRules), (simplify E stop f .pivotGadget, (· = .pivotGadget))] ?_ ?_
  · intro p hp
    simp only [List.mem_cons, List.not_mem_nil, or_false] at hp
    rcases hp with rfl | rfl | rfl | rfl
    · exact (clifford_good hm hc f).1
    · exact (simplify_good hm hc f _).1
    · exact (interior_good hm hc f).1
    · exact (simplify_good hm hc f _).1
  · intro r _
    cases r <;> simp [interiorRules]

/-! ## Termination -/

/-- A loop ends if its body ends and every round goes down in a well-founded order. -/
theorem whileMore_ends {body : Nat → St D → Option (Bool × St D)} (hb : ∀ s, Ends body s) {lt : St D → St D → Prop} (wf : WellFounded lt)
    (hd : ∀ f s s', stop s.polls = false → body f s.polled = some (true, s') → lt s' s) (b0 : Bool) (s : St D) :
    ∃ res f0, ∀ f g, f0 ≤ f → f0 ≤ g → whileMore stop (body f) g b0 s = some res := by
  induction s using wf.induction generalizing b0 with
  | _ s ih =>
    by_cases hs : stop s.polls = true
    · refine ⟨(b0, s.polled), 1, ?_⟩
      intro f g _ hg
      obtain ⟨g, rfl⟩ : ∃ k, g = k + 1 := ⟨g - 1, by omega⟩
      simp [whileMore, hs]
    · have hs' : stop s.polls = false := by simpa using hs
      obtain ⟨⟨b, s1⟩, f1, h1⟩ := hb s.polled
      cases b with
      | false =>
        refine ⟨(b0, s1), f1 + 1, ?_⟩
        intro f g hf hg
        obtain ⟨g, rfl⟩ : ∃ k, g = k + 1 := ⟨g - 1, by omega⟩
        simp [whileMore, hs', h1 f (by omega)]
      | true =>
        obtain ⟨res, f2, h2⟩ := ih s1 (hd f1 s s1 hs' (h1 f1 (Nat.le_refl _))) true
        refine ⟨res, max f1 f2 + 1, ?_⟩
        intro f g hf hg
        obtain ⟨g, rfl⟩ : ∃ k, g = k + 1 := ⟨g - 1, by omega⟩
        simp only [whileMore, hs', h1 f (by omega)]
        simpa using h2 f g (by omega) (by omega)

theorem orAll_ends {ps : List (Nat → St D → Option (Bool × St D))} (h : ∀ p ∈ ps, ∀ s, Ends p s) :
    ∀ s, Ends (fun f => orAll (ps.map (· f))) s := by
  induction ps with
  | nil => exact fun s => ⟨(false, s), 0, fun _ _ => rfl⟩
  | cons p r ih =>
    intro s
    obtain ⟨⟨b, s1⟩, f1, h1⟩ := h p (by simp) s
    obtain ⟨⟨b', s2⟩, f2, h2⟩ := ih (fun q hq => h q (by simp [hq])) s1
    refine ⟨(b || b', s2), max f1 f2, ?_⟩
    intro f hf
    have e2 := h2 f (by omega)
    simp only [List.map_cons, orAll, h1 f (by omega)]
    simp only at e2
    rw [e2]

/-- A program moves along rewrite steps and polls. -/
structure Moves (E : Engine D X) (p : St D → Option (Bool × St D)) : Prop where
  path : ∀ s b s', p s = some (b, s') → if b then Relation.TransGen (Rewrites E) s'.d s.d else s'.d = s.d
  polls : ∀ s b s', p s = some (b, s') → s.polls ≤ s'.polls

theorem Steps.moves {R : Rule → Prop} {p : St D → Option (Bool × St D)} (h : Steps E stop R p) : Moves E p := ⟨h.path, h.polls⟩

theorem sweep_moves (hm : ∀ i j, i ≤ j → stop i = true → stop j = true) (r : Rule) : Moves E (sweep E stop r) := by
  refine ⟨?_, ?_⟩
  · intro s b s' h
    simp only [sweep, Option.some.injEq] at h
    have k := fold_visit (E := E) hm r (E.visit r s.sweeps s.d) (false, { s with sweeps := s.sweeps + 1 })
    simp only [h] at k
    obtain ⟨_, _, k⟩ := k
    rcases k with ⟨rfl, _, h⟩ | ⟨rfl, h, _⟩
    · simpa using h
    · simpa using h
  · intro s b s' h
    simp only [sweep, Option.some.injEq] at h
    have k := fold_visit (E := E) hm r (E.visit r s.sweeps s.d) (false, { s with sweeps := s.sweeps + 1 })
    simp only [h] at k
    exact k.1

/-- Every round of a loop that is not stopped goes down in a well-founded order. -/
structure Descends (E : Engine D X) (stop : Nat → Bool) (lt : St D → St D → Prop) : Prop where
  wf : WellFounded lt
  round : ∀ s s' : St D, stop s.polls = false → Relation.TransGen (Rewrites E) s'.d s.d → s.polls < s'.polls → lt s' s

theorem while_ends {lt : St D → St D → Prop} (hd : Descends E stop lt) {body : Nat → St D → Option (Bool × St D)}
    (hb : ∀ s, Ends body s) (hv : ∀ f, Moves E (body f)) (b0 : Bool) (s : St D) : Ends (fun f => whileMore stop (body f) f b0) s := by
  obtain ⟨res, f0, h⟩ := whileMore_ends (stop := stop) hb hd.wf (by
    intro f s s' hs h
    have p := (hv f).path _ _ _ h
    simp only [if_true] at p
    have q := (hv f).polls _ _ _ h
    exact hd.round s s' hs p q) b0 s
  exact ⟨res, f0, fun f hf => h f f hf hf⟩

/-- The engine without its list of candidates: the programs do not use it. -/
def Engine.blind (E : Engine D X) : Engine D X := { E with elems := fun _ _ => [] }

theorem blind_covers : Covers E.blind := by intro r k d _ x hx; cases hx

theorem simplify_ends {lt : St D → St D → Prop} (hm : ∀ i j, i ≤ j → stop i = true → stop j = true) (hd : Descends E stop lt) (r : Rule)
    (s : St D) : Ends (fun f => simplify E stop f r) s :=
  while_ends hd (body := fun _ => sweep E stop r) (fun _ => ⟨_, 0, fun _ _ => rfl⟩) (fun _ => sweep_moves hm r) false s

theorem simplify_moves (hm : ∀ i j, i ≤ j → stop i = true → stop j = true) (r : Rule) (f : Nat) : Moves E (simplify E stop f r) :=
  have h := (simplify_good (E := E.blind) hm blind_covers f r).1.moves
  ⟨h.path, h.polls⟩

theorem interior_moves (hm : ∀ i j, i ≤ j → stop i = true → stop j = true) (f : Nat) : Moves E (interiorCliffordSimp E stop f) :=
  have h := (interior_good (E := E.blind) hm blind_covers f).1.moves
  ⟨h.path, h.polls⟩

theorem clifford_moves (hm : ∀ i j, i ≤ j → stop i = true → stop j = true) (f : Nat) : Moves E (cliffordSimp E stop f) :=
  have h := (clifford_good (E := E.blind) hm blind_covers f).1.moves
  ⟨h.path, h.polls⟩

theorem orAll_moves {ps : List (St D → Option (Bool × St D))} (h : ∀ p ∈ ps, Moves E p) : Moves E (orAll ps) := by
  have k := orAll_good (E := E.blind) (stop := fun _ => false) (R := fun _ => False) (by simp) (ps.map fun p => (p, fun _ => False)) ?_ ?_
  · rw [List.map_map] at k
    have e : (ps.map (Prod.fst ∘ fun p => (p, fun (_ : Rule) => False))) = ps := by simp [Function.comp_def]
    rw [e] at k
    exact ⟨k.path, k.polls⟩
  · intro q hq
    obtain ⟨p, hp, rfl⟩ := List.mem_map.1 hq
    exact ⟨(h p hp).path, (h p hp).polls, by simp, by intro _ _ _ _ r hr; cases hr⟩
  · intro r hr; cases hr

/-- A program followed by a loop. -/
theorem then_ends {lt : St D → St D → Prop} (hd : Descends E stop lt) {p body : Nat → St D → Option (Bool × St D)}
    (hp : ∀ s, Ends p s) (hb : ∀ s, Ends body s) (hv : ∀ f, Moves E (body f)) (s : St D) :
    Ends (fun f s => match p f s with | none => none | some (b, s') => whileMore stop (body f) f b s') s := by
  obtain ⟨⟨b, s1⟩, f1, h1⟩ := hp s
  obtain ⟨res, f2, h2⟩ := while_ends hd hb hv b s1
  refine ⟨res, max f1 f2, ?_⟩
  intro f hf
  simp only [h1 f (by omega)]
  exact h2 f (by omega)

theorem interior_ends {lt : St D → St D → Prop} (hm : ∀ i j, i ≤ j → stop i = true → stop j = true) (hd : Descends E stop lt)
    (s : St D) : Ends (fun f => interiorCliffordSimp E stop f) s := by
  refine then_ends hd (p := fun f => simplify E stop f .spider) (body := fun f => orAll [simplify E stop f .id, simplify E stop f .spider,
    simplify E stop f .pivotPauli, simplify E stop f .localComp]) (simplify_ends hm hd _) ?_ ?_ s
  · refine orAll_ends (ps := [fun f => simplify E stop f .id, fun f => simplify E stop f .spider,
      fun f => simplify E stop f .pivotPauli, fun f => simplify E stop f .localComp]) ?_
    intro p hp
    simp only [List.mem_cons, List.not_mem_nil, or_false] at hp
    rcases hp with rfl | rfl | rfl | rfl <;> exact simplify_ends hm hd _
  · intro f
    refine orAll_moves ?_
    intro p hp
    simp only [List.mem_cons, List.not_mem_nil, or_false] at hp
    rcases hp with rfl | rfl | rfl | rfl <;> exact simplify_moves hm _ f

theorem clifford_ends {lt : St D → St D → Prop} (hm : ∀ i j, i ≤ j → stop i = true → stop j = true) (hd : Descends E stop lt)
    (s : St D) : Ends (fun f => cliffordSimp E stop f) s := by
  refine while_ends hd (body := fun f => orAll [interiorCliffordSimp E stop f, simplify E stop f .pivot]) ?_ ?_ false s
  · refine orAll_ends (ps := [fun f => interiorCliffordSimp E stop f, fun f => simplify E stop f .pivot]) ?_
    intro p hp
    simp only [List.mem_cons, List.not_mem_nil, or_false] at hp
    rcases hp with rfl | rfl
    · exact interior_ends hm hd
    · exact simplify_ends hm hd _
  · intro f
    refine orAll_moves ?_
    intro p hp
    simp only [List.mem_cons, List.not_mem_nil, or_false] at hp
    rcases hp with rfl | rfl
    · exact interior_moves hm f
    · exact simplify_moves hm _ f

/-- The body of the loop of `fullReduce`. -/
def reduceBody (E : Engine D X) (stop : Nat → Bool) (f : Nat) : St D → Option (Bool × St D) :=
  orAll [cliffordSimp E stop f, simplify E stop f .gadget, interiorCliffordSimp E stop f, simplify E stop f .pivotGadget]

theorem reduceBody_moves (hm : ∀ i j, i ≤ j → stop i = true → stop j = true) (f : Nat) : Moves E (reduceBody E stop f) := by
  refine orAll_moves ?_
  intro p hp
  simp only [List.mem_cons, List.not_mem_nil, or_false] at hp
  rcases hp with rfl | rfl | rfl | rfl
  · exact clifford_moves hm f
  · exact simplify_moves hm _ f
  · exact interior_moves hm f
  · exact simplify_moves hm _ f

theorem reduceBody_ends {lt : St D → St D → Prop} (hm : ∀ i j, i ≤ j → stop i = true → stop j = true) (hd : Descends E stop lt) (s : St D) :
    Ends (fun f => reduceBody E stop f) s := by
  refine orAll_ends (ps := [fun f => cliffordSimp E stop f, fun f => simplify E stop f .gadget, fun f => interiorCliffordSimp E stop f,
    fun f => simplify E stop f .pivotGadget]) ?_ s
  intro p hp
  simp only [List.mem_cons, List.not_mem_nil, or_false] at hp
  rcases hp with rfl | rfl | rfl | rfl
  · exact clifford_ends hm hd
  · exact simplify_ends hm hd _
  · exact interior_ends hm hd
  · exact simplify_ends hm hd _

theorem fullReduce_ends {lt : St D → St D → Prop} (hm : ∀ i j, i ≤ j → stop i = true → stop j = true) (hd : Descends E stop lt) (s : St D) :
    Ends (fun f => fullReduce E stop f) s := by
  obtain ⟨⟨b, s1⟩, f1, h1⟩ := then_ends hd (p := fun f => interiorCliffordSimp E stop f) (body := fun f => reduceBody E stop f)
    (interior_ends hm hd) (reduceBody_ends hm hd) (reduceBody_moves hm) (unlessDone stop E.toGraphlike s)
  refine ⟨(b, unlessDone stop E.removeDisconnected s1), f1, ?_⟩
  intro f hf
  have := h1 f hf
  simp only at this
  simp only [fullReduce]
  split at this
  · cases this
  · rename_i b2 s2 h2
    rw [h2]
    simp only [reduceLoop]
    rw [reduceBody] at this
    rw [this]

/-- What a run of `fullReduce` does. -/
theorem fullReduce_spec (hm : ∀ i j, i ≤ j → stop i = true → stop j = true) (hc : Covers E) {f : Nat} {s s' : St D} {b : Bool}
    (h : fullReduce E stop f s = some (b, s')) :
    s.polls < s'.polls ∧ (stop s.polls = true → b = false ∧ s'.d = s.d) ∧
    ∃ d0 d1, (d0 = s.d ∨ d0 = E.toGraphlike s.d) ∧ (if b then Relation.TransGen (Rewrites E) d1 d0 else d1 = d0) ∧
      (s'.d = d1 ∨ s'.d = E.removeDisconnected d1) ∧
      (stop s'.polls = false → d0 = E.toGraphlike s.d ∧ s'.d = E.removeDisconnected d1 ∧ Exhausted E (fun _ => True) d1) := by
  have hu : ∀ (g : D → D) (t : St D), (unlessDone stop g t).polls = t.polls + 1 := by
    intro g t; unfold unlessDone; split <;> rfl
  have ho : ∀ (g : D → D) (t : St D), stop t.polls = true → (unlessDone stop g t).d = t.d := by
    intro g t ht; simp [unlessDone, ht, St.polled]
  have ho' : ∀ (g : D → D) (t : St D), stop t.polls = false → (unlessDone stop g t).d = g t.d := by
    intro g t ht; simp [unlessDone, ht]
  have hor : ∀ (g : D → D) (t : St D), (unlessDone stop g t).d = t.d ∨ (unlessDone stop g t).d = g t.d := by
    intro g t
    cases ht : stop t.polls with
    | true => exact Or.inl (ho g t ht)
    | false => exact Or.inr (ho' g t ht)
  rw [fullReduce] at h
  split at h
  · cases h
  · rename_i b1 s1 h1
    split at h
    · cases h
    · rename_i b2 s2 h2
      simp only [Option.some.injEq, Prod.mk.injEq] at h
      obtain ⟨rfl, rfl⟩ := h
      obtain ⟨g, sat⟩ := then_while hm (interior_good hm hc f).1 (reduceBody_good hm hc f) f _ rfl
      have e : (match interiorCliffordSimp E stop f (unlessDone stop E.toGraphlike s) with
          | none => none
          | some (b, s') => whileMore stop (orAll [cliffordSimp E stop f, simplify E stop f .gadget, interiorCliffordSimp E stop f,
              simplify E stop f .pivotGadget]) f b s') = some (b2, s2) := by
        rw [h1]; exact h2
      have p := g.path _ _ _ e
      have q := g.polls _ _ _ e
      rw [hu] at q
      refine ⟨by rw [hu]; omega, ?_, _, s2.d, hor _ _, p, hor _ _, ?_⟩
      · intro hs
        have hs1 : stop (unlessDone stop E.toGraphlike s).polls = true := by rw [hu]; exact hm _ _ (Nat.le_succ _) hs
        have hb := g.frozen _ _ _ e hs1
        subst hb
        simp only [Bool.false_eq_true, if_false] at p
        refine ⟨rfl, ?_⟩
        rw [ho _ _ (hm _ _ (by omega) hs), p, ho _ _ hs]
      · intro hs
        rw [hu] at hs
        have hs2 := stop_false_of_le hm (Nat.le_succ _) hs
        have hs0 : stop s.polls = false := stop_false_of_le hm (by omega) hs2
        exact ⟨ho' _ _ hs0, ho' _ _ hs2, sat _ _ _ e hs2⟩

end QCEC.ZX
