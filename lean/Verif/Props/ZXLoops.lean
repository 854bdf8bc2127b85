import Verif.Lemmas.ZXLoops
import Mathlib.Order.Basic
import Mathlib.Order.WellFounded
/-!
# Properties: simplification loops of the ZX checker (C40)

`stop k` is the answer to the `k`-th poll of the abort flag, which is never cleared (`hm`).  The rewrite rules are arbitrary.
-/
namespace QCEC.Props
open QCEC QCEC.ZX

variable {D X : Type}

/-- Something that no rule application (after a successful check) and no preparation step destroys. -/
structure Kept (E : Engine D X) (P : D → Prop) : Prop where
  rule : ∀ r d x, E.check r d x = true → P d → P (E.apply r d x)
  graphlike : ∀ d, P d → P (E.toGraphlike d)
  approximate : ∀ d, P d → P (E.approximateCliffords d)
  disconnected : ∀ d, P d → P (E.removeDisconnected d)

theorem Kept.trans {E : Engine D X} {P : D → Prop} (h : Kept E P) {d' d : D} (ht : Relation.TransGen (Rewrites E) d' d) (hd : P d) : P d' := by
  have one : ∀ {a b : D}, Rewrites E a b → P b → P a := by
    rintro a b ⟨r, x, hc, rfl⟩ hb; exact h.rule r b x hc hb
  induction ht using Relation.TransGen.head_induction_on with
  | single hr => exact one hr hd
  | head hr _ ih => exact one hr ih

theorem fullReduce_kept {E : Engine D X} {stop : Nat → Bool} (hm : ∀ i j, i ≤ j → stop i = true → stop j = true) {P : D → Prop} (h : Kept E P)
    {f : Nat} {s s' : St D} {b : Bool} (hs : P s.d) (hr : fullReduce E stop f s = some (b, s')) : P s'.d := by
  obtain ⟨_, _, d0, d1, h0, h1, h2, _⟩ := fullReduce_spec (E := E.blind) hm blind_covers hr
  have p0 : P d0 := by rcases h0 with rfl | rfl; exacts [hs, h.graphlike _ hs]
  have p1 : P d1 := by
    cases b with
    | false => simp at h1; rw [h1]; exact p0
    | true => exact h.trans (show Relation.TransGen (Rewrites E) d1 d0 from by simp only [if_true] at h1; exact h1) p0
  rcases h2 with e | e <;> rw [e]
  · exact p1
  · exact h.disconnected _ p1

theorem approx_kept {E : Engine D X} {stop : Nat → Bool} (hm : ∀ i j, i ≤ j → stop i = true → stop j = true) {P : D → Prop} (h : Kept E P)
    (f : Nat) : ∀ (g : Nat) (b0 : Bool) (s : St D) (b : Bool) (s' : St D), P s.d → whileMore stop (approxRound E stop f) g b0 s = some (b, s') → P s'.d := by
  intro g
  induction g with
  | zero => intro b0 s b s' _ hr; simp [whileMore] at hr
  | succ g ih =>
    intro b0 s b s' hs hr
    rw [whileMore] at hr
    split at hr
    · simp only [Option.some.injEq, Prod.mk.injEq] at hr
      obtain ⟨_, rfl⟩ := hr
      exact hs
    · split at hr
      · cases hr
      · rename_i s1 h1
        simp only [Option.some.injEq, Prod.mk.injEq] at hr
        obtain ⟨_, rfl⟩ := hr
        exact fullReduce_kept hm h (h.approximate _ hs) h1
      · rename_i s1 h1
        exact ih _ _ _ _ (fullReduce_kept hm h (h.approximate _ hs) h1) hr

/-- **C40.** The reduction keeps whatever every rule keeps – for instance the linear map the miter stands for up to a factor – for every
diagram, every order of visiting candidates and every moment of an abort. -/
theorem reduction_keeps {E : Engine D X} {stop : Nat → Bool} (hm : ∀ i j, i ≤ j → stop i = true → stop j = true) {P : D → Prop}
    (h : Kept E P) {f : Nat} {s s' : St D} {b : Bool} (hs : P s.d) (hr : fullReduceApproximate E stop f s = some (b, s')) : P s'.d := by
  rw [fullReduceApproximate] at hr
  split at hr
  · cases hr
  · rename_i b1 s1 h1
    exact approx_kept hm h f f _ _ _ _ (fullReduce_kept hm h hs h1) hr

/-- **C40.** In particular a meaning (in any type) that every rule preserves is preserved. -/
theorem reduction_preserves_meaning {E : Engine D X} {stop : Nat → Bool} (hm : ∀ i j, i ≤ j → stop i = true → stop j = true) {M : Type} (sem : D → M)
    (h1 : ∀ r d x, E.check r d x = true → sem (E.apply r d x) = sem d) (h2 : ∀ d, sem (E.toGraphlike d) = sem d)
    (h3 : ∀ d, sem (E.approximateCliffords d) = sem d) (h4 : ∀ d, sem (E.removeDisconnected d) = sem d)
    {f : Nat} {s s' : St D} {b : Bool} (hr : fullReduceApproximate E stop f s = some (b, s')) : sem s'.d = sem s.d :=
  reduction_keeps hm (P := fun d => sem d = sem s.d)
    ⟨fun r d x hc hd => (h1 r d x hc).trans hd, fun d hd => (h2 d).trans hd, fun d hd => (h3 d).trans hd, fun d hd => (h4 d).trans hd⟩ rfl hr

/-- Progress: every rule application makes the diagram smaller in some well-founded order, the preparation steps do not make it larger. -/
structure Shrinks {A : Type} [Preorder A] (E : Engine D X) (μ : D → A) : Prop where
  rule : ∀ r d x, E.check r d x = true → μ (E.apply r d x) < μ d
  graphlike : ∀ d, μ (E.toGraphlike d) ≤ μ d
  approximate : ∀ d, μ (E.approximateCliffords d) ≤ μ d
  disconnected : ∀ d, μ (E.removeDisconnected d) ≤ μ d

theorem Shrinks.trans {A : Type} [Preorder A] {E : Engine D X} {μ : D → A} (h : Shrinks E μ) {d' d : D}
    (ht : Relation.TransGen (Rewrites E) d' d) : μ d' < μ d := by
  have one : ∀ {a b : D}, Rewrites E a b → μ a < μ b := by
    rintro a b ⟨r, x, hc, rfl⟩; exact h.rule r b x hc
  induction ht using Relation.TransGen.head_induction_on with
  | single hr => exact one hr
  | head hr _ ih => exact (one hr).trans ih

theorem approx_ends {E : Engine D X} {stop : Nat → Bool} {lt : St D → St D → Prop} (hm : ∀ i j, i ≤ j → stop i = true → stop j = true) (hd : Descends E stop lt)
    {lt' : St D → St D → Prop} (wf : WellFounded lt')
    (hr : ∀ f s s', stop s.polls = false → approxRound E stop f s.polled = some (true, s') → lt' s' s) (s : St D) :
    Ends (fun f => fullReduceApproximate E stop f) s := by
  obtain ⟨⟨b, s1⟩, f1, h1⟩ := fullReduce_ends hm hd s
  obtain ⟨res, f2, h2⟩ := whileMore_ends (stop := stop) (body := fun f => approxRound E stop f)
    (fun s => by
      obtain ⟨res, f0, h⟩ := fullReduce_ends hm hd { s with d := E.approximateCliffords s.d }
      exact ⟨res, f0, fun f hf => h f hf⟩) wf hr b s1
  refine ⟨res, max f1 f2, ?_⟩
  intro f hf
  have e := h1 f (by omega)
  simp only at e
  simp only [fullReduceApproximate, e]
  exact h2 f f (by omega) (by omega)

/-- **C40.** The reduction terminates, whenever (or never) it is aborted, if every rule application goes down in some well-founded order. -/
theorem reduction_terminates {A : Type} [Preorder A] [WellFoundedLT A] {E : Engine D X} {μ : D → A} (h : Shrinks E μ) {stop : Nat → Bool}
    (hm : ∀ i j, i ≤ j → stop i = true → stop j = true) (s : St D) :
    ∃ res f0, ∀ f, f0 ≤ f → fullReduceApproximate E stop f s = some res := by
  have wf : WellFounded (fun s' s : St D => μ s'.d < μ s.d) := InvImage.wf (fun s : St D => μ s.d) wellFounded_lt
  refine approx_ends hm (lt := fun s' s => μ s'.d < μ s.d) ⟨wf, ?_⟩ wf ?_ s
  · intro s s' _ ht _; exact h.trans ht
  · intro f s s' _ hr
    obtain ⟨_, _, d0, d1, h0, h1, h2, _⟩ := fullReduce_spec (E := E.blind) hm blind_covers hr
    simp only [if_true] at h1
    have a1 : μ d1 < μ d0 := h.trans h1
    have a0 : μ d0 ≤ μ s.d := by
      rcases h0 with rfl | rfl
      · exact h.approximate _
      · exact (h.graphlike _).trans (h.approximate _)
    have a2 : μ s'.d ≤ μ d1 := by
      rcases h2 with e | e <;> rw [e]
      exact h.disconnected _
    exact lt_of_le_of_lt a2 (lt_of_lt_of_le a1 a0)

/-- **C40, C50.** If the flag is set at some time, the reduction terminates, whatever the rules do. -/
theorem reduction_aborts {E : Engine D X} {stop : Nat → Bool} {K : Nat} (hK : ∀ i, K ≤ i → stop i = true)
    (hm : ∀ i j, i ≤ j → stop i = true → stop j = true) (s : St D) :
    ∃ res f0, ∀ f, f0 ≤ f → fullReduceApproximate E stop f s = some res := by
  have wf : WellFounded (fun s' s : St D => K - s'.polls < K - s.polls) := InvImage.wf (fun s : St D => K - s.polls) Nat.lt_wfRel.wf
  have key : ∀ s s' : St D, stop s.polls = false → s.polls < s'.polls → K - s'.polls < K - s.polls := by
    intro s s' hs hlt
    have : s.polls < K := by
      rcases Nat.lt_or_ge s.polls K with h | h
      · exact h
      · rw [hK _ h] at hs; cases hs
    omega
  refine approx_ends hm (lt := fun s' s => K - s'.polls < K - s.polls) ⟨wf, ?_⟩ wf ?_ s
  · intro s s' hs _ hlt; exact key s s' hs hlt
  · intro f s s' hs hr
    have := (fullReduce_spec (E := E.blind) hm blind_covers hr).1
    refine key s s' hs ?_
    simp only [St.polled] at this
    omega

/-- **C40, C50.** After the flag is set the diagram is not touched any more. -/
theorem reduction_frozen {E : Engine D X} {stop : Nat → Bool} (hm : ∀ i j, i ≤ j → stop i = true → stop j = true)
    {f : Nat} {s s' : St D} {b : Bool} (hs : stop s.polls = true) (hr : fullReduceApproximate E stop f s = some (b, s')) :
    s'.d = s.d ∧ b = false := by
  rw [fullReduceApproximate] at hr
  split at hr
  · cases hr
  · rename_i b1 s1 h1
    obtain ⟨q, h2, _⟩ := fullReduce_spec (E := E.blind) hm blind_covers h1
    have e := h2 hs
    have hs1 : stop s1.polls = true := hm _ _ (Nat.le_of_lt q) hs
    cases f with
    | zero => simp [whileMore] at hr
    | succ f =>
      simp only [whileMore, hs1, if_true, Option.some.injEq, Prod.mk.injEq] at hr
      obtain ⟨rfl, rfl⟩ := hr
      exact ⟨e.2, e.1⟩

/-- **C40.** `fullReduce` reports `true` exactly if it applied a rule, and unless it is aborted, no rule is applicable to any candidate of
the diagram from which the disconnected spiders are removed in the end. -/
theorem fullReduce_exhaustive {E : Engine D X} {stop : Nat → Bool} (hm : ∀ i j, i ≤ j → stop i = true → stop j = true) (hc : Covers E)
    {f : Nat} {s s' : St D} {b : Bool} (hr : fullReduce E stop f s = some (b, s')) (hs : stop s'.polls = false) :
    ∃ d1, s'.d = E.removeDisconnected d1 ∧ (∀ r, ∀ x ∈ E.elems r d1, E.check r d1 x = false) ∧
      (b = false → d1 = E.toGraphlike s.d) ∧ (b = true → Relation.TransGen (Rewrites E) d1 (E.toGraphlike s.d)) := by
  obtain ⟨_, _, d0, d1, _, h1, _, h3⟩ := fullReduce_spec hm hc hr
  obtain ⟨rfl, e, ex⟩ := h3 hs
  refine ⟨d1, e, fun r => ex r trivial, ?_, ?_⟩
  · rintro rfl; simpa using h1
  · rintro rfl; simpa using h1

/-- **C40.** Unless it is aborted, the whole reduction ends with a round in which rounding the phases made no rule applicable. -/
theorem reduction_exhaustive {E : Engine D X} {stop : Nat → Bool} (hm : ∀ i j, i ≤ j → stop i = true → stop j = true) (hc : Covers E)
    {f : Nat} {s s' : St D} {b : Bool} (hr : fullReduceApproximate E stop f s = some (b, s')) (hs : stop s'.polls = false) :
    ∃ d0 d1, d1 = E.toGraphlike (E.approximateCliffords d0) ∧ s'.d = E.removeDisconnected d1 ∧
      ∀ r, ∀ x ∈ E.elems r d1, E.check r d1 x = false := by
  have key : ∀ (g : Nat) (b0 : Bool) (s : St D) (b : Bool) (s' : St D), whileMore stop (approxRound E stop f) g b0 s = some (b, s') →
      stop s'.polls = false → ∃ d0 d1, d1 = E.toGraphlike (E.approximateCliffords d0) ∧ s'.d = E.removeDisconnected d1 ∧
        ∀ r, ∀ x ∈ E.elems r d1, E.check r d1 x = false := by
    intro g
    induction g with
    | zero => intro b0 s b s' hr; simp [whileMore] at hr
    | succ g ih =>
      intro b0 s b s' hr hs
      rw [whileMore] at hr
      split at hr
      · rename_i h
        simp only [Option.some.injEq, Prod.mk.injEq] at hr
        obtain ⟨_, rfl⟩ := hr
        have := hm _ _ (Nat.le_succ _) h
        simp only [St.polled] at hs
        rw [this] at hs; cases hs
      · split at hr
        · cases hr
        · rename_i s1 h1
          simp only [Option.some.injEq, Prod.mk.injEq] at hr
          obtain ⟨_, rfl⟩ := hr
          obtain ⟨d1, e1, e2, e3, _⟩ := fullReduce_exhaustive hm hc h1 hs
          exact ⟨s.d, d1, e3 rfl, e1, e2⟩
        · rename_i s1 h1
          exact ih _ _ _ _ hr hs
  rw [fullReduceApproximate] at hr
  split at hr
  · cases hr
  · exact key _ _ _ _ _ hr hs

/-! ## The hypotheses are met -/

/-- An engine on numbers: every rule but `gadget` removes one from an even number, `gadget` one from an odd number; the preparation steps do
nothing. -/
def countdown : Engine Nat Unit where
  check r d _ := decide (d ≠ 0 ∧ (if r = .gadget then d % 2 = 1 else d % 2 = 0))
  apply _ d _ := d - 1
  elems _ _ := [()]
  visit _ _ _ := [()]
  toGraphlike := id
  approximateCliffords := id
  removeDisconnected := id

example : Shrinks countdown (fun d => d) := by
  refine ⟨?_, fun _ => Nat.le_refl _, fun _ => Nat.le_refl _, fun _ => Nat.le_refl _⟩
  intro r d x h
  simp only [countdown, decide_eq_true_eq] at h ⊢
  have := h.1
  show d - 1 < d
  omega

example : Covers countdown := fun _ _ _ h => h

/-- Never aborted: reduced to nothing.  Aborted at the 18th poll: untouched; at the 40th: stopped half-way. -/
example : (fullReduceApproximate countdown (fun _ => false) 40 ⟨5, 0, 0⟩).map (fun r => (r.1, r.2.d)) = some (true, 0) ∧
    (fullReduceApproximate countdown (fun k => decide (18 ≤ k)) 40 ⟨5, 0, 0⟩).map (fun r => (r.1, r.2.d)) = some (false, 5) ∧
    (fullReduceApproximate countdown (fun k => decide (40 ≤ k)) 40 ⟨5, 0, 0⟩).map (fun r => (r.1, r.2.d)) = some (true, 3) := by
  decide +kernel

end QCEC.Props
