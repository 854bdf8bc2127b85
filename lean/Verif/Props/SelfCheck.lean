import Verif.Spec.SelfCheck
import Verif.Lemmas.LockStep
import Verif.Props.PythonVerify
import Verif.Props.VerifyRounding
/-!
# C85: a circuit is equivalent to itself
-/
namespace QCEC.Props
open QCEC QCEC.Mgr QCEC.Prep QCEC.Spec QCEC.Spec.Wide QCEC.Spec.Py QCEC.Wide QCEC.Sem QCEC.DD
open scoped Matrix

variable {lib : Library} {c : Circ WOp} {cfg : Configuration} {setters : List Param.Setter} {v : Criterion}

/-! ## Constructing a manager for two copies -/

theorem stripStep_self {acts : WOp → Nat → Bool} {s t : Strip WOp} {p : Nat} (h : stripStep acts s p = some t) (hd : s.diff = 0) (he : s.larger = s.smaller) :
    t.diff = 0 ∧ t.larger = t.smaller := by
  unfold stripStep at h
  split at h
  · cases hl : s.larger.initialLayout.get p with
    | none => rw [hl] at h; cases h
    | some l =>
      rw [hl] at h
      simp only at h
      have : s.onlyInLarger l = some false := by unfold Strip.onlyInLarger; rw [if_pos hd]
      rw [this] at h
      simp only at h
      unfold Strip.removeBoth at h
      cases hk : s.smaller.initialLayout.keyOf l with
      | none => rw [hk] at h; cases h
      | some q =>
        rw [hk] at h
        simp only at h
        split at h
        · rw [he] at h
          cases hr : s.smaller.removeQubit l with
          | none => rw [hr] at h; cases h
          | some r =>
            rw [hr] at h
            cases h
            exact ⟨hd, rfl⟩
        · cases h
          exact ⟨hd, he⟩
  · cases h
    exact ⟨hd, he⟩

theorem strip_self {acts : WOp → Nat → Bool} {d s1 s2 : Circ WOp} (h : stripIdleQubits acts d d = some (s1, s2)) : s1 = s2 := by
  have key : ∀ (l : List Nat) (s t : Strip WOp), l.foldlM (stripStep acts) s = some t → s.diff = 0 → s.larger = s.smaller → t.larger = t.smaller := by
    intro l
    induction l with
    | nil =>
      intro s t h _ he
      simp only [List.foldlM_nil] at h
      cases h
      exact he
    | cons p l ih =>
      intro s t h hd he
      rw [List.foldlM_cons] at h
      cases hs : stripStep acts s p with
      | none => rw [hs] at h; cases h
      | some u =>
        rw [hs] at h
        obtain ⟨a, b⟩ := stripStep_self hs hd he
        exact ih u t h a b
  unfold stripIdleQubits onPair stripPair stripLoop at h
  rw [if_neg (by omega)] at h
  cases hf : (d.initialLayout.reverse.map (·.1)).foldlM (stripStep acts) { larger := d, smaller := d, diff := d.nqubits - d.nqubits } with
  | none => rw [hf] at h; cases h
  | some r =>
    rw [hf] at h
    have := key _ _ _ hf (Nat.sub_self _) rfl
    cases h
    exact this.symm

theorem setup_self {s p1 p2 : Circ WOp} (h : setupAncillaries s s = some (p1, p2)) : p1 = p2 := by
  unfold setupAncillaries onPair setupPair at h
  rw [if_neg (by omega), Nat.sub_self] at h
  simp only [takeOut, putBack, Option.map_some, Option.some.injEq, Prod.mk.injEq] at h
  obtain ⟨rfl, rfl⟩ := h
  simp [Circ.addAncillaryRegister]

theorem passes_self {P : Passes (Circ WOp)} {o : Optimizations} {d d1 d2 : Circ WOp} (h : P.run o (d, d) = .ok (d1, d2)) : d1 = d2 := by
  have both : ∀ (b : Bool) (p : Pass) (x : Circ WOp × Circ WOp), x.1 = x.2 → (P.both b p x).1 = (P.both b p x).2 := by
    rintro b p ⟨x, y⟩ e
    change x = y at e
    subst e
    unfold Passes.both
    split <;> rfl
  have st : ∀ x : Circ WOp × Circ WOp, x.1 = x.2 → (P.static o x).1 = (P.static o x).2 := by
    intro x hx
    unfold Passes.static
    exact both _ _ _ (both _ _ _ (both _ _ _ (both _ _ _ (both _ _ _ (both _ _ _ (both _ _ _ hx))))))
  unfold Passes.run at h
  split at h
  · cases h; rfl
  · split at h
    · split at h
      · have := st (P.undynamic d, P.undynamic d) rfl
        simp only [Except.ok.injEq] at h
        rw [h] at this
        exact this
      · cases h
    · have := st (d, d) rfl
      simp only [Except.ok.injEq] at h
      rw [h] at this
      exact this

theorem prepare_self {acts : WOp → Nat → Bool} {d : Circ WOp} {M : Made WOp} (h : prepare acts cfg (d, d) = .made M) : M.qc1 = M.qc2 := by
  obtain ⟨s1, s2, g1, g2, _⟩ := prepare_made h
  have := strip_self g1
  subst this
  exact setup_self g2

/-- The constructor treats two copies of a circuit alike. -/
theorem construct_self {M : Made WOp} (h : Prep.construct lib.acts lib.passes cfg c c = .made M) : M.qc1 = M.qc2 := by
  unfold Prep.construct at h
  split at h
  · cases hr : lib.passes.run cfg.optimizations (c, c) with
    | error e => rw [hr] at h; cases h
    | ok x =>
      rw [hr] at h
      obtain ⟨d1, d2⟩ := x
      have := passes_self hr
      subst this
      exact prepare_self h
  · exact prepare_self h

/-! ## What the checkers answer -/

/-- The checkers without the cancellation of operations that look the same. -/
def _root_.QCEC.Spec.Mixed.uncancelled {m n : Nat} (S : Mixed m n) : Mixed m n := { S with opEq := fun _ _ => false }

theorem uncancelled_safe {m n : Nat} (S : Mixed m n) (h : S.schA.Cancels) : S.uncancelled.Unmistaken :=
  ⟨fun _ _ _ _ _ _ _ _ _ _ _ he => (by cases he), fun hc => absurd h hc⟩

theorem msimRun_uncancelled {m n : Nat} {S : Mixed m n} {q : Bool} {p x : Criterion} (h : MSimRun S q p x) : MSimRun S.uncancelled q p x := h

/-- On two copies of a circuit cancelling makes no difference. -/
theorem answer_uncancelled {m n : Nat} (S : Mixed m n) {e1 e2 : Nat → Fin n} {d : Circ WOp} (w : Wired d) (h1 : Numbered e1 d S.qc1) (h2 : Numbered e2 d S.qc2)
    (hself : ∀ a ∈ d.ops, S.opEq (a.on e1) (a.on e2) = true) (hid : S.T.isId 1 = true) (hc : S.schA.Cancels) (hanc : NoSharedAncilla S.qc1 S.qc2) {q : Bool}
    {k : Kind} {x : Criterion} (h : MAnswer S q k x) : MAnswer S.uncancelled q k x := by
  have hi : altInit (exactMatrix n S.garb) 1 n S.qc1 S.qc2 = 1 := by
    have : altInit (exactMatrix n S.garb) 1 n S.qc1 S.qc2 = ancProj (altAncillary n S.qc1.ancillary S.qc2.ancillary) := by
      simp [altInit, exactMatrix, reduceAncillae]
    rw [this, ← ancProj_nil (n := n)]
    refine ancProj_congr _ _ fun p => ?_
    rw [altAncillary_flag]
    have := hanc p
    cases a : S.qc1.ancillary.getD p.val false <;> cases b : S.qc2.ancillary.getD p.val false <;> simp_all
  have hsame : funcOf S.qc1 S.ω1 = funcOf S.qc2 S.ω2 := by
    have : Same [] S.qc1 S.ω1 S.qc2 S.ω2 := by
      rw [S.wf1.labels, S.wf2.labels]
      exact (sameOn_numbered w w h1 h2 [] (F := fun _ => False) (by simp) 1).2 fun v _ x => by rw [one_mul]
    rw [same_iff, ancProj_nil, Matrix.mul_one, Matrix.mul_one] at this
    exact this
  induction h with
  | alternating stop hm hq fuel hf accepted x s h =>
    obtain ⟨f, hs⟩ : ∃ f, S.schA = .counts f := by
      cases hsc : S.schA with
      | counts f => exact ⟨f, rfl⟩
      | lookahead size => rw [hsc] at hc; exact absurd hc (by simp [AltScheme.Cancels])
    have hsafe := uncancelled_safe S hc
    have hcf : AltConfigured S.qc1 S.qc2 S.schA := AltChosen.configured S.confA (opEq := fun _ _ => false) hsafe
    rw [hi, hs] at h
    obtain ⟨x', s', hr, ho⟩ := lock_run w h1 h2 S.garb S.T.isId hid S.opEq hself f (altVerdict S.T.close S.T.wOne) stop hm .noInformation fuel hf
    rw [hr] at h
    obtain ⟨rfl, rfl⟩ := Prod.mk.inj (Res.ok.inj h)
    have run : ∀ stop' : Nat → Bool, Mono stop' → (q = true → ∀ i, stop' i = false) → (∀ i, stop' i = stop' 0) →
        MAnswer S.uncancelled q .alternating (if stop' 0 then .noInformation else altVerdict S.T.close S.T.wOne 1) := by
      intro stop' hm' hq' hconst
      obtain ⟨y, t, g1, g2⟩ := alternating_outcome S.garb S.qc1 S.qc2 S.ω1 S.ω2 S.wf1 S.wf2 S.T (fun _ _ => false) S.schA hsafe.1 hcf
        (altVerdict S.T.close S.T.wOne) stop' hm' .noInformation fuel hf
      have hy : (if stop' 0 then Criterion.noInformation else altVerdict S.T.close S.T.wOne 1) = y := by
        rcases g2 with ⟨a, b⟩ | ⟨a, b, e⟩
        · rw [hconst] at a
          rw [if_pos a, b]
        · rw [hconst] at a
          rw [if_neg (by simp [a]), e, b, hi, Matrix.mul_one, hsame]
          rw [funcOf_unitary _ _ S.wf2.ops]
      rw [hy]
      exact MAnswer.alternating (S := S.uncancelled) stop' hm' hq' fuel hf accepted y t g1
    rcases ho with ⟨hst, rfl⟩ | rfl
    · have hq0 : q = false := by
        cases q with
        | false => rfl
        | true => rw [hq rfl] at hst; cases hst
      have := run (fun _ => true) (fun _ _ _ h => h) (by simp [hq0]) (fun _ => rfl)
      simpa using this
    · have := run (fun _ => false) (fun _ _ _ h => h) (fun _ _ => rfl) (fun _ => rfl)
      simpa using this
  | construction stop hm hq fuel hf x s h => exact MAnswer.construction (S := S.uncancelled) stop hm hq fuel hf x s h
  | simulation x h => exact .simulation x h
  | simulationAgain prev x hp h ih => exact .simulationAgain prev x ih h
  | zx hr1 hr2 hc1 hc2 outs1 outs2 ho1 ho2 M g θ hR hg done hq x h => exact MAnswer.zx (S := S.uncancelled) hr1 hr2 hc1 hc2 outs1 outs2 ho1 ho2 M g θ hR hg done hq x h

/-- The checkers can be taken to be safe, unless lookahead is misled. -/
theorem self_safe {m n : Nat} (r : Runnable c) (hP : ∀ p ∈ planned cfg.optimizations true, Faithful lib.passes p) {M : Made WOp}
    (h : Prep.construct lib.acts lib.passes cfg c c = .made M) (S : Mixed m n) {e1 e2 : Nat → Fin n} (hn1 : Numbered e1 M.qc1 S.qc1) (hn2 : Numbered e2 M.qc2 S.qc2)
    (hsch : Follows S M.cfg) (hop : ∀ a ∈ M.qc1.ops, ∀ b ∈ M.qc2.ops, S.opEq (a.on e1) (b.on e2) = true → a = b)
    (hself : ∀ a ∈ M.qc1.ops, a ∈ M.qc2.ops → S.opEq (a.on e1) (a.on e2) = true) (hid : S.T.isId 1 = true) :
    (∃ S' : Mixed m n, S'.qc1 = S.qc1 ∧ S'.qc2 = S.qc2 ∧ S'.ω1 = S.ω1 ∧ S'.ω2 = S.ω2 ∧ (Enabled (afterSetters M.cfg setters) .alternating → S'.Safe) ∧
      ∀ q k x, MAnswer S q k x → MAnswer S' q k x) ∨ Misled lib c c cfg setters ∧ cfg.application.alternatingScheme = .lookahead := by
  obtain ⟨w1, w2, _, _⟩ := construct_preserves lib.reliable r r hP h
  have settled : Settled S.qc1 S.ω1 S.qc2 S.ω2 := by
    have hn2' := hn2
    rw [← construct_self h] at hn2'
    exact settled_self w1 hn1 hn2'
  have happ : M.cfg.application = cfg.application := by
    obtain ⟨k, _, e⟩ := construct_fallback h
    rw [e]
  by_cases hc : S.schA.Cancels
  · left
    by_cases hanc : NoSharedAncilla S.qc1 S.qc2
    · have he := construct_self h
      rw [← he] at hn2 hself
      exact ⟨S.uncancelled, rfl, rfl, rfl, rfl, fun _ => ⟨uncancelled_safe S hc, settled⟩, fun q k x hx =>
        answer_uncancelled S w1 hn1 hn2 (fun a ha => hself a ha ha) hid hc hanc hx⟩
    · exact ⟨S, rfl, rfl, rfl, rfl, fun _ => ⟨⟨fun _ hno => absurd hno hanc, fun hn => absurd hc hn⟩, settled⟩, fun _ _ _ hx => hx⟩
  · have hl : cfg.application.alternatingScheme = .lookahead := by
      by_contra hl
      exact hc (hsch.2 (by rw [happ]; exact hl))
    by_cases hmis : Misled lib c c cfg setters
    · exact Or.inr ⟨hmis, hl⟩
    · exact Or.inl ⟨S, rfl, rfl, rfl, rfl, safe_of_not_misled hP h S w1 w2 hn1 hn2 hsch hop hmis, fun _ _ _ hx => hx⟩

/-- The circuits the checkers see do the same. -/
theorem self_same {m n : Nat} (r : Runnable c) (hP : ∀ p ∈ planned cfg.optimizations true, Faithful lib.passes p) {M : Made WOp}
    (h : Prep.construct lib.acts lib.passes cfg c c = .made M) (S : Mixed m n) {e1 e2 : Nat → Fin n} (hn1 : Numbered e1 M.qc1 S.qc1) (hn2 : Numbered e2 M.qc2 S.qc2)
    (anc : List Bool) : Same anc S.qc1 S.ω1 S.qc2 S.ω2 ∧ S.SameFlags := by
  obtain ⟨w1, _, _, _⟩ := construct_preserves lib.reliable r r hP h
  rw [← construct_self h] at hn2
  refine ⟨?_, fun q => by rw [hn1.ancillary _ q.isLt, hn2.ancillary _ q.isLt]⟩
  rw [S.wf1.labels, S.wf2.labels]
  exact (sameOn_numbered w1 w1 hn1 hn2 anc (F := fun q => anc.getD q false = true) (fun _ _ => Iff.rfl) 1).2 fun v _ x => by rw [one_mul]

/-- **C85**, reflexive: a manager never reports that a circuit differs from itself, not even by a phase – in all flows and schedules, whatever its ancillary
qubits, and whenever a timeout fires – unless lookahead is used on compound operations with SWAPs. -/
theorem manager_self_never_refuted (r : Runnable c) (h : SharpManagerRun lib c c cfg setters v) :
    (v ≠ .notEquivalent ∧ v ≠ .equivalentUpToGlobalPhase ∧ v ≠ .equivalentUpToPhase) ∨
      Misled lib c c cfg setters ∧ cfg.application.alternatingScheme = .lookahead := by
  obtain ⟨hP, M, hm, m, n, hd, S, e1, e2, hn1, hn2, hsch, hop, hself, hid, hrun⟩ := h
  rcases self_safe (setters := setters) r hP hm S hn1 hn2 hsch hop hself hid with ⟨S', q1, q2, o1, o2, hsafe, hans⟩ | hmis
  · left
    rcases meaning_of_safe S' hsafe (runs_mono (fun k x _ => hans false k x) hrun) with rfl | ⟨rfl, _⟩ | hv
    · simp
    · simp
    · rw [← q1] at hn1
      rw [← q2] at hn2
      have hs := fun anc => self_same r hP hm S' hn1 hn2 anc
      exact ⟨fun e => hv.notEquivalent e (fun _ => (hs []).2) (same_imp_phase (hs _).1), fun e => hv.phase e (fun _ => (hs []).2) (hs _).1, hv.never⟩
  · exact Or.inr hmis

theorem sharp_calm_run {c1 c2 : Circ WOp} (h : SharpCalmManagerRun lib c1 c2 cfg setters v) : SharpManagerRun lib c1 c2 cfg setters v := by
  obtain ⟨hP, M, hm, m, n, hd, S, e1, e2, hn1, hn2, hsch, hop, hself, hid, hrun⟩ := h
  refine ⟨hP, M, hm, m, n, hd, S, e1, e2, hn1, hn2, hsch, hop, hself, hid, ?_⟩
  cases hrun with
  | nothing env fuel s' hmode h => exact .nothing env fuel s' hmode h
  | empty env fuel s' he hmode h => exact .empty env fuel s' he hmode h
  | sequential env fuel s' hmode ht h hans => exact .sequential env fuel s' hmode h fun e a b => manswer_any S (hans e a b)
  | parallel env quiet s hp hq hrun hr ht hans hquiet => exact .parallel env s hrun.steps hr hans

/-- **C85**, reflexive: a manager that nobody interrupts, with the alternating or the construction checker enabled, reports that a circuit is equivalent to
itself – or gives up (C82). -/
theorem manager_self_equivalent (r : Runnable c) (h : SharpCalmManagerRun lib c c cfg [] v) (hen : Enabled cfg .alternating ∨ Enabled cfg .construction) :
    v = .equivalent ∨ v = .noInformation ∧ ParallelWithBoth cfg ∨ Misled lib c c cfg [] ∧ cfg.application.alternatingScheme = .lookahead := by
  rcases manager_self_never_refuted r (sharp_calm_run h) with hn | hmis
  · obtain ⟨hP, M, hm, m, n, hd, S, e1, e2, hn1, hn2, hsch, hop, hself, hid, hrun⟩ := h
    rcases self_safe (setters := []) r hP hm S hn1 hn2 hsch hop hself hid with ⟨S', q1, q2, o1, o2, hsafe, hans⟩ | hmis
    · rcases definite_of_safe hm S' hsafe (calmRuns_mono (fun q k x _ => hans q k x) hrun) hen with hd | hd
      · rcases hd with e | e | e
        · exact Or.inl e
        · exact absurd e hn.2.1
        · exact absurd e hn.1
      · exact Or.inr (Or.inl hd)
    · exact Or.inr (Or.inr hmis)
  · exact Or.inr (Or.inr hmis)

variable {V : Type} {conv : QCEC.Py.Kind → V → Option QCEC.Py.FieldVal}

/-- **C85**, reflexive: no call of `verify` or `verify_compilation`, interrupted or not, reports that a circuit differs from itself … -/
theorem check_self_never_refuted (r : Runnable c) (h : CalledWith (SharpManagerRun lib) conv c c cfg v) :
    (v ≠ .notEquivalent ∧ v ≠ .equivalentUpToGlobalPhase ∧ v ≠ .equivalentUpToPhase) ∨
      Misled lib c c cfg [] ∧ cfg.application.alternatingScheme = .lookahead := by
  obtain ⟨d, imp, w, hw, i₁, i₂, res, h, hp, hs1, hs2, h1, h2, rfl⟩ := h
  exact manager_self_never_refuted r (verify_is_manager (P := SharpManagerRun lib) hw hp hs1 hs2 h1 h2 (call_verify h))

/-- … and a call that nobody interrupts, with the alternating or the construction checker enabled, reports that it is equivalent to itself. -/
theorem check_self_equivalent (r : Runnable c) (h : CalledWith (SharpCalmManagerRun lib) conv c c cfg v)
    (hen : cfg.execution.runAlternatingChecker = true ∨ cfg.execution.runConstructionChecker = true) :
    v = .equivalent ∨ v = .noInformation ∧ ParallelWithBoth cfg ∨ Misled lib c c cfg [] ∧ cfg.application.alternatingScheme = .lookahead := by
  obtain ⟨d, imp, w, hw, i₁, i₂, res, h, hp, hs1, hs2, h1, h2, rfl⟩ := h
  exact manager_self_equivalent r (verify_is_manager (P := SharpCalmManagerRun lib) hw hp hs1 hs2 h1 h2 (call_verify h)) hen

end QCEC.Props
