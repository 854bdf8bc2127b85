import Verif.Spec.VerifyRoundingPartial
import Verif.Lemmas.WideRoundingPartial
import Verif.Props.VerifyRounding
import Verif.Props.EndToEndRoundingPartial
import Verif.Props.PreparationPartial
import Verif.Props.GarbageKept
import Verif.Props.VerifyPartialDecides
/-!
# Properties: what the verdict of `verify()` with partial equivalence says about the user's circuits although the package rounds (C94)
-/
namespace QCEC.Props
open QCEC QCEC.Mgr QCEC.Prep QCEC.Par QCEC.Spec QCEC.Spec.Wide QCEC.Spec.ZX QCEC.Wide QCEC.Sem QCEC.Spec.Param

variable {m n : Nat}

theorem near_mono {F : Nat → Prop} {e e' : ℝ} {c1 c2 : Circ WOp} (h : e ≤ e') (hn : PartiallyNear F e c1 c2) : PartiallyNear F e' c1 c2 := by
  intro v hz A hA z
  exact le_trans (hn v hz A hA z) (mul_le_mul_of_nonneg_right h (sq_nonneg _))

/-- Circuits that do the same have the same probabilities. -/
theorem near_of_equal {F : Nat → Prop} {e : ℝ} (he : 0 ≤ e) {c1 c2 : Circ WOp} (h : EqualOn F 1 c1 c2) : PartiallyNear F e c1 c2 := by
  intro v hz A _ z
  have e1 : Wide.output c1 v = Wide.output c2 v := funext fun x => by rw [h v hz x, one_mul]
  rw [e1, sub_self, abs_zero]
  exact mul_nonneg he (sq_nonneg _)

/-- **Check of the specification**: without errors, nearness is partial equivalence. -/
theorem partiallyNear_zero (F : Nat → Prop) (c1 c2 : Circ WOp) : PartiallyNear F 0 c1 c2 ↔ PartiallyOn F c1 c2 := by
  classical
  generalize hN : max c1.nqubits c2.nqubits = N
  have fill_over : ∀ (y y0 : Fin N → Bool) (z : Bits), fill y (fill y0 z) = fill y z := by
    intro y y0 z
    funext q
    unfold fill
    split <;> rfl
  constructor
  · intro h v hv k
    let A : Set Bits := {x | ∀ q, q < N → Measured c1 c2 q → x q = k q}
    have hA : Visible N (Measured c1 c2) A := fun x y hxy =>
      ⟨fun hx q hq hm => (hxy q (Or.inl hm)).symm.trans (hx q hq hm), fun hy q hq hm => (hxy q (Or.inl hm)).trans (hy q hq hm)⟩
    have e : ∀ w, chance N A w k = probability N (Measured c1 c2) w k := by
      intro w
      unfold chance probability
      refine Finset.sum_congr rfl fun y _ => ?_
      have : fill y k ∈ A ↔ ∀ q : Fin N, Measured c1 c2 q → y q = k q := by
        constructor
        · intro hy q hm
          have := hy q.val q.isLt hm
          unfold fill at this
          rwa [dif_pos q.isLt] at this
        · intro hy q hq hm
          show fill y k q = k q
          unfold fill
          rw [dif_pos hq]
          exact hy ⟨q, hq⟩ hm
      simp only [this]
    have := h v hv A (by rw [hN]; exact hA) k
    rw [hN, zero_mul, abs_nonpos_iff, sub_eq_zero, e, e] at this
    unfold SameProbability
    rw [hN]
    exact this
  · intro h v hv A hA z
    rw [hN] at hA ⊢
    let r : (Fin N → Bool) → Fin N → Bool := fun y q => if Measured c1 c2 q then y q else false
    have hr : ∀ y y0, r y0 = y0 → (r y = y0 ↔ ∀ q : Fin N, Measured c1 c2 q → y q = fill y0 z q) := by
      intro y y0 h0
      have e : ∀ q : Fin N, fill y0 z q = y0 q := fun q => by unfold fill; rw [dif_pos q.isLt]
      constructor
      · rintro rfl q hm
        rw [e]
        simp only [r, if_pos hm]
      · intro hy
        funext q
        by_cases hm : Measured c1 c2 q
        · have := hy q hm
          rw [e] at this
          simp only [r, if_pos hm, this]
        · rw [← h0]
          simp only [r, if_neg hm]
    have hmem : ∀ y y0, r y = y0 → (fill y z ∈ A ↔ fill y0 z ∈ A) := by
      rintro y y0 rfl
      refine hA _ _ fun q hq => ?_
      unfold fill
      by_cases hl : q < N
      · rw [dif_pos hl, dif_pos hl]
        have hm : Measured c1 c2 q := hq.resolve_right (by omega)
        simp only [r, if_pos hm]
      · rw [dif_neg hl, dif_neg hl]
    have hrr : ∀ y, r (r y) = r y := by
      intro y
      funext q
      simp only [r]
      split <;> rfl
    have e : ∀ w, chance N A w z = ∑ y0, if r y0 = y0 ∧ fill y0 z ∈ A then probability N (Measured c1 c2) w (fill y0 z) else 0 := by
      intro w
      unfold chance
      rw [← Finset.sum_fiberwise Finset.univ r]
      refine Finset.sum_congr rfl fun y0 _ => ?_
      by_cases h0 : r y0 = y0
      · by_cases hin : fill y0 z ∈ A
        · rw [if_pos ⟨h0, hin⟩, Finset.sum_filter]
          unfold probability
          refine Finset.sum_congr rfl fun y _ => ?_
          rw [fill_over]
          by_cases hy : r y = y0
          · rw [if_pos hy, if_pos ((hmem y y0 hy).2 hin), if_pos ((hr y y0 h0).1 hy)]
          · rw [if_neg hy, if_neg fun h => hy ((hr y y0 h0).2 h)]
        · rw [if_neg fun h => hin h.2]
          refine Finset.sum_eq_zero fun y hy => ?_
          rw [if_neg fun h => hin ((hmem y y0 (by simpa using hy)).1 h)]
      · rw [if_neg fun h => h0 h.1]
        refine Finset.sum_eq_zero fun y hy => ?_
        have : r y = y0 := by simpa using hy
        exact absurd (by rw [← this]; exact hrr y) h0
    have same : chance N A (Wide.output c1 v) z = chance N A (Wide.output c2 v) z := by
      rw [e, e]
      refine Finset.sum_congr rfl fun y0 _ => ?_
      have := h v hv (fill y0 z)
      unfold SameProbability at this
      rw [hN] at this
      rw [this]
    rw [same, sub_self, abs_zero, zero_mul]

/-- The garbage qubits of the prepared circuits match if those of the given ones do. -/
theorem inexact_same_garbage {acts : WOp → Nat → Bool} (hacts : Reliable acts) {P : Passes (Circ WOp)} {cfg : Configuration}
    {c1 c2 : Circ WOp} (h1 : Runnable c1) (h2 : Runnable c2) (hP : ∀ p ∈ planned cfg.optimizations true, Faithful P p ∧ KeepsGarbage P p) {M : Made WOp}
    (h : Prep.construct acts P cfg c1 c2 = .made M) (hg : SameGarbage c1 c2) (S : Inexact M.qc1.ndata n) {e1 e2 : Nat → Fin n}
    (hn1 : Numbered e1 M.qc1 S.qc1) (hn2 : Numbered e2 M.qc2 S.qc2) : S.SameGarbage := by
  intro q
  have hq := q.isLt
  rw [hn1.garbage _ hq, hn2.garbage _ hq, hn1.ancillary _ hq, hn2.ancillary _ hq]
  rcases construct_garbage hacts h1 h2 hP h hg q.val (by rw [hn1.width]; exact hq) with e | g
  · exact Or.inl e
  · refine Or.inr ⟨g.data1, g.ancillary1, g.ancillary2, ?_⟩
    rcases g.one with ⟨a, b⟩ | ⟨a, b⟩
    · exact Or.inl ⟨a, unnamed_idle hn1 S.wf1 b⟩
    · exact Or.inr ⟨a, unnamed_idle hn2 S.wf2 b⟩

/-- What the counted versions of the prepared circuits do, in terms of the given circuits. -/
theorem inexact_partial_constructed {acts : WOp → Nat → Bool} (hacts : Reliable acts) {P : Passes (Circ WOp)} {cfg : Configuration}
    {c1 c2 : Circ WOp} (h1 : Runnable c1) (h2 : Runnable c2) (hP : ∀ p ∈ planned cfg.optimizations true, Faithful P p ∧ KeepsGarbage P p) {M : Made WOp}
    (h : Prep.construct acts P cfg c1 c2 = .made M) (S : InexactPartial m n) {e1 e2 : Nat → Fin n} (hn1 : Numbered e1 M.qc1 S.qc1)
    (hn2 : Numbered e2 M.qc2 S.qc2) : ∀ b, (b = true → ∀ q, q < n → M.qc1.isAncillary q = decide (m ≤ q)) →
      (∀ d, PartiallyWithin d S.unread (S.someAnc b) S.qc1 S.ω1 S.qc2 S.ω2 → PartiallyNear (Fixed c1 c2) d c1 c2) ∧
      (PartiallyEquivalent S.unread (S.bothAnc b) S.qc1 S.ω1 S.qc2 S.ω2 ↔ PartiallyOn (FixedInBoth c1 c2) c1 c2) := by
  obtain ⟨w1, w2, _, _⟩ := construct_preserves hacts h1 h2 (fun p hp => (hP p hp).1) h
  obtain ⟨_, kc, _⟩ := construct_preserves_partial hacts h1 h2 hP h
  intro b hb
  have ha : ∀ q, q < n → ((S.someAnc b).getD q false = true ↔ Fixed M.qc1 M.qc2 q) := by
    intro q hq
    have e := marks_get n (fun q => S.qc1.ancillary.getD q false || S.qc2.ancillary.getD q false || (b && decide (m ≤ q))) ⟨q, hq⟩
    simp only at e
    unfold Fixed
    rw [Inexact.someAnc, e, hn1.ancillary q hq, hn2.ancillary q hq, hn1.width, hn2.width]
    cases b with
    | false => simp; omega
    | true => rw [← hb rfl q hq]; cases M.qc1.isAncillary q <;> simp <;> omega
  have hc : ∀ q, q < n → ((S.bothAnc b).getD q false = true ↔ FixedInBoth M.qc1 M.qc2 q) := by
    intro q hq
    have e := marks_get n (fun q => S.qc1.ancillary.getD q false && S.qc2.ancillary.getD q false && (!b || decide (m ≤ q))) ⟨q, hq⟩
    simp only at e
    unfold FixedInBoth
    rw [Inexact.bothAnc, e, hn1.ancillary q hq, hn2.ancillary q hq, hn1.width, hn2.width]
    cases b with
    | false => simp; omega
    | true => rw [← hb rfl q hq]; cases M.qc1.isAncillary q <;> simp <;> omega
  have hg : ∀ q : Fin n, Measured M.qc1 M.qc2 q.val ↔ S.unread.getD q.val false = false := by
    intro q
    rw [measured_same_width (by rw [hn1.width, hn2.width]), hn1.width, prUnread_get, hn1.garbage q.val q.isLt, hn2.garbage q.val q.isLt]
    have := q.isLt
    cases M.qc1.isGarbage q.val <;> cases M.qc2.isGarbage q.val <;> simp
  refine ⟨fun d hw => ?_, ?_⟩
  · rw [S.wf1.labels, S.wf2.labels] at hw
    exact near_constructed hacts h1 h2 hP h stable_fixed (near_numbered w1 w2 hn1 hn2 _ _ ha hg hw)
  · rw [← kc, partiallyOn_iff, ← agree_numbered (Q' := fun _ => True) w1 w2 hn1 hn2 hc hg (fun _ _ _ => Or.inl trivial) (fun _ _ => trivial)]
    unfold PartiallyEquivalent
    rw [S.wf1.labels, S.wf2.labels]
    exact ⟨fun h v _ hz => h v hz, fun h v hz => h v trivial hz⟩

/-- One of the circuits leaves the common ancillary qubits alone, unless they are used. -/
theorem one_idle_of_not_used {c1 c2 : Circ WOp} {cfg : Configuration} {setters : List Param.Setter} {lib : Library}
    (hP : PassesFaithful lib.passes cfg) {M : Made WOp} (h : Prep.construct lib.acts lib.passes cfg c1 c2 = .made M)
    (S : InexactPartial m n) {e1 e2 : Nat → Fin n} (w1 : Wired M.qc1) (w2 : Wired M.qc2) (hn1 : Numbered e1 M.qc1 S.qc1) (hn2 : Numbered e2 M.qc2 S.qc2)
    (hen : Enabled (afterSetters M.cfg setters) .alternating) (hno : ¬ CommonAncillasUsed lib c1 c2 cfg setters) : S.OneIdle := by
  by_contra hi
  unfold InexactPartial.OneIdle at hi
  push Not at hi
  obtain ⟨⟨q, a1, a2, k1⟩, ⟨q', b1, b2, k2⟩⟩ := hi
  rw [hn1.ancillary _ q.isLt] at a1
  rw [hn2.ancillary _ q.isLt] at a2
  rw [hn1.ancillary _ q'.isLt] at b1
  rw [hn2.ancillary _ q'.isLt] at b2
  exact hno ⟨M, hP, h, hen, ⟨q.val, by rw [hn1.width]; exact q.isLt, a1, a2, fun hk => k1 (idle_numbered w1 hn1 S.wf1 hk)⟩,
    ⟨q'.val, by rw [hn1.width]; exact q'.isLt, b1, b2, fun hk => k2 (idle_numbered w2 hn2 S.wf2 hk)⟩⟩

/-- What `PRMeaning` says about the given circuits. -/
theorem rpverdict_of_meaning {c1 c2 : Circ WOp} (h1 : Runnable c1) (h2 : Runnable c2) {cfg : Configuration} {setters : List Param.Setter} {d : ℝ}
    {small : Prop} (Q : RPPrepared lib c1 c2 cfg d small) (hg : Q.S.SameGarbage) {v : Criterion}
    (hv : PRMeaning (Q.setting hg) (afterSetters Q.M.cfg setters) v) : RPVerdict lib c1 c2 cfg setters d small v := by
  have hacts := lib.reliable
  have hP' : ∀ p ∈ planned cfg.optimizations true, Faithful lib.passes p := fun p hp => (Q.hP p hp).1
  obtain ⟨w1, w2, _⟩ := construct_preserves hacts h1 h2 hP' Q.made
  have counted := (construct_last h1 h2 hP' Q.made).1
  have key := inexact_partial_constructed hacts h1 h2 Q.hP Q.made (Q.setting hg) Q.hn1 Q.hn2
  have last : ∀ (k : Kind) (b : Bool), (b = true → Enabled (afterSetters Q.M.cfg setters) k) → ¬ Displaced lib c1 c2 cfg setters k →
      b = true → ∀ q, q < Q.n → Q.M.qc1.isAncillary q = decide (Q.M.qc1.ndata ≤ q) := by
    intro k b hb hd e q hq
    have hl : AncillasLast Q.M.qc1 := by
      by_contra hl
      exact hd ⟨Q.M, hP', Q.made, hb e, hl⟩
    exact last_flags counted hl (by rwa [Q.hn1.width])
  by_cases hc : Enabled (afterSetters Q.M.cfg setters) .construction
  · have hu : ConstructionUsed lib c1 c2 cfg setters := ⟨Q.M, Q.hP, Q.made, hc⟩
    exact ⟨fun _ => Or.inr (Or.inl hu), fun _ _ => Or.inr (Or.inl hu), fun _ => hu⟩
  refine ⟨fun e => ?_, fun e hs => ?_, fun e => absurd e (hv.never hc)⟩
  · by_cases hd : Displaced lib c1 c2 cfg setters .zx
    · exact Or.inr (Or.inr hd)
    · refine Or.inl (near_mono ?_ ((key _ (last .zx _ id hd)).1 _ (hv.positive e hc)))
      have : (Q.setting hg).drift ≤ d := Q.drift
      linarith
  · by_cases hd : Displaced lib c1 c2 cfg setters .simulation
    · exact Or.inr (Or.inr (Or.inr hd))
    · by_cases hu : CommonAncillasUsed lib c1 c2 cfg setters
      · exact Or.inr (Or.inr (Or.inl hu))
      · refine Or.inl fun hp => hv.negative e hc (Q.budget hs hg) (fun hen => ?_) ((key _ (last .simulation _ id hd)).2.2 hp)
        exact one_idle_of_not_used Q.hP Q.made (Q.setting hg) w1 w2 Q.hn1 Q.hn2 hen hu

/-- **C94.** With partial equivalence switched on and a package that rounds: what the verdict of a manager that is constructed for two circuits with the
same garbage qubits and run says about them, in all flows and schedules and whenever a timeout fires – unless it is the `Equivalent` of the shortcut for
circuits of which no operation is left, or the circuits can lead the alternating checker astray. -/
theorem manager_verdict_rounded_partial {c1 c2 : Circ WOp} (h1 : Runnable c1) (h2 : Runnable c2) (hg : SameGarbage c1 c2) {cfg : Configuration}
    {setters : List Param.Setter} {d : ℝ} {small : Prop} {v : Criterion} (h : RPManagerRun lib c1 c2 cfg setters d small v) :
    RPVerdict lib c1 c2 cfg setters d small v ∨ (v = .equivalent ∧ CrossedShortcut lib c1 c2 cfg) ∨ NearlyMisled lib c1 c2 cfg setters d := by
  have hacts := lib.reliable
  by_cases hmis : NearlyMisled lib c1 c2 cfg setters d
  · exact Or.inr (Or.inr hmis)
  rw [← or_assoc]
  left
  obtain ⟨Q, hrun⟩ := h
  have hP' : ∀ p ∈ planned cfg.optimizations true, Faithful lib.passes p := fun p hp => (Q.hP p hp).1
  obtain ⟨w1, w2, _⟩ := construct_preserves hacts h1 h2 hP' Q.made
  have hgar := inexact_same_garbage hacts h1 h2 Q.hP Q.made hg Q.S Q.hn1 Q.hn2
  replace hrun := hrun hgar
  have hd0 : 0 ≤ d := le_trans (drift_nonneg Q.S) Q.drift
  have hsafe : Enabled (afterSetters Q.M.cfg setters) .alternating → (Q.setting hgar).Unmistaken := fun hen => by
    have := safe_of_not_nearly_misled hP' Q.made Q.S w1 w2 Q.hn1 Q.hn2 Q.hsch Q.hop Q.drift hmis hen
    exact ⟨this.1, this.2.1⟩
  have carry : ∀ v, PRMeaning (Q.setting hgar) (afterSetters Q.M.cfg setters) v → RPVerdict lib c1 c2 cfg setters d small v :=
    fun v hv => rpverdict_of_meaning h1 h2 Q hgar hv
  cases hrun with
  | nothing env fuel s' hmode h =>
    left
    have hb : (State.fresh (afterSetters Q.M.cfg setters)).begin.cfg = afterSetters Q.M.cfg setters := rfl
    unfold Mgr.run at h
    simp only [hb, hmode, Option.some.injEq, Ending.returned.injEq] at h
    subst h
    exact carry _ (rounded_partial_default _ _ (Or.inl rfl))
  | empty env fuel s' he hmode h =>
    have hb : (State.fresh (afterSetters Q.M.cfg setters)).begin.cfg = afterSetters Q.M.cfg setters := rfl
    unfold Mgr.run at h
    simp only [hb, hmode, Option.some.injEq, Ending.returned.injEq] at h
    subst h
    by_cases hw : ∃ q, wire Q.M.qc1 q ≠ wire Q.M.qc2 q
    · exact Or.inr ⟨rfl, Q.M, hP', Q.made, he.1, he.2, hw⟩
    · left
      have hq : ∀ q, wire Q.M.qc1 q = wire Q.M.qc2 q := fun q => by_contra fun h => hw ⟨q, h⟩
      have heq : EqualOn (Fixed c1 c2) 1 c1 c2 := ((construct_preserves hacts h1 h2 hP' Q.made).2.2.2 1).1 (equal_no_ops he.1 he.2 hq)
      exact ⟨fun _ => Or.inl (near_of_equal (by linarith) heq), by simp [State.setEq], by simp [State.setEq]⟩
  | sequential env fuel s' hmode h hans =>
    exact Or.inl (carry _ (rounded_partial_sequential_verdict (Q.setting hgar) (s := State.fresh _) hsafe hmode h hans))
  | parallel env s hreach hr hans => exact Or.inl (carry _ (rounded_partial_parallel_verdict (Q.setting hgar) hsafe hreach hr hans))
  | timed env fuel grow D cap p t s' hmode hf h he hans =>
    obtain ⟨fired, hm', _, h2⟩ := timed_run hf h he
    exact Or.inl (carry s'.report.results.equivalence
      (rounded_partial_sequential_verdict (Q.setting hgar) (env := Tmo.withFired env fired hm') (s := State.fresh _) hsafe hmode h2 hans))
  | composed env D c h hr hans => exact Or.inl (carry _ (rounded_partial_composed_verdict (Q.setting hgar) hsafe h hr hans))
  | delayed env s h hr hans => exact Or.inl (carry _ (rounded_partial_delayed_verdict (Q.setting hgar) hsafe h hr hans))

variable {imp : Param.Subject → Option (Circ WOp)} {w : Param.World} {cfg : Configuration} {i₁ i₂ : Param.Input} {res : Param.Res}

/-- A call of `verify` with partial equivalence on circuits without symbolic parameters that returns has run one manager, with the given configuration. -/
theorem verify_is_rounded_manager {P : Circ WOp → Circ WOp → Configuration → List Param.Setter → Criterion → Prop}
    (hw : ∀ k cfg setters s1 s2 res c1 c2, cfg.functionality.checkPartialEquivalence = true → imp s1 = some c1 → imp s2 = some c2 →
      w.manager k cfg setters s1 s2 = .ok res → P c1 c2 cfg setters res.equivalence)
    (hp : cfg.functionality.checkPartialEquivalence = true) (hs1 : ¬ Symbolic i₁) (hs2 : ¬ Symbolic i₂)
    {c1 c2 : Circ WOp} (h1 : imp (.given i₁) = some c1) (h2 : imp (.given i₂) = some c2)
    (h : Param.verify w cfg i₁ i₂ = .ok res) : P c1 c2 cfg [] res.equivalence := by
  obtain ⟨a, _, b⟩ := verify_choice (w := w) (cfg := cfg) (i₁ := i₁) (i₂ := i₂)
  have v1 : Verifiable i₁ := by
    by_contra hn
    rw [b (Or.inl hn)] at h
    exact absurd h (by simp)
  have v2 : Verifiable i₂ := by
    by_contra hn
    rw [b (Or.inr ⟨hn, hs1⟩)] at h
    exact absurd h (by simp)
  rw [a v1 v2 hs1 hs2] at h
  exact hw _ _ _ _ _ _ _ _ hp h1 h2 h

/-- **C94.** What the verdict of `verify` with `check_partial_equivalence` says about the circuits the user passed. -/
theorem verify_verdict_rounded_partial {d : ℝ} {small : Prop} (hw : RPRealises lib imp w d small)
    (hp : cfg.functionality.checkPartialEquivalence = true) (hs1 : ¬ Symbolic i₁) (hs2 : ¬ Symbolic i₂) {c1 c2 : Circ WOp}
    (h1 : imp (.given i₁) = some c1) (h2 : imp (.given i₂) = some c2) (r1 : Runnable c1) (r2 : Runnable c2) (hg : SameGarbage c1 c2)
    (h : Param.verify w cfg i₁ i₂ = .ok res) :
    RPVerdict lib c1 c2 cfg [] d small res.equivalence ∨ (res.equivalence = .equivalent ∧ CrossedShortcut lib c1 c2 cfg) ∨
      NearlyMisled lib c1 c2 cfg [] d :=
  manager_verdict_rounded_partial r1 r2 hg
    (verify_is_rounded_manager (P := fun c1 c2 cfg setters v => RPManagerRun lib c1 c2 cfg setters d small v) hw hp hs1 hs2 h1 h2 h)

/-! ## A run that nobody interrupts -/

theorem pranswer_any (S : InexactPartial m n) {k : Kind} {c : Criterion} (h : PRAnswer S true k c) : PRAnswer S false k c := by
  induction h with
  | alternating stop hm hq fuel hf c s h => exact .alternating stop hm (by simp) fuel hf c s h
  | construction stop hm hq fuel hf c s h => exact .construction stop hm (by simp) fuel hf c s h
  | simulation c h =>
    obtain ⟨R, g, g', st, x, dd, stop, fuel, s, a, b, d, e0, _, e, f⟩ := h
    exact .simulation c ⟨R, g, g', st, x, dd, stop, fuel, s, a, b, d, e0, by simp, e, f⟩
  | simulationAgain prev c _ h ih =>
    obtain ⟨R, g, g', st, x, dd, stop, fuel, s, a, b, d, e0, _, e, f⟩ := h
    exact .simulationAgain prev c ih ⟨R, g, g', st, x, dd, stop, fuel, s, a, b, d, e0, by simp, e, f⟩
  | zx c h => exact .zx c (ranswer_any S.toInexact h)

theorem rpcalm_manager_run {c1 c2 : Circ WOp} {cfg : Configuration} {setters : List Param.Setter} {d : ℝ} {small : Prop} {v : Criterion}
    (h : RPCalmManagerRun lib c1 c2 cfg setters d small v) : RPManagerRun lib c1 c2 cfg setters d small v := by
  obtain ⟨Q, hrun⟩ := h
  refine ⟨Q, fun hg => ?_⟩
  replace hrun := hrun hg
  cases hrun with
  | nothing env fuel s' hmode h => exact .nothing env fuel s' hmode h
  | empty env fuel s' he hmode h => exact .empty env fuel s' he hmode h
  | sequential env fuel s' hmode ht h hans => exact .sequential env fuel s' hmode h fun e a b => pranswer_any _ (hans e a b)
  | parallel env quiet s hp hq hrun hr ht hans hquiet => exact .parallel env s hrun.steps hr hans

/-- **C93** (sequential): with the alternating but not the construction checker and no timeout, a run that returns has a definitive verdict. -/
theorem rounded_partial_sequential_definite (S : InexactPartial m n) {env : Env} {fuel : Nat} {s s' : State} (hsafe : S.Unmistaken)
    (hm : mode env s.cfg = .sequential) (ht : ¬ s.cfg.execution.timeout > 0) (h : run env fuel s = some (.returned s'))
    (hen : Enabled s.cfg .alternating) (hcon : ¬ Enabled s.cfg .construction)
    (hans : ∀ e : Event, FromEnv env e → Enabled s.cfg e.kind → PRAnswer S true e.kind e.verdict) : Definite s'.results.equivalence := by
  obtain ⟨hx, hp, _⟩ := sequential_verdict_explained hm h
  have hmean : ∀ e ∈ s'.log, PRAnswerMeans S true e.kind e.verdict := fun e he =>
    rounded_partial_answer_means S (fun _ => hsafe) (hans e (hp e he).1 (hp e he).2)
  have hex : ∃ e ∈ s'.log, Conclusive e := by
    by_contra hno
    have hn : ∀ e ∈ s'.log, ¬ Conclusive e := fun e he hce => hno ⟨e, he, hce⟩
    obtain ⟨e, he, hke⟩ := sequential_all_consulted hm ht h hn (fun e he hk => by
      have := hmean e he
      rw [hk] at this
      exact this.2 rfl) .alternating (by simp) hen (by simp)
    have hme := hmean e he
    rw [hke] at hme
    rcases hme with hme | hme
    · exact absurd hme.1 (by simp)
    · apply hn e he
      rcases e with ⟨ke, ve⟩
      cases hke
      rcases hme.1 with h | h | h <;> simp only at h <;> subst h <;> simp [Conclusive]
  obtain ⟨e, he, hce⟩ := hex
  rw [hx.1 e he hce]
  have hme := hmean e he
  have hek := (hp e he).2
  rcases e with ⟨k, v⟩
  cases k <;> simp only [Conclusive, PRAnswerMeans] at hce hme hek ⊢
  · exact Or.inr (Or.inr hce)
  · rcases hme with h | h
    · exact absurd h.1 (by simp)
    · exact h.1
  · exact absurd hek hcon
  · rcases hce with h | h
    · exact Or.inl h
    · exact Or.inr (Or.inl h)

/-- The verdict is definitive. -/
theorem rpcalm_definite {c1 c2 : Circ WOp} (r1 : Runnable c1) (r2 : Runnable c2) (hg : SameGarbage c1 c2) {cfg : Configuration} {d : ℝ} {small : Prop}
    {v : Criterion} (h : RPCalmManagerRun lib c1 c2 cfg [] d small v) (hen : Enabled cfg .alternating)
    (hno : ¬ ConstructionUsed lib c1 c2 cfg []) : Definite v ∨ (v = .noInformation ∧ ParallelWithBoth cfg) ∨ NearlyMisled lib c1 c2 cfg [] d := by
  have hacts := lib.reliable
  by_cases hmis : NearlyMisled lib c1 c2 cfg [] d
  · exact Or.inr (Or.inr hmis)
  rw [← or_assoc]
  left
  obtain ⟨Q, hrun⟩ := h
  have hP' : ∀ p ∈ planned cfg.optimizations true, Faithful lib.passes p := fun p hp => (Q.hP p hp).1
  obtain ⟨w1, w2, _⟩ := construct_preserves hacts r1 r2 hP' Q.made
  have hgar := inexact_same_garbage hacts r1 r2 Q.hP Q.made hg Q.S Q.hn1 Q.hn2
  replace hrun := hrun hgar
  have hcon : ¬ Enabled Q.M.cfg .construction := fun hc => hno ⟨Q.M, Q.hP, Q.made, hc⟩
  have hc : Enabled Q.M.cfg .alternating := by
    have := fallback_keeps_functionality_check Q.made
    rw [show cfg.execution.runAlternatingChecker = true from hen, Bool.true_or, Bool.or_eq_true] at this
    exact this.resolve_right hcon
  have hsafe : (Q.setting hgar).Unmistaken := by
    have := safe_of_not_nearly_misled (setters := []) hP' Q.made Q.S w1 w2 Q.hn1 Q.hn2 Q.hsch Q.hop Q.drift hmis hc
    exact ⟨this.1, this.2.1⟩
  have hany : Q.M.cfg.anythingToExecute = true := by
    unfold Configuration.anythingToExecute
    rw [show Q.M.cfg.execution.runAlternatingChecker = true from hc]; simp
  change CalmRuns (PRAnswer (Q.setting hgar)) Q.M.cfg _ _ at hrun
  cases hrun with
  | nothing env fuel s' hmode h =>
    unfold mode at hmode
    rw [hany] at hmode
    simp only [Bool.not_true, Bool.false_eq_true, if_false] at hmode
    split at hmode
    · exact absurd hmode (by simp)
    · split at hmode
      · split at hmode <;> exact absurd hmode (by simp)
      · exact absurd hmode (by simp)
  | empty env fuel s' he hmode h =>
    have hb : (State.fresh Q.M.cfg).begin.cfg = Q.M.cfg := rfl
    unfold Mgr.run at h
    simp only [hb, hmode, Option.some.injEq, Ending.returned.injEq] at h
    subst h
    exact Or.inl (Or.inl rfl)
  | sequential env fuel s' hmode ht h hans =>
    exact Or.inl (rounded_partial_sequential_definite (Q.setting hgar) (s := State.fresh Q.M.cfg) hsafe hmode ht h hc hcon hans)
  | parallel env quiet s hp hq hrun hr ht hans hquiet =>
    rcases rounded_partial_parallel_decides (Q.setting hgar) hsafe hq hrun hr ht hc hcon hquiet with h | ⟨h, ⟨e1, he1, k1⟩, ⟨e2, he2, k2⟩, _⟩
    · exact Or.inl h.1
    · right
      have hz := rounded_partial_adjust_zx (Q.setting hgar) (env := env) hans
      have hen' := (parallel_verdict_explained hz (adjust_reachable hrun.steps) hr).2.1
      have a1 := (hen' e1 he1).2
      have a2 := (hen' e2 he2).2
      rw [k1.1] at a1
      rw [k2.1] at a2
      obtain ⟨k, _, hk⟩ := construct_fallback Q.made
      rw [hk] at hp a1 a2
      exact ⟨h, hp, a2, a1⟩

/-- A circuit that does not know a qubit keeps it. -/
theorem unnamed_keeps {c : Circ WOp} (w : Wired c) {q : Nat} (h : Unnamed c q) : Keeps c q := by
  refine ⟨unnamed_leaves w h, fun p hp => ?_⟩
  have avoid : ∀ s ∈ c.ops.flatMap WOp.parts, ¬ s.Names p ∧ ∀ x, s.Names x → ∃ q', (x, q') ∈ c.initialLayout := by
    intro s hs
    obtain ⟨o, ho, hs⟩ := List.mem_flatMap.1 hs
    exact ⟨fun hn => unnamed_leaves w h p hp o ho ⟨s, hs, hn⟩, fun x hn => w.inside o ho x ⟨s, hs, hn⟩⟩
  have start : startLabel c p = q ∧ ∀ x, (∃ q', (x, q') ∈ c.initialLayout) → startLabel c x = q → x = p := by
    refine ⟨w.startLabel_eq hp, ?_⟩
    rintro x ⟨q', hx⟩ e
    rw [w.startLabel_eq hx] at e
    subst e
    exact value_unique w.inj hx hp
  have moved : ∀ (l : List WSOp) (σ : Nat → Nat), (∀ s ∈ l, ¬ s.Names p ∧ ∀ x, s.Names x → ∃ q', (x, q') ∈ c.initialLayout) →
      (σ p = q ∧ ∀ x, (∃ q', (x, q') ∈ c.initialLayout) → σ x = q → x = p) →
      l.foldl WSOp.moved σ p = q ∧ ∀ x, (∃ q', (x, q') ∈ c.initialLayout) → l.foldl WSOp.moved σ x = q → x = p := by
    intro l
    induction l with
    | nil => intro σ _ hσ; exact hσ
    | cons s l ih =>
      intro σ hl hσ
      rw [List.foldl_cons]
      refine ih _ (fun s hs => hl s (List.mem_cons_of_mem _ hs)) ?_
      obtain ⟨hn, hk⟩ := hl s List.mem_cons_self
      cases s with
      | gate g => exact hσ
      | barrier qs => exact hσ
      | swap a b =>
        have ha : a ≠ p := fun e => hn (Or.inl e)
        have hb : b ≠ p := fun e => hn (Or.inr e)
        refine ⟨?_, fun x hx e => ?_⟩
        · show σ (Equiv.swap a b p) = q
          rw [Equiv.swap_apply_of_ne_of_ne ha.symm hb.symm]
          exact hσ.1
        · have e : σ (Equiv.swap a b x) = q := e
          have key : ∃ q', (Equiv.swap a b x, q') ∈ c.initialLayout := by
            by_cases h1 : x = a
            · rw [h1, Equiv.swap_apply_left]; exact hk b (Or.inr rfl)
            · by_cases h2 : x = b
              · rw [h2, Equiv.swap_apply_right]; exact hk a (Or.inl rfl)
              · rw [Equiv.swap_apply_of_ne_of_ne h1 h2]; exact hx
          have := hσ.2 _ key e
          rw [← Equiv.swap_apply_self a b x, this, Equiv.swap_apply_of_ne_of_ne ha.symm hb.symm]
  have ends : ∀ (l : Layout) (σ : Nat → Nat), (∀ e ∈ l, e.2 ≠ q ∧ e.1 ≠ p ∧ ∃ q', (e.1, q') ∈ c.initialLayout) →
      (σ p = q ∧ ∀ x, (∃ q', (x, q') ∈ c.initialLayout) → σ x = q → x = p) → settled l σ p = q := by
    intro l
    induction l with
    | nil => intro σ _ hσ; exact hσ.1
    | cons e l ih =>
      intro σ hl hσ
      obtain ⟨h1, h2, h3⟩ := hl e List.mem_cons_self
      have h4 : σ e.1 ≠ q := fun he => h2 (hσ.2 _ h3 he)
      show settled l (Equiv.swap (σ e.1) e.2 ∘ σ) p = q
      refine ih _ (fun e he => hl e (List.mem_cons_of_mem _ he)) ⟨?_, fun x hx he => ?_⟩
      · rw [Function.comp_apply, hσ.1, Equiv.swap_apply_of_ne_of_ne h4.symm h1.symm]
      · refine hσ.2 x hx ?_
        rw [Function.comp_apply] at he
        rw [← Equiv.swap_apply_self (σ e.1) e.2 (σ x), he, Equiv.swap_apply_of_ne_of_ne h4.symm h1.symm]
  refine ends _ _ (fun e he => ?_) (moved _ _ avoid start)
  obtain ⟨a, q'', b, d⟩ := h.out e.1 e.2 he
  refine ⟨by omega, fun e0 => ?_, q'', b⟩
  rw [e0] at b
  have := Layout.key_inj w.keys hp b
  omega

/-- No common ancillary qubits are used if no qubit is declared ancillary in both circuits. -/
theorem common_not_used {c1 c2 : Circ WOp} (r1 : Runnable c1) (r2 : Runnable c2) (h : NoCommonAncilla c1 c2) (cfg : Configuration)
    (setters : List Param.Setter) : ¬ CommonAncillasUsed lib c1 c2 cfg setters := by
  rintro ⟨M, hP, hm, _, ⟨q, hq, a1, a2, k1⟩, ⟨q', hq', b1, b2, k2⟩⟩
  have hP' : ∀ p ∈ planned cfg.optimizations true, Faithful lib.passes p := fun p hp => (hP p hp).1
  obtain ⟨w1, w2, _, _⟩ := construct_preserves lib.reliable r1 r2 hP' hm
  rcases construct_unnamed lib.reliable r1 r2 hP' hm h with hu | hu
  · exact k1 (unnamed_keeps w1 (hu q hq a1 a2))
  · exact k2 (unnamed_keeps w2 (hu q' hq' b1 b2))

/-- **C94.** `verify` with partial equivalence tells circuits apart: with the alternating checker enabled, nobody interrupting the checkers and small errors,
partially equivalent circuits are not refuted, and circuits of which an event that can be seen on the measured qubits differs in its probability by more
than four drifts are reported `NotEquivalent`.  The construction checker has to be switched off and not to replace the alternating checker; the circuits must
not lead the alternating checker astray and not both use common ancillary qubits. -/
theorem verify_rounded_partial_decides {d : ℝ} (hw : RPCalmRealises lib imp w d True)
    (hp : cfg.functionality.checkPartialEquivalence = true) (hs1 : ¬ Symbolic i₁) (hs2 : ¬ Symbolic i₂) (hen : Enabled cfg .alternating)
    {c1 c2 : Circ WOp} (h1 : imp (.given i₁) = some c1) (h2 : imp (.given i₂) = some c2) (r1 : Runnable c1) (r2 : Runnable c2)
    (hg : SameGarbage c1 c2) (ha : SameAncillas c1 c2) (hl : AncillasLast c1) (hno : ¬ ConstructionUsed lib c1 c2 cfg [])
    (hcu : ¬ CommonAncillasUsed lib c1 c2 cfg []) (h : Param.verify w cfg i₁ i₂ = .ok res) :
    (Definite res.equivalence ∧ (PartiallyEqual c1 c2 → res.equivalence ≠ .notEquivalent) ∧
      (¬ PartiallyNear (Fixed c1 c2) (4 * d) c1 c2 → res.equivalence = .notEquivalent)) ∨
    (res.equivalence = .equivalent ∧ CrossedShortcut lib c1 c2 cfg) ∨ (res.equivalence = .noInformation ∧ ParallelWithBoth cfg) ∨
    NearlyMisled lib c1 c2 cfg [] d := by
  have hrun := verify_is_rounded_manager (P := fun c1 c2 cfg setters v => RPCalmManagerRun lib c1 c2 cfg setters d True v) hw hp hs1 hs2 h1 h2 h
  rcases rpcalm_definite r1 r2 hg hrun hen hno with hdef | hdef
  · rcases manager_verdict_rounded_partial r1 r2 hg (rpcalm_manager_run hrun) with hv | hv | hv
    · left
      have nd : ∀ k, ¬ Displaced lib c1 c2 cfg [] k := not_displaced r1 r2 hl cfg []
      have hf : Fixed c1 c2 = FixedInBoth c1 c2 := funext fun q => propext (fixed_same ha q).symm
      refine ⟨hdef, fun he e => ?_, fun hfar => ?_⟩
      · rcases hv.negative e trivial with h | h | h | h
        · unfold PartiallyEqual at he
          rw [hf] at he
          exact h he
        · exact hno h
        · exact hcu h
        · exact nd _ h
      · by_contra hne
        rcases hv.positive (by rcases hdef with e | e | e; exacts [Or.inl e, Or.inr e, absurd e hne]) with h | h | h
        · exact hfar h
        · exact hno h
        · exact nd _ h
    · exact Or.inr (Or.inl hv)
    · exact Or.inr (Or.inr (Or.inr hv))
  · exact Or.inr (Or.inr hdef)

end QCEC.Props
