import Verif.Spec.VerifyCommon
import Verif.Props.PythonVerify
import Verif.Props.VerifyRounding
/-!
# Properties: circuits that declare any qubits as ancillary are decided (C90)
-/
namespace QCEC.Props
open QCEC QCEC.Mgr QCEC.Prep QCEC.Par QCEC.Spec QCEC.Spec.Wide QCEC.Spec.ZX QCEC.ZX QCEC.Sem

variable {m n : Nat} {lib lib' : Library}

/-! ## What a verdict of a run is, in terms of the answers -/

/-- Whatever holds of the verdicts that say nothing and of the conclusive answers of the enabled checkers holds of the verdict of a sequential run. -/
theorem sequential_verdict_from (S : Mixed m n) {env : Env} {fuel : Nat} {s s' : State} (Q : Criterion → Prop)
    (hdef : ∀ v, v = .noInformation ∨ v = .probablyEquivalent ∨ v = .probablyNotEquivalent → Q v)
    (hcon : ∀ e : Event, Conclusive e → Enabled s.cfg e.kind → MAnswerMeans S false e.kind e.verdict → Q e.verdict)
    (hs : Enabled s.cfg .alternating → S.Safe) (hm : mode env s.cfg = .sequential) (h : run env fuel s = some (.returned s'))
    (hans : ∀ e : Event, FromEnv env e → Enabled s.cfg e.kind → MAnswer S false e.kind e.verdict) : Q s'.results.equivalence := by
  obtain ⟨hx, hp, _⟩ := sequential_verdict_explained hm h
  by_cases hc : ∃ e ∈ s'.log, Conclusive e
  · obtain ⟨e, he, hce⟩ := hc
    rw [hx.1 e he hce]
    exact hcon e hce (hp e he).2 (mixed_answer_means S (fun ek => hs (ek ▸ (hp e he).2)) (hans e (hp e he).1 (hp e he).2))
  · rw [hx.2 fun e he hce => hc ⟨e, he, hce⟩]
    exact hdef _ (evidence_default _)

/-- The same for parallel runs. -/
theorem parallel_verdict_from (S : Mixed m n) {env : ParEnv} {cfg : Configuration} {res : Results} {s : PState} (Q : Criterion → Prop)
    (hdef : ∀ v, v = .noInformation ∨ v = .probablyEquivalent ∨ v = .probablyNotEquivalent → Q v)
    (hcon : ∀ e : Event, Conclusive e → Enabled cfg e.kind → MAnswerMeans S false e.kind e.verdict → Q e.verdict)
    (hs : Enabled cfg .alternating → S.Safe) (h : Reachable env cfg res s) (hr : s.main = .ended .returned)
    (hans : ∀ k c, Enabled cfg k → env.may k c → MAnswer S false k c) : Q s.results.equivalence := by
  obtain ⟨hx, hp, _⟩ := parallel_verdict_explained (mixed_adjust_zx S hans) (adjust_reachable h) hr
  by_cases hc : ∃ e ∈ s.log, Conclusive e
  · obtain ⟨e, he, hce⟩ := hc
    rw [hx.1 e he hce]
    exact hcon e hce (hp e he).2
      (mixed_answer_means S (fun ek => hs (ek ▸ (hp e he).2)) (hans _ _ (hp e he).2 ((adjust_may (hp e he).2 _).mp (hp e he).1)))
  · have hn : ∀ e ∈ s.log, ¬ Conclusive e := fun e he hce => hc ⟨e, he, hce⟩
    by_cases hg : ∃ e ∈ s.log, GivesUp e
    · obtain ⟨e, he, hge⟩ := hg
      rw [hx.2.1 e he hge]
      exact hdef _ (Or.inl rfl)
    · rw [hx.2.2 fun e he => ⟨hn e he, fun hge => hg ⟨e, he, hge⟩⟩]
      exact hdef _ (parEvidence_default _ _)

/-- The same for all flows. -/
theorem runs_verdict_from (S : Mixed m n) {cfg : Configuration} {E : Prop} {v : Criterion} (Q : Criterion → Prop)
    (hdef : ∀ v, v = .noInformation ∨ v = .probablyEquivalent ∨ v = .probablyNotEquivalent → Q v)
    (hcon : ∀ e : Event, Conclusive e → Enabled cfg e.kind → MAnswerMeans S false e.kind e.verdict → Q e.verdict)
    (hsafe : Enabled cfg .alternating → S.Safe) (hrun : Runs (MAnswer S false) cfg E v) : (v = .equivalent ∧ E) ∨ Q v := by
  cases hrun with
  | nothing env fuel s' hmode h =>
    have hb : (State.fresh cfg).begin.cfg = cfg := rfl
    unfold Mgr.run at h
    simp only [hb, hmode, Option.some.injEq, Ending.returned.injEq] at h
    subst h
    exact Or.inr (hdef _ (Or.inl rfl))
  | empty env fuel s' he hmode h =>
    have hb : (State.fresh cfg).begin.cfg = cfg := rfl
    unfold Mgr.run at h
    simp only [hb, hmode, Option.some.injEq, Ending.returned.injEq] at h
    subst h
    exact Or.inl ⟨rfl, he⟩
  | sequential env fuel s' hmode h hans => exact Or.inr (sequential_verdict_from S (s := State.fresh _) Q hdef hcon hsafe hmode h hans)
  | parallel env s hreach hr hans => exact Or.inr (parallel_verdict_from S Q hdef hcon hsafe hreach hr hans)
  | timed env fuel grow D cap p t s' hmode hf h he hans =>
    obtain ⟨fired, hm', _, h2⟩ := timed_run hf h he
    exact Or.inr (show Q s'.report.results.equivalence from
      sequential_verdict_from S (env := Tmo.withFired env fired hm') (s := State.fresh _) Q hdef hcon hsafe hmode h2 hans)
  | composed env D c h hr hans => exact Or.inr (parallel_verdict_from S Q hdef hcon hsafe (composed_refines h) hr hans)
  | delayed env s h hr hans =>
    obtain ⟨t, ht, hm', hres⟩ := (delayed_same_outcomes env _ _ _ _).1 ⟨s, h, hr, rfl⟩
    rw [← hres]
    exact Or.inr (parallel_verdict_from S Q hdef hcon hsafe ht hm' hans)

/-! ## The verdict is true of the inputs in which the common ancillary qubits are zero -/

theorem trueCommon_default {c1 c2 : Circ WOp} {v : Criterion} (h : v = .noInformation ∨ v = .probablyEquivalent ∨ v = .probablyNotEquivalent) :
    TrueCommon c1 c2 v := by
  rcases h with h | h | h <;> subst h <;> exact ⟨by simp, by simp, by simp, by simp⟩

/-- The verdict is true on these inputs if the alternating checker is safe and the other checkers treat the ancillary qubits as it does. -/
theorem common_of_safe {c1 c2 : Circ WOp} (h1 : Runnable c1) (h2 : Runnable c2) {cfg : Configuration} {v : Criterion}
    (hP : ∀ p ∈ planned cfg.optimizations true, Faithful lib.passes p) {M : Made WOp} (hm : Prep.construct lib.acts lib.passes cfg c1 c2 = .made M) {n : Nat}
    (S : Mixed M.qc1.ndata n) {e1 e2 : Nat → Fin n} (hn1 : Numbered e1 M.qc1 S.qc1) (hn2 : Numbered e2 M.qc2 S.qc2)
    (hsafe : Enabled M.cfg .alternating → S.Safe) (ho : ¬ OtherwiseTreated lib c1 c2 cfg)
    (hrun : Runs (MAnswer S false) M.cfg (M.qc1.ops = [] ∧ M.qc2.ops = []) v) :
    TrueCommon c1 c2 v ∨ v = .equivalent ∧ CrossedShortcut lib c1 c2 cfg := by
  have hacts := lib.reliable
  have key := mixed_constructed hacts h1 h2 hP hm S hn1 hn2
  have counted := (construct_last h1 h2 hP hm).1
  unfold OtherwiseTreated at ho
  push Not at ho
  obtain ⟨oc, oz, os, odz⟩ := ho
  -- the last qubits are the ancillary ones of the first circuit, for the checkers that think so
  have disp : ∀ k, Enabled M.cfg k → ¬ Displaced lib c1 c2 cfg [] k → ∀ q, q < n → M.qc1.isAncillary q = decide (M.qc1.ndata ≤ q) := by
    intro k hk hd q hq
    have hl : AncillasLast M.qc1 := by
      by_contra hl
      exact hd ⟨M, hP, hm, hk, hl⟩
    exact last_flags counted hl (by rwa [hn1.width])
  have same : SameAncillas c1 c2 → S.SameFlags := by
    intro hs q
    obtain ⟨f, hf⟩ := construct_fixed hacts h1 h2 hP hm
    have hq : FixedInBoth M.qc1 M.qc2 q.val ↔ Fixed M.qc1 M.qc2 q.val := by rw [(hf q).1, (hf q).2.1, fixed_same hs]
    have hlt := q.isLt
    unfold FixedInBoth Fixed at hq
    rw [hn1.width, hn2.width] at hq
    rw [hn1.ancillary q hlt, hn2.ancillary q hlt]
    cases a : M.qc1.isAncillary q.val <;> cases b : M.qc2.isAncillary q.val <;> simp [a, b] at hq ⊢ <;> omega
  have common : ∀ k, SameUpTo k (commonAnc S) S.qc1 S.ω1 S.qc2 S.ω2 ↔ EqualOn (FixedInBoth c1 c2) k c1 c2 := by
    intro k
    rw [← (key k false (by simp)).2]
    have e : Covers n (S.bothAnc false) (commonAnc S) := by
      intro q hq
      rw [commonAnc, altAncillary_flag] at hq
      rw [Mixed.bothAnc, marks_get, hq]
      rfl
    exact ⟨sameUpTo_covers e, sameUpTo_covers (common_covers_both S false)⟩
  have commonPhase : SameUpToPhase (commonAnc S) S.qc1 S.ω1 S.qc2 S.ω2 ↔ EqualCommonUpToPhase c1 c2 := by
    constructor
    · rintro ⟨k, hk, h⟩
      exact ⟨k, hk, (common k).1 h⟩
    · rintro ⟨k, hk, h⟩
      exact ⟨k, hk, (common k).2 h⟩
  have correct : ∀ v, Correct v (commonAnc S) S.qc1 S.ω1 S.qc2 S.ω2 → TrueCommon c1 c2 v := by
    intro v hv
    refine ⟨fun e => (common 1).1 (hv.equivalent.1 e), fun e => ?_, fun e => ?_, ?_⟩
    · obtain ⟨a, b⟩ := hv.phase.1 e
      exact ⟨commonPhase.1 a, fun h => b ((common 1).2 h)⟩
    · rw [← commonPhase]
      exact hv.notEquivalent.1 e
    · rcases correct_definite hv with e | e | e <;> simp [e]
  have hcon : ∀ e : Event, Conclusive e → Enabled M.cfg e.kind → MAnswerMeans S false e.kind e.verdict → TrueCommon c1 c2 e.verdict := by
    rintro ⟨k, v⟩ hc hen h
    cases k <;> simp only [Conclusive, MAnswerMeans] at hc h hen ⊢
    · -- simulation
      subst hc
      refine ⟨by simp, by simp, fun _ hp => h.1 rfl ?_, by simp⟩
      obtain ⟨k, hk, he⟩ := hp
      have hb := (key k true (fun _ => disp .simulation hen os)).2.2 he
      refine ⟨k, hk, sameUpTo_covers (last_covers_both S) hb⟩
    · rcases h with h | h
      · exact absurd h.2 hc
      · exact correct _ h
    · rcases h with h | ⟨_, _, heq⟩
      · exact absurd h.2 hc
      · refine correct _ (heq (same ?_))
        by_contra hs
        exact oc ⟨hs, M, hP, hm, hen⟩
    · have hz := h.2
      have hzx : Enabled cfg .zx := by
        obtain ⟨k, _, hk⟩ := construct_fallback hm
        rw [hk] at hen
        exact hen
      have hs : SameAncillas c1 c2 := by
        by_contra hs
        exact oz ⟨hzx, hs⟩
      have hle : Covers n (commonAnc S) (flags M.qc1.ndata n) := by
        intro q hq
        rw [flags_get M.qc1.ndata n S.data] at hq
        have a := disp .zx hen odz q.val q.isLt
        rw [← hn1.ancillary q.val q.isLt, hq] at a
        rw [commonAnc, altAncillary_flag, ← same hs q, a]
        rfl
      refine ⟨fun e => (common 1).1 (sameUpTo_covers hle (hz.equivalent e)), fun e => ⟨commonPhase.1 (phase_covers hle (hz.phase e).1), fun hq => ?_⟩, ?_, ?_⟩
      · exact (hz.phase e).2 (same_of_phase hle S.wf2.ops (hz.phase e).1 ((common 1).2 hq))
      · rcases hc with hc | hc <;> simp [hc]
      · rcases hc with hc | hc <;> simp [hc]
  rcases runs_verdict_from S (TrueCommon c1 c2) (fun v => trueCommon_default) hcon hsafe hrun with ⟨rfl, he⟩ | hv
  · by_cases hw : ∃ q, wire M.qc1 q ≠ wire M.qc2 q
    · exact Or.inr ⟨rfl, M, hP, hm, he.1, he.2, hw⟩
    · left
      have hq : ∀ q, wire M.qc1 q = wire M.qc2 q := fun q => by_contra fun h => hw ⟨q, h⟩
      have : EqualOn (FixedInBoth M.qc1 M.qc2) 1 M.qc1 M.qc2 := by
        intro v _ x
        rw [output_no_ops he.1, output_no_ops he.2, one_mul, show wire M.qc1 = wire M.qc2 from funext hq]
      exact ⟨fun _ => (construct_preserves_common hacts h1 h2 hP hm 1).1 this, by simp, by simp, by simp⟩
  · exact Or.inl hv

/-- **C90.** The verdict of a run on circuits that declare any qubits as ancillary, also different ones, is true of the inputs in which the qubits ancillary
in both are `|0⟩`: all flows and schedules, timeouts included.  The exceptions are named. -/
theorem manager_common_true {c1 c2 : Circ WOp} (r1 : Runnable c1) (r2 : Runnable c2) {cfg : Configuration} {v : Criterion}
    (h : ManagerRun lib c1 c2 cfg [] v) :
    TrueCommon c1 c2 v ∨ (v = .equivalent ∧ CrossedShortcut lib c1 c2 cfg) ∨ Misled lib c1 c2 cfg [] ∨ OtherwiseTreated lib c1 c2 cfg := by
  obtain ⟨hP, M, hm, _, n, rfl, S, e1, e2, hn1, hn2, hsch, hop, hrun⟩ := h
  by_cases hmis : Misled lib c1 c2 cfg []
  · exact Or.inr (Or.inr (Or.inl hmis))
  by_cases ho : OtherwiseTreated lib c1 c2 cfg
  · exact Or.inr (Or.inr (Or.inr ho))
  obtain ⟨w1, w2, _, _⟩ := construct_preserves lib.reliable r1 r2 hP hm
  rcases common_of_safe r1 r2 hP hm S hn1 hn2 (safe_of_not_misled hP hm S w1 w2 hn1 hn2 hsch hop hmis) ho hrun with hv | hv
  · exact Or.inl hv
  · exact Or.inr (Or.inl hv)

theorem decidedCommon_of {c1 c2 : Circ WOp} {v : Criterion} (hd : Definite v) (ht : TrueCommon c1 c2 v) : DecidedCommon c1 c2 v := by
  have up : EqualCommon c1 c2 → EqualCommonUpToPhase c1 c2 := fun h => ⟨1, by simp, h⟩
  rcases hd with e | e | e <;> subst e
  · have := ht.equivalent rfl
    exact ⟨⟨fun _ => this, fun _ => rfl⟩, ⟨fun h => absurd h (by simp), fun h => absurd this h.2⟩,
      ⟨fun h => absurd h (by simp), fun h => absurd (up this) h⟩⟩
  · have := ht.phase rfl
    exact ⟨⟨fun h => absurd h (by simp), fun h => absurd h this.2⟩, ⟨fun _ => this, fun _ => rfl⟩,
      ⟨fun h => absurd h (by simp), fun h => absurd this.1 h⟩⟩
  · have := ht.notEquivalent rfl
    exact ⟨⟨fun h => absurd h (by simp), fun h => absurd (up h) this⟩, ⟨fun h => absurd h (by simp), fun h => absurd h.1 this⟩,
      ⟨fun _ => this, fun _ => rfl⟩⟩

/-- **C90.** A manager whose checkers nobody interrupts, with the alternating or the construction checker enabled, decides for any two circuits whether they do
the same on all inputs in which the qubits ancillary in both are `|0⟩`.  The exceptions are named. -/
theorem manager_decides_common {c1 c2 : Circ WOp} (r1 : Runnable c1) (r2 : Runnable c2) {cfg : Configuration} {v : Criterion}
    (h : CalmManagerRun lib c1 c2 cfg [] v) (hen : Enabled cfg .alternating ∨ Enabled cfg .construction) :
    DecidedCommon c1 c2 v ∨ (v = .equivalent ∧ CrossedShortcut lib c1 c2 cfg) ∨ (v = .noInformation ∧ ParallelWithBoth cfg) ∨ Misled lib c1 c2 cfg [] ∨
      OtherwiseTreated lib c1 c2 cfg := by
  by_cases hmis : Misled lib c1 c2 cfg []
  · exact Or.inr (Or.inr (Or.inr (Or.inl hmis)))
  rcases calm_definite r1 r2 h hmis hen with hd | hd
  · rcases manager_common_true r1 r2 (calm_manager_run h) with hv | hv | hv | hv
    · exact Or.inl (decidedCommon_of hd hv)
    · exact Or.inr (Or.inl hv)
    · exact absurd hv hmis
    · exact Or.inr (Or.inr (Or.inr (Or.inr hv)))
  · exact Or.inr (Or.inr (Or.inl hd))

/-- Nothing is treated otherwise if the circuits have the same ancillary qubits, which are the last ones … -/
theorem not_otherwise_same {c1 c2 : Circ WOp} (r1 : Runnable c1) (r2 : Runnable c2) (ha : SameAncillas c1 c2) (hl : AncillasLast c1)
    (cfg : Configuration) : ¬ OtherwiseTreated lib c1 c2 cfg := by
  rintro (h | h | h | h)
  · exact h.1 ha
  · exact h.2 ha
  · exact not_displaced r1 r2 hl cfg [] _ h
  · exact not_displaced r1 r2 hl cfg [] _ h

/-- … or if only the alternating checker is used (and not replaced, C32). -/
theorem not_otherwise_alternating {c1 c2 : Circ WOp} {cfg : Configuration} (hs : ¬ Enabled cfg .simulation) (hz : ¬ Enabled cfg .zx)
    (hc : ∀ M, Prep.construct lib.acts lib.passes cfg c1 c2 = .made M → ¬ Enabled M.cfg .construction) : ¬ OtherwiseTreated lib c1 c2 cfg := by
  have back : ∀ M, Prep.construct lib.acts lib.passes cfg c1 c2 = .made M → (Enabled M.cfg .simulation → Enabled cfg .simulation) ∧
      (Enabled M.cfg .zx → Enabled cfg .zx) := by
    intro M hm
    obtain ⟨k, _, hk⟩ := construct_fallback hm
    rw [hk]
    exact ⟨id, id⟩
  rintro (⟨_, M, _, hm, h⟩ | h | ⟨M, _, hm, h, _⟩ | ⟨M, _, hm, h, _⟩)
  · exact hc M hm h
  · exact hz h.1
  · exact hs ((back M hm).1 h)
  · exact hz ((back M hm).2 h)

/-! ## Calls of `verify` and `verify_compilation` -/

section Calls
open QCEC.Spec.Py

variable {V V' : Type} {conv : Py.Kind → V → Option Py.FieldVal} {conv' : Py.Kind → V' → Option Py.FieldVal} {cfg cfg' : Configuration} {c1 c2 : Circ WOp}
  {v v' : Criterion}

/-- **C90.** The verdict of a call of `verify` or `verify_compilation`, interrupted or not, is true of the circuits on the inputs in which the qubits ancillary
in both are `|0⟩`. -/
theorem checked_common_true (h : Checked lib conv c1 c2 cfg v) (r1 : Runnable c1) (r2 : Runnable c2) :
    TrueCommon c1 c2 v ∨ (v = .equivalent ∧ CrossedShortcut lib c1 c2 cfg) ∨ Misled lib c1 c2 cfg [] ∨ OtherwiseTreated lib c1 c2 cfg := by
  obtain ⟨d, imp, w, hw, i₁, i₂, res, h, hp, hs1, hs2, h1, h2, rfl⟩ := h
  exact manager_common_true r1 r2 (verify_is_manager (P := ManagerRun lib) hw hp hs1 hs2 h1 h2 (call_verify h))

/-- **C90.** A call that nobody interrupts decides it. -/
theorem fullyChecked_decides_common (h : FullyChecked lib conv c1 c2 cfg v) (r1 : Runnable c1) (r2 : Runnable c2) :
    DecidedCommon c1 c2 v ∨ ExcusedCommon lib c1 c2 cfg v := by
  obtain ⟨d, imp, w, hw, i₁, i₂, res, h, hp, hs1, hs2, h1, h2, hen, rfl⟩ := h
  rcases manager_decides_common r1 r2 (verify_is_manager (P := CalmManagerRun lib) hw hp hs1 hs2 h1 h2 (call_verify h)) hen with h | h | h | h | h
  · exact Or.inl h
  · exact Or.inr (Or.inl (Or.inl h))
  · exact Or.inr (Or.inl (Or.inr (Or.inl h)))
  · exact Or.inr (Or.inl (Or.inr (Or.inr h)))
  · exact Or.inr (Or.inr h)

theorem decidedCommon_unique (h : DecidedCommon c1 c2 v) (h' : DecidedCommon c1 c2 v') : v = v' := by
  by_cases he : EqualCommon c1 c2
  · rw [h.equivalent.2 he, h'.equivalent.2 he]
  · by_cases hp : EqualCommonUpToPhase c1 c2
    · rw [h.phase.2 ⟨hp, he⟩, h'.phase.2 ⟨hp, he⟩]
    · rw [h.notEquivalent.2 hp, h'.notEquivalent.2 hp]

/-- **C90.** Two uninterrupted calls for the same circuits have the same verdict, whatever options they ask for. -/
theorem same_verdict_common (h : FullyChecked lib conv c1 c2 cfg v) (h' : FullyChecked lib' conv' c1 c2 cfg' v') (r1 : Runnable c1) (r2 : Runnable c2) :
    v = v' ∨ ExcusedCommon lib c1 c2 cfg v ∨ ExcusedCommon lib' c1 c2 cfg' v' := by
  rcases fullyChecked_decides_common h r1 r2 with hd | hd
  · rcases fullyChecked_decides_common h' r1 r2 with hd' | hd'
    · exact Or.inl (decidedCommon_unique hd hd')
    · exact Or.inr (Or.inr hd')
  · exact Or.inr (Or.inl hd)

theorem fixedInBoth_symm {q : Nat} : FixedInBoth c1 c2 q ↔ FixedInBoth c2 c1 q := by unfold FixedInBoth; tauto

theorem equalOn_symm {k : ℂ} (hk : k ≠ 0) (h : EqualOn (FixedInBoth c1 c2) k c1 c2) : EqualOn (FixedInBoth c2 c1) k⁻¹ c2 c1 := fun v hv x => by
  rw [h v (zero_mono (fun q => fixedInBoth_symm.1) hv) x, inv_mul_cancel_left₀ hk]

theorem equalCommon_symm : EqualCommon c1 c2 ↔ EqualCommon c2 c1 := by
  constructor <;> intro h <;> simpa [EqualCommon] using equalOn_symm one_ne_zero h

theorem equalCommonUpToPhase_symm : EqualCommonUpToPhase c1 c2 ↔ EqualCommonUpToPhase c2 c1 := by
  constructor <;> rintro ⟨k, hk, h⟩ <;>
    exact ⟨k⁻¹, by rw [norm_inv, hk, inv_one], equalOn_symm (by rintro rfl; simp at hk) h⟩

/-- **C90.** Exchanging the circuits does not change the verdict of uninterrupted calls. -/
theorem exchange_verdict_common (h : FullyChecked lib conv c1 c2 cfg v) (h' : FullyChecked lib' conv' c2 c1 cfg' v') (r1 : Runnable c1) (r2 : Runnable c2) :
    v = v' ∨ ExcusedCommon lib c1 c2 cfg v ∨ ExcusedCommon lib' c2 c1 cfg' v' := by
  rcases fullyChecked_decides_common h r1 r2 with hd | hd
  · rcases fullyChecked_decides_common h' r2 r1 with hd' | hd'
    · refine Or.inl (decidedCommon_unique hd ⟨?_, ?_, ?_⟩)
      · rw [hd'.equivalent, equalCommon_symm]
      · rw [hd'.phase, equalCommon_symm, equalCommonUpToPhase_symm]
      · rw [hd'.notEquivalent, equalCommonUpToPhase_symm]
    · exact Or.inr (Or.inr hd')
  · exact Or.inr (Or.inl hd)

/-- **C90.** Calls, interrupted or not, never contradict each other. -/
theorem no_contradiction_common (h : Checked lib conv c1 c2 cfg v) (h' : Checked lib' conv' c1 c2 cfg' v') (r1 : Runnable c1) (r2 : Runnable c2)
    (hn : v = .notEquivalent) : (v' ≠ .equivalentUpToGlobalPhase ∧ (v' = .equivalent → CrossedShortcut lib' c1 c2 cfg')) ∨
      (Misled lib c1 c2 cfg [] ∨ OtherwiseTreated lib c1 c2 cfg) ∨ (Misled lib' c1 c2 cfg' [] ∨ OtherwiseTreated lib' c1 c2 cfg') := by
  rcases checked_common_true h r1 r2 with ht | ⟨ht, _⟩ | ht
  · rcases checked_common_true h' r1 r2 with ht' | ⟨ht', hc⟩ | ht'
    · exact Or.inl ⟨fun e => ht.notEquivalent hn (ht'.phase e).1, fun e => absurd ⟨1, by simp, ht'.equivalent e⟩ (ht.notEquivalent hn)⟩
    · exact Or.inl ⟨by rw [ht']; simp, fun _ => hc⟩
    · exact Or.inr (Or.inr ht')
  · rw [hn] at ht
    exact absurd ht (by simp)
  · exact Or.inr (Or.inl ht)

/-- **C90** for the alternating checker alone, with circuits that declare any ancillary qubits: none of the exceptions about ancillary qubits arises. -/
theorem alternating_decides_common (h : FullyChecked lib conv c1 c2 cfg v) (r1 : Runnable c1) (r2 : Runnable c2)
    (hs : cfg.execution.runSimulationChecker = false) (hz : cfg.execution.runZXChecker = false)
    (hc : ∀ M, Prep.construct lib.acts lib.passes cfg c1 c2 = .made M → ¬ Enabled M.cfg .construction) :
    DecidedCommon c1 c2 v ∨ v = .equivalent ∧ CrossedShortcut lib c1 c2 cfg ∨ Misled lib c1 c2 cfg [] := by
  rcases fullyChecked_decides_common h r1 r2 with hd | (hd | hd | hd) | hd
  · exact Or.inl hd
  · exact Or.inr (Or.inl hd)
  · exact absurd hd.2.2.2 (by simp [hz])
  · exact Or.inr (Or.inr hd)
  · exact absurd hd (not_otherwise_alternating (by simp [Enabled, hs]) (by simp [Enabled, hz]) hc)

end Calls

end QCEC.Props
