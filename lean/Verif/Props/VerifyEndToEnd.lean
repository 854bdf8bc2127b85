import Verif.Spec.VerifyEndToEnd
import Verif.Props.AncillasLast
import Verif.Lemmas.Misled
import Verif.Props.PythonSession
import Verif.Props.Timeout
import Verif.Props.ParallelQueue
import Verif.Props.ParallelRelaxed
/-!
# Properties: the verdict of `verify()` is true of the circuits the user passed (C81)
-/
namespace QCEC.Props
open QCEC QCEC.Mgr QCEC.Prep QCEC.Spec QCEC.Spec.Wide QCEC.Spec.ZX QCEC.Wide QCEC.Sem QCEC.Spec.Param

variable {m n : Nat}

/-! ## Circuits without operations -/

theorem output_no_ops {c : Circ WOp} (h : c.ops = []) (v : Bits → ℂ) (x : Bits) : Wide.output c v x = v (x ∘ wire c) := by
  unfold Wide.output
  rw [h]
  simp only [Wide.run, List.flatMap_nil, List.foldl_nil]
  congr 1
  funext q
  simp only [Function.comp_apply, wire]
  split <;> rfl

theorem equal_no_ops {c1 c2 : Circ WOp} (h1 : c1.ops = []) (h2 : c2.ops = []) (h : ∀ q, wire c1 q = wire c2 q) : Equal c1 c2 := by
  intro v _ x
  rw [output_no_ops h1, output_no_ops h2, one_mul, show wire c1 = wire c2 from funext h]

/-! ## A manager -/

theorem fixed_same {c1 c2 : Circ WOp} (h : SameAncillas c1 c2) (q : Nat) : FixedInBoth c1 c2 q ↔ Fixed c1 c2 q := by
  unfold FixedInBoth Fixed
  by_cases a : c1.nqubits ≤ q
  · simp [a]
  · by_cases b : c2.nqubits ≤ q
    · simp [b]
    · rw [h q (by omega) (by omega)]
      simp [a, b]

/-- For circuits with the same ancillary qubits, those being the last ones, the verdict is right without restriction. -/
theorem verdict_same_ancillas {c1 c2 : Circ WOp} {cfg : Configuration} {setters : List Param.Setter} {v : Criterion} (r1 : Runnable c1) (r2 : Runnable c2)
    (h : SameAncillas c1 c2) (hl : AncillasLast c1) (hv : Verdict lib c1 c2 cfg setters v) : VerdictTrue c1 c2 v := by
  have no : ∀ k, ¬ (ConstructionMixed lib c1 c2 cfg setters ∨ Displaced lib c1 c2 cfg setters k) := by
    rintro k (hc | hd)
    · exact hc.1 h
    · exact not_displaced r1 r2 hl cfg setters k hd
  refine ⟨fun e => (hv.equivalent e).resolve_right (no _), fun e => ⟨(hv.positive (Or.inr e)).resolve_right fun hd => no _ (Or.inr hd),
    (hv.phase e).resolve_right (no _)⟩, fun e hp => ?_, hv.never⟩
  obtain ⟨k, hk, he⟩ := hp
  exact (hv.notEquivalent e).resolve_right (no _) ⟨k, hk, fun v hz x => he v (fun x hx q hq => hz x hx q ((fixed_same h q).2 hq)) x⟩

/-- What the verdict of a run means for the circuits the checkers see. -/
theorem meaning_of_safe {m n : Nat} (S : Mixed m n) {cfg : Configuration} {E : Prop} {v : Criterion} (hsafe : Enabled cfg .alternating → S.Safe)
    (hrun : Runs (MAnswer S false) cfg E v) : v = .noInformation ∨ v = .equivalent ∧ E ∨ MMeaning S cfg v := by
  cases hrun with
  | nothing env fuel s' hmode h =>
    left
    have hb : (State.fresh cfg).begin.cfg = cfg := rfl
    unfold Mgr.run at h
    simp only [hb, hmode, Option.some.injEq, Ending.returned.injEq] at h
    subst h
    rfl
  | empty env fuel s' he hmode h =>
    have hb : (State.fresh cfg).begin.cfg = cfg := rfl
    unfold Mgr.run at h
    simp only [hb, hmode, Option.some.injEq, Ending.returned.injEq] at h
    subst h
    exact Or.inr (Or.inl ⟨rfl, he⟩)
  | sequential env fuel s' hmode h hans => exact Or.inr (Or.inr (mixed_sequential_verdict S (s := State.fresh _) hsafe hmode h hans))
  | parallel env s hreach hr hans => exact Or.inr (Or.inr (mixed_parallel_verdict S hsafe hreach hr hans))
  | timed env fuel grow D cap p t s' hmode hf h he hans =>
    obtain ⟨fired, hm', _, h2⟩ := timed_run hf h he
    exact Or.inr (Or.inr (show MMeaning S cfg s'.report.results.equivalence from mixed_sequential_verdict S (env := Tmo.withFired env fired hm') (s := State.fresh _) hsafe hmode h2 hans))
  | composed env D c h hr hans => exact Or.inr (Or.inr (mixed_parallel_verdict S hsafe (composed_refines h) hr hans))
  | delayed env s h hr hans =>
    obtain ⟨t, ht, hm', hres⟩ := (delayed_same_outcomes env _ _ _ _).1 ⟨s, h, hr, rfl⟩
    rw [← hres]
    exact Or.inr (Or.inr (mixed_parallel_verdict S hsafe ht hm' hans))

/-! ## `verify` -/

/-- The verdict is true if the alternating checker is safe, unless it is the one of the shortcut for empty circuits. -/
theorem verdict_of_safe {c1 c2 : Circ WOp} (h1 : Runnable c1) (h2 : Runnable c2) {cfg : Configuration} {setters : List Param.Setter} {v : Criterion}
    (hP : ∀ p ∈ planned cfg.optimizations true, Faithful lib.passes p) {M : Made WOp} (hm : Prep.construct lib.acts lib.passes cfg c1 c2 = .made M) {n : Nat}
    (S : Mixed M.qc1.ndata n) {e1 e2 : Nat → Fin n} (hn1 : Numbered e1 M.qc1 S.qc1) (hn2 : Numbered e2 M.qc2 S.qc2)
    (hsafe : Enabled (afterSetters M.cfg setters) .alternating → S.Safe)
    (hrun : Runs (MAnswer S false) (afterSetters M.cfg setters) (M.qc1.ops = [] ∧ M.qc2.ops = []) v) :
    Verdict lib c1 c2 cfg setters v ∨ v = .equivalent ∧ CrossedShortcut lib c1 c2 cfg := by
  have hacts := lib.reliable
  have quiet : Verdict lib c1 c2 cfg setters .noInformation := ⟨by simp, by simp, by simp, by simp, by simp⟩
  have key := mixed_constructed hacts h1 h2 hP hm S hn1 hn2
  have counted := (construct_last h1 h2 hP hm).1
  have carry : ∀ v, MMeaning S (afterSetters M.cfg setters) v → Verdict lib c1 c2 cfg setters v := by
    intro v hv
    -- the exceptional case of a checker that takes the wrong qubits for the ancillary ones
    have disp : ∀ (k : Kind) (b : Bool), (b = true → Enabled (afterSetters M.cfg setters) k) → ¬ Displaced lib c1 c2 cfg setters k →
        b = true → ∀ q, q < n → M.qc1.isAncillary q = decide (M.qc1.ndata ≤ q) := by
      intro k b hb hd e q hq
      have hl : AncillasLast M.qc1 := by
        by_contra hl
        exact hd ⟨M, hP, hm, hb e, hl⟩
      exact last_flags counted hl (by rwa [hn1.width])
    have mixed : ¬ (Enabled (afterSetters M.cfg setters) .construction → S.SameFlags) → ConstructionMixed lib c1 c2 cfg setters := by
      intro hc
      rw [Classical.not_imp] at hc
      refine ⟨fun hs => hc.2 fun q => ?_, M, hP, hm, hc.1⟩
      obtain ⟨f, hf⟩ := construct_fixed hacts h1 h2 hP hm
      have hq : FixedInBoth M.qc1 M.qc2 q.val ↔ Fixed M.qc1 M.qc2 q.val := by rw [(hf q).1, (hf q).2.1, fixed_same hs]
      have hlt := q.isLt
      unfold FixedInBoth Fixed at hq
      rw [hn1.width, hn2.width] at hq
      rw [hn1.ancillary q hlt, hn2.ancillary q hlt]
      cases a : M.qc1.isAncillary q.val <;> cases b : M.qc2.isAncillary q.val <;> simp [a, b] at hq ⊢ <;> omega
    refine ⟨fun e => ?_, fun e => ?_, fun e => ?_, fun e => ?_, hv.never⟩
    · by_cases hd : Displaced lib c1 c2 cfg setters .zx
      · exact Or.inr hd
      · obtain ⟨k, hk, h⟩ := hv.positive e
        exact Or.inl ⟨k, hk, (key k _ (disp .zx _ id hd)).1.1 h⟩
    · by_cases hd : Displaced lib c1 c2 cfg setters .zx
      · exact Or.inr (Or.inr hd)
      · by_cases hc : Enabled (afterSetters M.cfg setters) .construction → S.SameFlags
        · exact Or.inl ((key 1 _ (disp .zx _ id hd)).1.1 (hv.equivalent e hc))
        · exact Or.inr (Or.inl (mixed hc))
    · by_cases hd : Displaced lib c1 c2 cfg setters .zx
      · exact Or.inr (Or.inr hd)
      · by_cases hc : Enabled (afterSetters M.cfg setters) .construction → S.SameFlags
        · exact Or.inl fun h => hv.phase e hc ((key 1 _ (disp .zx _ id hd)).1.2 h)
        · exact Or.inr (Or.inl (mixed hc))
    · by_cases hd : Displaced lib c1 c2 cfg setters .simulation
      · exact Or.inr (Or.inr hd)
      · by_cases hc : Enabled (afterSetters M.cfg setters) .construction → S.SameFlags
        · left
          rintro ⟨k, hk, h⟩
          exact hv.notEquivalent e hc ⟨k, hk, (key k _ (disp .simulation _ id hd)).2.2 h⟩
        · exact Or.inr (Or.inl (mixed hc))
  rcases meaning_of_safe S hsafe hrun with rfl | ⟨rfl, he⟩ | hv
  · exact Or.inl quiet
  · by_cases hw : ∃ q, wire M.qc1 q ≠ wire M.qc2 q
    · exact Or.inr ⟨rfl, M, hP, hm, he.1, he.2, hw⟩
    · left
      have hq : ∀ q, wire M.qc1 q = wire M.qc2 q := fun q => by_contra fun h => hw ⟨q, h⟩
      have := ((construct_preserves hacts h1 h2 hP hm).2.2.2 1).1 (equal_no_ops he.1 he.2 hq)
      exact ⟨fun _ => Or.inl ⟨1, by simp, this⟩, fun _ => Or.inl this, by simp, by simp, by simp⟩
  · exact Or.inl (carry _ hv)

/-- **C81.** The verdict of a manager that is constructed for two circuits and run is true of them, in all flows and schedules and whenever a timeout
fires – unless it is the `Equivalent` of the shortcut for circuits of which no operation is left although they connect their qubits differently, or the
alternating checker can be misled by operations that look the same. -/
theorem manager_verdict_true {c1 c2 : Circ WOp} (h1 : Runnable c1) (h2 : Runnable c2) {cfg : Configuration} {setters : List Param.Setter} {v : Criterion}
    (h : ManagerRun lib c1 c2 cfg setters v) : Verdict lib c1 c2 cfg setters v ∨ v = .equivalent ∧ CrossedShortcut lib c1 c2 cfg ∨ Misled lib c1 c2 cfg setters := by
  obtain ⟨hP, M, hm, _, n, rfl, S, e1, e2, hn1, hn2, hsch, hop, hrun⟩ := h
  by_cases hmis : Misled lib c1 c2 cfg setters
  · exact Or.inr (Or.inr hmis)
  obtain ⟨w1, w2, _, _⟩ := construct_preserves lib.reliable h1 h2 hP hm
  rcases verdict_of_safe h1 h2 hP hm S hn1 hn2 (safe_of_not_misled hP hm S w1 w2 hn1 hn2 hsch hop hmis) hrun with hv | hv
  · exact Or.inl hv
  · exact Or.inr (Or.inl hv)

variable {imp : Param.Subject → Option (Circ WOp)} {w : Param.World} {cfg : Configuration} {i₁ i₂ : Param.Input} {res : Param.Res}

/-- **C81.** The verdict of `verify` on circuits without symbolic parameters is true of the circuits. -/
theorem verify_verdict_true (hw : Realises lib imp w) (hp : cfg.functionality.checkPartialEquivalence = false) (hs1 : ¬ Symbolic i₁) (hs2 : ¬ Symbolic i₂)
    {c1 c2 : Circ WOp} (h1 : imp (.given i₁) = some c1) (h2 : imp (.given i₂) = some c2) (r1 : Runnable c1) (r2 : Runnable c2)
    (h : Param.verify w cfg i₁ i₂ = .ok res) : Verdict lib c1 c2 cfg [] res.equivalence ∨
      res.equivalence = .equivalent ∧ CrossedShortcut lib c1 c2 cfg ∨ Misled lib c1 c2 cfg [] := by
  obtain ⟨a, _, b⟩ := verify_choice (w := w) (cfg := cfg) (i₁ := i₁) (i₂ := i₂)
  have v1 : Verifiable i₁ := by
    by_contra hn
    rw [b (Or.inl hn)] at h
    exact absurd h (by simp)
  have v2 : Verifiable i₂ := by
    by_contra hn
    rw [b (Or.inr ⟨hn, hs1⟩)] at h
    exact absurd h (by simp)
  rw [a v1 v2 hs1 hs2] at h
  exact manager_verdict_true r1 r2 (hw _ _ _ _ _ _ _ _ hp h1 h2 h)

/-- Two circuits without parameters do the same (up to a global phase), as imported. -/
def EqualBound (imp : Param.Subject → Option (Circ WOp)) (b₁ b₂ : Param.Bound) : Prop :=
  ∀ c1 c2, imp (.bound b₁) = some c1 → imp (.bound b₂) = some c2 → EqualUpToPhase c1 c2

/-- The instantiated circuits can be imported and run, and declare the same qubits as ancillary, their last ones (e.g. none). -/
def Imports (imp : Param.Subject → Option (Circ WOp)) : Prop :=
  (∀ b, ∃ c, imp (.bound b) = some c ∧ Runnable c ∧ AncillasLast c) ∧ ∀ b₁ b₂ c1 c2, imp (.bound b₁) = some c1 → imp (.bound b₂) = some c2 → SameAncillas c1 c2

/-- The alternating checker can be misled by the instantiated circuits (in the managers `check_parameterized` creates for them, which do not use the
ZX-calculus). -/
def MisledOn (lib : Library) (imp : Param.Subject → Option (Circ WOp)) (cfg : Configuration) (b₁ b₂ : Param.Bound) : Prop :=
  ∃ c1 c2, imp (.bound b₁) = some c1 ∧ imp (.bound b₂) = some c2 ∧ Misled lib c1 c2 cfg [.zx false]

/-- The circuits differ, unless the checkers are misled. -/
def Differ (lib : Library) (imp : Param.Subject → Option (Circ WOp)) (cfg : Configuration) (b₁ b₂ : Param.Bound) : Prop :=
  ¬ EqualBound imp b₁ b₂ ∨ MisledOn lib imp cfg b₁ b₂

theorem realises_sound (hw : Realises lib imp w) (hi : Imports imp) {k : Nat} {b₁ b₂ : Param.Bound}
    (hp : cfg.functionality.checkPartialEquivalence = false) (h : w.manager k cfg [.zx false] (.bound b₁) (.bound b₂) = .ok res) :
    MisledOn lib imp cfg b₁ b₂ ∨ (res.equivalence = .notEquivalent → ¬ EqualBound imp b₁ b₂) ∧
    ((∃ c1 c2, imp (.bound b₁) = some c1 ∧ imp (.bound b₂) = some c2 ∧ CrossedShortcut lib c1 c2 cfg) ∨
      (res.equivalence = .equivalent ∨ res.equivalence = .equivalentUpToGlobalPhase → EqualBound imp b₁ b₂)) := by
  obtain ⟨c1, h1, r1, l1⟩ := hi.1 b₁
  obtain ⟨c2, h2, r2, _⟩ := hi.1 b₂
  by_cases hmis : Misled lib c1 c2 cfg [.zx false]
  · exact Or.inl ⟨c1, c2, h1, h2, hmis⟩
  right
  have hv : VerdictTrue c1 c2 res.equivalence ∨ res.equivalence = .equivalent ∧ CrossedShortcut lib c1 c2 cfg := by
    rcases manager_verdict_true r1 r2 (hw _ _ _ _ _ _ _ _ hp h1 h2 h) with hv | hv | hv
    · exact Or.inl (verdict_same_ancillas r1 r2 (hi.2 _ _ _ _ h1 h2) l1 hv)
    · exact Or.inr hv
    · exact absurd hv hmis
  refine ⟨fun hn hb => ?_, ?_⟩
  · rcases hv with hv | ⟨hv, _⟩
    · exact hv.notEquivalent hn (hb c1 c2 h1 h2)
    · rw [hn] at hv
      exact absurd hv (by simp)
  · rcases hv with hv | ⟨_, hx⟩
    · right
      intro he d1 d2 g1 g2
      rw [h1] at g1
      rw [h2] at g2
      cases g1
      cases g2
      rcases he with he | he
      · exact ⟨1, by simp, hv.equivalent he⟩
      · exact (hv.phase he).1
    · exact Or.inl ⟨c1, c2, h1, h2, hx⟩

/-- **C81.** `NotEquivalent` on circuits with symbolic parameters: there are values of the parameters for which the circuits differ, or for which they do
once all angles below the configured tolerance are set to 0; with a tolerance of 0 the former. -/
theorem verify_parameterized_not_equivalent (hw : Realises lib imp w) (hi : Imports imp) (hp : cfg.functionality.checkPartialEquivalence = false)
    (hs : Symbolic i₁ ∨ Symbolic i₂) (h : Param.verify w cfg i₁ i₂ = .ok res) (hv : res.equivalence = .notEquivalent) :
    ∃ c₁ c₂ v, i₁ = .circuit c₁ ∧ i₂ = .circuit c₂ ∧ (Differ lib imp cfg (at_ c₁ v) (at_ c₂ v) ∨
      0 < cfg.parameterized.parameterizedTol ∧ Differ lib imp cfg (rounded (cfg.parameterized.parameterizedTol : ℚ) (at_ c₁ v))
        (rounded (cfg.parameterized.parameterizedTol : ℚ) (at_ c₂ v))) := by
  obtain ⟨_, b, c⟩ := verify_choice (w := w) (cfg := cfg) (i₁ := i₁) (i₂ := i₂)
  have v1 : Verifiable i₁ := by
    by_contra hn
    rw [c (Or.inl hn)] at h
    exact absurd h (by simp)
  rw [b v1 hs] at h
  obtain ⟨c₁, c₂, v, b₁, b₂, k, r, e1, e2, hm, hr, hb⟩ := parameterized_refuted (ev := (Param.checkParameterized w cfg i₁ i₂).1) (Prod.ext rfl h) hv
  refine ⟨c₁, c₂, v, e1, e2, ?_⟩
  have hne : Differ lib imp cfg b₁ b₂ := (realises_sound hw hi hp hm).elim Or.inr fun t => Or.inl (t.1 hr)
  rcases hb with ⟨x1, x2⟩ | ⟨x1, x2⟩
  · left
    rwa [← x1, ← x2]
  · by_cases ht : 0 < cfg.parameterized.parameterizedTol
    · exact Or.inr ⟨ht, by rwa [← x1, ← x2]⟩
    · left
      have ht' : ((cfg.parameterized.parameterizedTol : ℚ) : ℝ) ≤ 0 := by exact_mod_cast not_lt.1 ht
      rw [x1, x2, rounded_nonpos ht', rounded_nonpos ht'] at hne
      exact hne

/-- **C81.** `Equivalent` on circuits with symbolic parameters was found by the ZX-calculus or is true for the values of the parameters drawn at random. -/
theorem verify_parameterized_equivalent (hw : Realises lib imp w) (hi : Imports imp) (hp : cfg.functionality.checkPartialEquivalence = false)
    (hs : Symbolic i₁ ∨ Symbolic i₂) (h : Param.verify w cfg i₁ i₂ = .ok res)
    (hv : res.equivalence = .equivalent ∨ res.equivalence = .equivalentUpToGlobalPhase) :
    w.manager 0 cfg [.disableAll, .zx true] (.given i₁) (.given i₂) = .ok res ∨
    ∃ c₁ c₂, i₁ = .circuit c₁ ∧ i₂ = .circuit c₂ ∧ (EqualBound imp (at_ c₁ w.uniform) (at_ c₂ w.uniform) ∨
      MisledOn lib imp cfg (at_ c₁ w.uniform) (at_ c₂ w.uniform) ∨ ∃ d1 d2, imp (.bound (at_ c₁ w.uniform)) = some d1 ∧ imp (.bound (at_ c₂ w.uniform)) = some d2 ∧ CrossedShortcut lib d1 d2 cfg) := by
  obtain ⟨_, b, c⟩ := verify_choice (w := w) (cfg := cfg) (i₁ := i₁) (i₂ := i₂)
  have v1 : Verifiable i₁ := by
    by_contra hn
    rw [c (Or.inl hn)] at h
    exact absurd h (by simp)
  rw [b v1 hs] at h
  have hce : res.equivalence.consideredEquivalent = true := by rcases hv with e | e <;> rw [e] <;> rfl
  rcases parameterized_positive (ev := (Param.checkParameterized w cfg i₁ i₂).1) (Prod.ext rfl h) hce with h | ⟨c₁, c₂, r, e1, e2, _, _, hm, hr⟩
  · exact Or.inl h
  · refine Or.inr ⟨c₁, c₂, e1, e2, ?_⟩
    rcases realises_sound hw hi hp hm with hx | ⟨_, ⟨d1, d2, g1, g2, hx⟩ | hq⟩
    · exact Or.inr (Or.inl hx)
    · exact Or.inr (Or.inr ⟨d1, d2, g1, g2, hx⟩)
    · exact Or.inl (hq (by rwa [← hr]))

end QCEC.Props
