import Verif.Lemmas.WidePartial
import Verif.Props.PreparationMixed
import Verif.Props.EndToEndPartial
/-!
# Properties: preparing the circuits preserves partial equivalence (C64, C74)
-/
namespace QCEC.Props
open QCEC QCEC.Prep QCEC.Spec QCEC.Spec.Wide QCEC.Spec.ZX QCEC.Wide QCEC.Mgr QCEC.Sem

/-- The class of inputs is closed under fixing and adding idle qubits. -/
structure Closed (Q : (Bits → ℂ) → Prop) : Prop where
  restrict : ∀ R v X, Q v → Q (restrictIn R v X) ∨ restrictIn R v X = fun _ => 0
  lift : ∀ R v', Q v' → Q (liftIn R v')

theorem closed_all : Closed (fun _ => True) := ⟨fun _ _ _ _ => Or.inl trivial, fun _ _ _ => trivial⟩

theorem closed_basis : Closed (fun v => ∃ y, v = basisState y) := by
  refine ⟨?_, ?_⟩
  · rintro R v X ⟨y, rfl⟩
    exact restrictIn_basisState y X
  · rintro R v' ⟨y, rfl⟩
    exact ⟨_, liftIn_basisState y⟩

/-- A set of qubits of two circuits that the preparation keeps. -/
structure Stable (F : Circ WOp → Circ WOp → Nat → Prop) : Prop where
  stripped : ∀ {acts : WOp → Nat → Bool} {R : List Nat} {c c2 r r2 : Circ WOp}, CircOk c → CircOk c2 → Stripped acts R c r → Stripped acts R c2 r2 →
    CircOk r → CircOk r2 → ∀ {q : Nat}, q ∉ R → (F r r2 (newIndex R q) ↔ F c c2 q)
  setup : ∀ {c1 c2 r1 r2 : Circ WOp}, c1.nqubits ≤ c2.nqubits → Padded c2.nqubits c1 r1 → SurplusMarked c1.nqubits c2 r2 → ∀ q, F r1 r2 q ↔ F c1 c2 q
  comm : ∀ {c1 c2 : Circ WOp} q, F c1 c2 q ↔ F c2 c1 q
  congr : ∀ {c1 c2 r1 r2 : Circ WOp}, r1.nqubits = c1.nqubits → r2.nqubits = c2.nqubits → (∀ q, r1.isAncillary q = c1.isAncillary q) →
    (∀ q, r2.isAncillary q = c2.isAncillary q) → ∀ q, F r1 r2 q ↔ F c1 c2 q

theorem stable_fixed : Stable Fixed :=
  ⟨fun a b c d e f _ hq => fixed_stripped a b c d e f hq, fixed_setup, fixed_comm, fun a b c d q => by unfold Fixed; rw [a, b, c, d]⟩

theorem stable_common : Stable FixedInBoth :=
  ⟨fun a b c d e f _ hq => common_stripped a b c d e f hq, fun _ => common_setup, common_comm, fun a b c d q => by unfold FixedInBoth; rw [a, b, c, d]⟩

theorem prepare_agree {acts : WOp → Nat → Bool} (hacts : Reliable acts) {cfg : Configuration} {c1 c2 : Circ WOp} (h1 : Runnable c1)
    (h2 : Runnable c2) {m : Made WOp} (h : prepare acts cfg (c1, c2) = .made m) {Q : (Bits → ℂ) → Prop} (hQ : Closed Q)
    {F : Circ WOp → Circ WOp → Nat → Prop} (hF : Stable F) : AgreeOn Q (F m.qc1 m.qc2) m.qc1 m.qc2 ↔ AgreeOn Q (F c1 c2) c1 c2 := by
  obtain ⟨s1, s2, g1, g2, _⟩ := prepare_made h
  obtain ⟨R, t1, t2, g0, hR, k1, k2, ok1, ok2⟩ := strip_idle_qubits acts h1.ok h2.ok
  rw [g1] at g0
  cases g0
  have strip := agree_stripped hacts h1 h2 k1 k2 ok1 ok2 (fun q hq => ((hR q).1 hq).1) (F := F c1 c2) (F' := F s1 s2)
    (fun hq => hF.stripped h1.ok h2.ok k1 k2 ok1 ok2 hq) (hQ.restrict R) (hQ.lift R)
  refine Iff.trans ?_ strip
  have r1 := runnable_stripped hacts h1 ok1 k1
  have r2 := runnable_stripped hacts h2 ok2 k2
  obtain ⟨_, _, w1, w2, o1, o2, _, _⟩ := setup_preserves r1 r2 g2
  obtain ⟨u1, u2, g3, _, _, ga, gb⟩ := setup_ancillaries ok1 ok2
  rw [g2] at g3
  cases g3
  refine agree_congr o1 o2 ?_ ?_ (by rw [w1, w2, Nat.max_self]) Q
  · intro q
    by_cases hn : s1.nqubits > s2.nqubits
    · obtain ⟨hs, hp⟩ := ga hn
      exact (hF.comm q).trans ((hF.setup (by omega) hp hs q).trans (hF.comm q))
    · obtain ⟨hp, hs⟩ := gb (by omega)
      exact hF.setup (by omega) hp hs q
  · intro q
    by_cases hn : s1.nqubits > s2.nqubits
    · obtain ⟨hs, hp⟩ := ga hn
      exact (measured_comm q).trans ((measured_setup ok1 (by omega) hp hs q).trans (measured_comm q))
    · obtain ⟨hp, hs⟩ := gb (by omega)
      exact measured_setup ok2 (by omega) hp hs q

theorem garbage_list {P : Passes (Circ WOp)} : ∀ (l : List Pass), (∀ p ∈ l, Faithful P p ∧ KeepsGarbage P p) → ∀ c, Runnable c →
    ∀ q, (l.foldl (fun c p => P.apply p c) c).isGarbage q = c.isGarbage q ∧ (Labelled (l.foldl (fun c p => P.apply p c) c) q ↔ Labelled c q) := by
  intro l
  induction l with
  | nil => intro _ c _ q; exact ⟨rfl, Iff.rfl⟩
  | cons p l ih =>
    intro hl c hc q
    obtain ⟨a, b⟩ := ih (fun p hp => hl p (List.mem_cons_of_mem _ hp)) _ ((hl p List.mem_cons_self).1 c hc).1 q
    obtain ⟨x, y⟩ := (hl p List.mem_cons_self).2 c hc q
    rw [List.foldl_cons]
    exact ⟨a.trans x, b.trans y⟩

theorem construct_agree {acts : WOp → Nat → Bool} (hacts : Reliable acts) {P : Passes (Circ WOp)} {cfg : Configuration}
    {c1 c2 : Circ WOp} (h1 : Runnable c1) (h2 : Runnable c2) (hP : ∀ p ∈ planned cfg.optimizations true, Faithful P p ∧ KeepsGarbage P p) {m : Made WOp}
    (h : Prep.construct acts P cfg c1 c2 = .made m) {Q : (Bits → ℂ) → Prop} (hQ : Closed Q)
    {F : Circ WOp → Circ WOp → Nat → Prop} (hF : Stable F) : AgreeOn Q (F m.qc1 m.qc2) m.qc1 m.qc2 ↔ AgreeOn Q (F c1 c2) c1 c2 := by
  have sub : ∀ d, ∀ p ∈ planned cfg.optimizations d, Faithful P p ∧ KeepsGarbage P p := by
    intro d p hp
    refine hP p ?_
    cases d
    · simp only [planned, Bool.false_eq_true, if_false, List.nil_append] at hp
      simp only [planned, if_true]
      exact List.mem_append_right _ hp
    · exact hp
  unfold Prep.construct at h
  split at h
  · rw [passes_exact] at h
    by_cases he : P.empty c1 = true ∧ P.empty c2 = true
    · rw [if_pos he] at h
      exact prepare_agree hacts h1 h2 h hQ hF
    · rw [if_neg he] at h
      by_cases hd : (P.dynamic c1 = true ∨ P.dynamic c2 = true) ∧ cfg.optimizations.transformDynamicCircuit = false
      · rw [if_pos hd] at h
        exact absurd h (by simp)
      · rw [if_neg hd] at h
        obtain ⟨a1, a2, a3, a4⟩ := faithful_list _ (fun p hp => (sub (P.dynamic c1) p hp).1) c1 h1
        obtain ⟨b1, b2, b3, b4⟩ := faithful_list _ (fun p hp => (sub (P.dynamic c2) p hp).1) c2 h2
        have ag := garbage_list _ (sub (P.dynamic c1)) c1 h1
        have bg := garbage_list _ (sub (P.dynamic c2)) c2 h2
        refine (prepare_agree hacts a1 b1 h hQ hF).trans (agree_congr a4 b4 (hF.congr a2 b2 a3 b3) ?_ (by rw [a2, b2]) Q)
        intro q
        unfold Measured Reads
        rw [a2, b2, (ag q).1, (bg q).1, (ag q).2, (bg q).2]
  · exact prepare_agree hacts h1 h2 h hQ hF

/-- **C64.** The circuits the manager keeps are partially equivalent if and only if the circuits handed to it are (on
the inputs in which the qubits ancillary in one of them are |0⟩, and on those in which the qubits ancillary in both are), and agree on all basis states if
and only if these do. -/
theorem construct_preserves_partial {acts : WOp → Nat → Bool} (hacts : Reliable acts) {P : Passes (Circ WOp)} {cfg : Configuration}
    {c1 c2 : Circ WOp} (h1 : Runnable c1) (h2 : Runnable c2) (hP : ∀ p ∈ planned cfg.optimizations true, Faithful P p ∧ KeepsGarbage P p) {m : Made WOp}
    (h : Prep.construct acts P cfg c1 c2 = .made m) :
    (PartiallyEqual m.qc1 m.qc2 ↔ PartiallyEqual c1 c2) ∧
    (PartiallyOn (FixedInBoth m.qc1 m.qc2) m.qc1 m.qc2 ↔ PartiallyOn (FixedInBoth c1 c2) c1 c2) ∧ (EqualOnBasis m.qc1 m.qc2 ↔ EqualOnBasis c1 c2) := by
  unfold PartiallyEqual
  rw [partiallyOn_iff, partiallyOn_iff, partiallyOn_iff, partiallyOn_iff, equalOnBasis_iff, equalOnBasis_iff]
  exact ⟨construct_agree hacts h1 h2 hP h closed_all stable_fixed, construct_agree hacts h1 h2 hP h closed_all stable_common,
    construct_agree hacts h1 h2 hP h closed_basis stable_fixed⟩

/-- Equal circuits are partially equivalent. -/
theorem partiallyEqual_of_equal {c1 c2 : Circ WOp} (h : EqualUpToPhase c1 c2) : PartiallyEqual c1 c2 := by
  obtain ⟨c, hc, h⟩ := h
  intro v hv k
  unfold SameProbability probability
  refine Finset.sum_congr rfl fun y _ => ?_
  rw [h v hv, norm_mul, hc, one_mul]

/-- Partially equivalent circuits agree on all basis states. -/
theorem equalOnBasis_of_partiallyEqual {c1 c2 : Circ WOp} (h : PartiallyEqual c1 c2) : EqualOnBasis c1 c2 := by
  intro y hy k
  exact h _ ((zero_basisState _ _).2 hy) k

variable {m n : Nat}

/-- **C64.** The same for the circuits as the checkers see them.  If the ZX-calculus (simulation) is used, the ancillary qubits of the first prepared
circuit have to be its last ones. -/
theorem constructed_partially {acts : WOp → Nat → Bool} (hacts : Reliable acts) {P : Passes (Circ WOp)} {cfg : Configuration}
    {c1 c2 : Circ WOp} (h1 : Runnable c1) (h2 : Runnable c2) (hP : ∀ p ∈ planned cfg.optimizations true, Faithful P p ∧ KeepsGarbage P p) {M : Made WOp}
    (h : Prep.construct acts P cfg c1 c2 = .made M) (S : PSetting m n) {e1 e2 : Nat → Fin n} (hn1 : Numbered e1 M.qc1 S.qc1)
    (hn2 : Numbered e2 M.qc2 S.qc2) : ∀ b, (b = true → ∀ q, q < n → M.qc1.isAncillary q = decide (m ≤ q)) →
      (S.Partially (S.someAnc b) ↔ PartiallyEqual c1 c2) ∧ (S.Partially (S.bothAnc b) ↔ PartiallyOn (FixedInBoth c1 c2) c1 c2) ∧
      (S.OnBasis (S.someAnc b) ↔ EqualOnBasis c1 c2) := by
  obtain ⟨w1, w2, _, _⟩ := construct_preserves hacts h1 h2 (fun p hp => (hP p hp).1) h
  obtain ⟨kp, kc, kb⟩ := construct_preserves_partial hacts h1 h2 hP h
  intro b hb
  have ha : ∀ q, q < n → ((S.someAnc b).getD q false = true ↔ Fixed M.qc1 M.qc2 q) := by
    intro q hq
    have e := marks_get n (fun q => S.qc1.ancillary.getD q false || S.qc2.ancillary.getD q false || (b && decide (m ≤ q))) ⟨q, hq⟩
    simp only at e
    unfold Fixed
    rw [Mixed.someAnc, e, hn1.ancillary q hq, hn2.ancillary q hq, hn1.width, hn2.width]
    cases b with
    | false => simp; omega
    | true => rw [← hb rfl q hq]; cases M.qc1.isAncillary q <;> simp <;> omega
  have hc : ∀ q, q < n → ((S.bothAnc b).getD q false = true ↔ FixedInBoth M.qc1 M.qc2 q) := by
    intro q hq
    have e := marks_get n (fun q => S.qc1.ancillary.getD q false && S.qc2.ancillary.getD q false && (!b || decide (m ≤ q))) ⟨q, hq⟩
    simp only at e
    unfold FixedInBoth
    rw [Mixed.bothAnc, e, hn1.ancillary q hq, hn2.ancillary q hq, hn1.width, hn2.width]
    cases b with
    | false => simp; omega
    | true => rw [← hb rfl q hq]; cases M.qc1.isAncillary q <;> simp <;> omega
  have hg : ∀ q : Fin n, Measured M.qc1 M.qc2 q.val ↔ S.unread.getD q.val false = false := by
    intro q
    rw [measured_same_width (by rw [hn1.width, hn2.width]), hn1.width, unread_get, hn1.garbage q.val q.isLt, hn2.garbage q.val q.isLt]
    have := q.isLt
    cases M.qc1.isGarbage q.val <;> cases M.qc2.isGarbage q.val <;> simp
  refine ⟨?_, ?_, ?_⟩
  · rw [← kp, PartiallyEqual, partiallyOn_iff,
      ← agree_numbered (Q' := fun _ => True) w1 w2 hn1 hn2 ha hg (fun _ _ _ => Or.inl trivial) (fun _ _ => trivial)]
    unfold PSetting.Partially PartiallyEquivalent
    rw [S.wf1.labels, S.wf2.labels]
    exact ⟨fun h v _ hz => h v hz, fun h v hz => h v trivial hz⟩
  · rw [← kc, partiallyOn_iff, ← agree_numbered (Q' := fun _ => True) w1 w2 hn1 hn2 hc hg (fun _ _ _ => Or.inl trivial) (fun _ _ => trivial)]
    unfold PSetting.Partially PartiallyEquivalent
    rw [S.wf1.labels, S.wf2.labels]
    exact ⟨fun h v _ hz => h v hz, fun h v hz => h v trivial hz⟩
  · rw [← kb, equalOnBasis_iff, ← agree_numbered (Q' := fun v => ∃ y, v = ket y) w1 w2 hn1 hn2 ha hg ?_ ?_]
    · unfold PSetting.OnBasis BasisEquivalent
      rw [S.wf1.labels, S.wf2.labels]
      constructor
      · rintro h v ⟨y, rfl⟩ hz
        exact (reported_iff _ _ _).1 (h y hz)
      · intro h y hz
        exact (reported_iff _ _ _).2 (h _ ⟨y, rfl⟩ hz)
    · rintro v k ⟨y, rfl⟩
      exact join_basisState y k
    · rintro v ⟨y, rfl⟩
      exact ⟨_, widen_ket y⟩

end QCEC.Props
