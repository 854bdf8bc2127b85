import Verif.Lemmas.DDSem
/-!
# C02–C07, C55: the DD checkers compute and compare the true functionalities

Exact arithmetic (`Verif.Model.Sem`); the specification is in `Verif.Spec.Functionality`.
-/
namespace QCEC.Props
open QCEC QCEC.DD QCEC.Sem QCEC.Spec Matrix

variable {n : Nat}
/-! ## C03 -/

/-- **C03** (construction): for every scheme the uninterrupted construction check ends with, for each circuit, the operator that
maps every logical input with ancillas `|0⟩` to the output of physically executing the circuit – SWAPs, initial layout and
output permutation included. -/
theorem construction_true_functionality (garb) (qc1 qc2 : QC n) (ω1 ω2 : Equiv.Perm (Fin n)) (h1 : WellFormed qc1 ω1)
    (h2 : WellFormed qc2 ω2) (sch) (hs : Configured qc1 qc2 sch) (verdict : Mat n → Mat n → Criterion) (prev : Criterion) :
    ∃ v s, runTwo (exactMatrix n garb) sch false verdict (fun _ => false) prev qc1 qc2
        (constructionInit (exactMatrix n garb) 1 qc1) (constructionInit (exactMatrix n garb) 1 qc2)
        (qc1.ops.length + qc2.ops.length + 2) = .ok (v, s) ∧ v = verdict s.d1 s.d2 ∧
      (∀ x, AncillasZero qc1.ancillary x → s.d1.mulVec x = output qc1 ω1 x) ∧
      (∀ x, AncillasZero qc2.ancillary x → s.d2.mulVec x = output qc2 ω2 x) := by
  obtain ⟨s, h | h⟩ := runTwo_spec (exactMatrix n garb) sch false verdict (fun _ => false) (fun _ _ _ h => h) prev qc1 qc2
    hs.good (constructionInit (exactMatrix n garb) 1 qc1) (constructionInit (exactMatrix n garb) 1 qc2) _ (Nat.le_refl _)
  · exact absurd h.1 (by simp)
  · obtain ⟨_, hr, _, _, hd1, hd2⟩ := h
    refine ⟨_, s, hr, by rw [hd1, hd2], ?_, ?_⟩
    · intro x hx
      rw [hd1, construction_object garb h1, ← Matrix.mulVec_mulVec, ancProj_apply _ _ hx, output_eq]
    · intro x hx
      rw [hd2, construction_object garb h2, ← Matrix.mulVec_mulVec, ancProj_apply _ _ hx, output_eq]

/-- **C03** (simulation): the uninterrupted simulation check ends with the true logical output states for the stimulus. -/
theorem simulation_true_output (garb) (qc1 qc2 : QC n) (ω1 ω2 : Equiv.Perm (Fin n)) (h1 : WellFormed qc1 ω1)
    (h2 : WellFormed qc2 ω2) (sch) (hs : Configured qc1 qc2 sch)
    (verdict : (Basis n → ℂ) → (Basis n → ℂ) → Criterion) (prev : Criterion) (x : Basis n → ℂ) :
    ∃ s, runTwo (exactVector n garb) sch false verdict (fun _ => false) prev qc1 qc2 x x
        (qc1.ops.length + qc2.ops.length + 2) = .ok (verdict (output qc1 ω1 x) (output qc2 ω2 x), s) ∧
      s.d1 = output qc1 ω1 x ∧ s.d2 = output qc2 ω2 x := by
  obtain ⟨s, h | h⟩ := runTwo_spec (exactVector n garb) sch false verdict (fun _ => false) (fun _ _ _ h => h) prev qc1 qc2
    hs.good x x _ (Nat.le_refl _)
  · exact absurd h.1 (by simp)
  · obtain ⟨_, hr, _, _, hd1, hd2⟩ := h
    rw [simulation_object garb h1, simulation_object garb h2] at hr
    exact ⟨s, hr, by rw [hd1, simulation_object garb h1], by rw [hd2, simulation_object garb h2]⟩

/-- **C03** for partial output permutations (some physical qubits carry no output label): the result is the functionality under
*some* labelling that agrees with the given one. -/
theorem simulation_partial_output (garb) (qc : QC n) (hout : OutValid qc.outputPermutation) (x : Basis n → ℂ) :
    ∃ ω, Extends ω qc.outputPermutation ∧ finalObject (exactVector n garb) false qc x = output qc ω x := by
  refine ⟨permAfter (trackAll qc.ops qc.initialLayout) qc.outputPermutation, permAfter_extends _ _ hout, ?_⟩
  rw [finalObject_vec, output_eq]
  rfl

/-! ## C02: the alternating check -/

/-- **C02**: whatever the scheme (lookahead included), an uninterrupted alternating check ends with `U₁ · A · U₂†`, where `U₁`
and `U₂` are the true functionalities of the circuits and `A` is the initial operator (the identity with reduced ancillas).

Full property: for all circuits.  Missing here (hence `_partial`): pairs that are not `CancelSafe`, for which the property is
false (`identity_skip_wrong`), and lookahead on compound operations containing SWAPs, likewise (`lookahead_compound_wrong`). -/
theorem alternating_product_partial (garb) (qc1 qc2 : QC n) (ω1 ω2 : Equiv.Perm (Fin n)) (h1 : WellFormed qc1 ω1)
    (h2 : WellFormed qc2 ω2) (T : ExactTests n) (opEq : Op n → Op n → Bool)
    (sch : AltScheme (Op n) (Equiv.Perm (Fin n)) (Mat n))
    (hc : sch.Cancels → CancelSafe opEq qc1 qc2) (hs : AltConfigured qc1 qc2 sch) (verdict : Mat n → Criterion) (prev : Criterion)
    (A : Mat n) :
    ∃ s, runAlt (exactMatrix n garb) T.isId opEq sch verdict (fun _ => false) prev qc1 qc2 A
        (qc1.ops.length + qc2.ops.length + 2) = .ok (verdict s.d, s) ∧
      ∃ U1 U2 : Mat n, (∀ v, U1.mulVec v = output qc1 ω1 v) ∧ (∀ v, U2.mulVec v = output qc2 ω2 v) ∧
        s.d = U1 * A * U2ᴴ := by
  obtain ⟨v, s, hr, h | h⟩ := alternating_outcome_from garb qc1 qc2 ω1 ω2 h1 h2 T opEq sch A (fun h => (hc h).from A) hs verdict
    (fun _ => false) (fun _ _ _ h => h) prev _ (Nat.le_refl _)
  · exact absurd h.1 (by simp)
  · obtain ⟨_, hd, hv⟩ := h
    subst hv
    exact ⟨s, hr, funcOf qc1 ω1, funcOf qc2 ω2, fun v => (output_eq qc1 ω1 v).symm, fun v => (output_eq qc2 ω2 v).symm, hd⟩

/-- **C02** for the operator the checker really starts with: cancelling equal operations need only be safe where it happens, behind beginnings of the
circuits that do the same up to a global phase (`SkipSafe`).

Missing (hence `_partial`): pairs that are not `SkipSafe`, and lookahead on compound operations containing SWAPs. -/
theorem alternating_product_checked_partial (garb) (qc1 qc2 : QC n) (ω1 ω2 : Equiv.Perm (Fin n)) (h1 : WellFormed qc1 ω1)
    (h2 : WellFormed qc2 ω2) (T : ExactTests n) (opEq : Op n → Op n → Bool)
    (sch : AltScheme (Op n) (Equiv.Perm (Fin n)) (Mat n))
    (hc : sch.Cancels → SkipSafe opEq qc1 qc2) (hs : AltConfigured qc1 qc2 sch) (verdict : Mat n → Criterion) (prev : Criterion) :
    ∃ s, runAlt (exactMatrix n garb) T.isId opEq sch verdict (fun _ => false) prev qc1 qc2 (altInit (exactMatrix n garb) 1 n qc1 qc2)
        (qc1.ops.length + qc2.ops.length + 2) = .ok (verdict s.d, s) ∧
      ∃ U1 U2 : Mat n, (∀ v, U1.mulVec v = output qc1 ω1 v) ∧ (∀ v, U2.mulVec v = output qc2 ω2 v) ∧
        s.d = U1 * altInit (exactMatrix n garb) 1 n qc1 qc2 * U2ᴴ := by
  obtain ⟨v, s, hr, h | h⟩ := alternating_outcome garb qc1 qc2 ω1 ω2 h1 h2 T opEq sch hc hs verdict (fun _ => false)
    (fun _ _ _ h => h) prev _ (Nat.le_refl _)
  · exact absurd h.1 (by simp)
  · obtain ⟨_, hd, hv⟩ := h
    subst hv
    exact ⟨s, hr, funcOf qc1 ω1, funcOf qc2 ω2, fun v => (output_eq qc1 ω1 v).symm, fun v => (output_eq qc2 ω2 v).symm, hd⟩

/-! ## C04: verdict of the alternating check -/

/-- **C04** (soundness for all ancillas): `Equivalent` and `EquivalentUpToGlobalPhase` reported by the alternating check are
true statements about the circuits, for every scheme.

Full property: for all circuits.  Missing (hence `_partial`): pairs that are not `SkipSafe` and lookahead on compound
operations with SWAPs, for which it is false (`identity_skip_wrong`, `lookahead_compound_wrong`). -/
theorem alternating_verdict_sound_partial (garb) (qc1 qc2 : QC n) (ω1 ω2 : Equiv.Perm (Fin n)) (h1 : WellFormed qc1 ω1)
    (h2 : WellFormed qc2 ω2) (T : ExactTests n) (opEq : Op n → Op n → Bool)
    (sch : AltScheme (Op n) (Equiv.Perm (Fin n)) (Mat n))
    (hc : sch.Cancels → SkipSafe opEq qc1 qc2) (hs : AltConfigured qc1 qc2 sch) (prev : Criterion) :
    ∃ v s, runAlt (exactMatrix n garb) T.isId opEq sch (altVerdict T.close T.wOne) (fun _ => false) prev qc1 qc2
        (altInit (exactMatrix n garb) 1 n qc1 qc2) (qc1.ops.length + qc2.ops.length + 2) = .ok (v, s) ∧
      Sound v (altAncillary n qc1.ancillary qc2.ancillary) qc1 ω1 qc2 ω2 := by
  obtain ⟨v, s, hr, h | h⟩ := alternating_outcome garb qc1 qc2 ω1 ω2 h1 h2 T opEq sch hc hs (altVerdict T.close T.wOne)
    (fun _ => false) (fun _ _ _ h => h) prev _ (Nat.le_refl _)
  · exact absurd h.1 (by simp)
  · obtain ⟨_, hd, hv⟩ := h
    refine ⟨v, s, hr, ?_⟩
    have hi : altInit (exactMatrix n garb) 1 n qc1 qc2 = ancProj (altAncillary n qc1.ancillary qc2.ancillary) := by
      simp [altInit, exactMatrix, reduceAncillae]
    rw [hv, hd, hi]
    exact altVerdict_sound T _ qc1 qc2 ω1 ω2 h1.ops h2.ops

/-- **C04** (exactness): if every qubit that is ancillary in both circuits is idle in one of them – the situation the checker
requires – the verdict of the alternating check is exactly right.  In particular this covers circuits without ancillas.

Missing (hence `_partial`): as in `alternating_verdict_sound_partial`. -/
theorem alternating_verdict_correct_partial (garb) (qc1 qc2 : QC n) (ω1 ω2 : Equiv.Perm (Fin n)) (h1 : WellFormed qc1 ω1)
    (h2 : WellFormed qc2 ω2) (T : ExactTests n) (opEq : Op n → Op n → Bool)
    (sch : AltScheme (Op n) (Equiv.Perm (Fin n)) (Mat n))
    (hc : sch.Cancels → SkipSafe opEq qc1 qc2) (hs : AltConfigured qc1 qc2 sch) (prev : Criterion)
    (hidle : ∀ q : Fin n, qc1.ancillary.getD q.val false = true → qc2.ancillary.getD q.val false = true →
      Idle qc1 ω1 q ∨ Idle qc2 ω2 q) :
    ∃ v s, runAlt (exactMatrix n garb) T.isId opEq sch (altVerdict T.close T.wOne) (fun _ => false) prev qc1 qc2
        (altInit (exactMatrix n garb) 1 n qc1 qc2) (qc1.ops.length + qc2.ops.length + 2) = .ok (v, s) ∧
      Correct v (altAncillary n qc1.ancillary qc2.ancillary) qc1 ω1 qc2 ω2 := by
  obtain ⟨v, s, hr, h | h⟩ := alternating_outcome garb qc1 qc2 ω1 ω2 h1 h2 T opEq sch hc hs (altVerdict T.close T.wOne)
    (fun _ => false) (fun _ _ _ h => h) prev _ (Nat.le_refl _)
  · exact absurd h.1 (by simp)
  · obtain ⟨_, hd, hv⟩ := h
    refine ⟨v, s, hr, ?_⟩
    have hi : altInit (exactMatrix n garb) 1 n qc1 qc2 = ancProj (altAncillary n qc1.ancillary qc2.ancillary) := by
      simp [altInit, exactMatrix, reduceAncillae]
    rw [hv, hd, hi]
    refine altVerdict_correct T _ qc1 qc2 ω1 ω2 h1.ops h2.ops ?_
    intro q hq
    rw [altAncillary_flag, Bool.and_eq_true] at hq
    exact hidle q hq.1 hq.2

/-! ## C05: verdict of the construction check -/

/-- **C05**: for circuits with the same ancillary qubits, the verdict of the uninterrupted construction check is exactly right,
for every scheme. -/
theorem construction_verdict_correct (garb) (qc1 qc2 : QC n) (ω1 ω2 : Equiv.Perm (Fin n)) (h1 : WellFormed qc1 ω1)
    (h2 : WellFormed qc2 ω2) (T : ExactTests n) (sch) (hs : Configured qc1 qc2 sch) (prev : Criterion)
    (hanc : ∀ q : Fin n, qc1.ancillary.getD q.val false = qc2.ancillary.getD q.val false) :
    ∃ v s, runTwo (exactMatrix n garb) sch false (equalsMatrix T.ptrEq T.wEq T.close fun e f => e * fᴴ) (fun _ => false) prev
        qc1 qc2 (constructionInit (exactMatrix n garb) 1 qc1) (constructionInit (exactMatrix n garb) 1 qc2)
        (qc1.ops.length + qc2.ops.length + 2) = .ok (v, s) ∧ Correct v qc1.ancillary qc1 ω1 qc2 ω2 := by
  obtain ⟨s, h | h⟩ := runTwo_spec (exactMatrix n garb) sch false (equalsMatrix T.ptrEq T.wEq T.close fun e f => e * fᴴ)
    (fun _ => false) (fun _ _ _ h => h) prev qc1 qc2
    hs.good (constructionInit (exactMatrix n garb) 1 qc1) (constructionInit (exactMatrix n garb) 1 qc2) _ (Nat.le_refl _)
  · exact absurd h.1 (by simp)
  · obtain ⟨_, hr, _, _, hd1, hd2⟩ := h
    refine ⟨_, s, hr, ?_⟩
    rw [construction_object garb h1, construction_object garb h2, ← ancProj_congr _ _ hanc]
    exact equalsMatrix_correct T qc1.ancillary qc1 qc2 ω1 ω2 h1.ops h2.ops

/-- **C05/C55** (different ancillary flags): without any assumption on the flags, a positive verdict of the construction check
means that the circuits agree up to a global phase on all inputs in which the ancillas *of both circuits* are `|0⟩`.

Missing (hence `_partial`): with different flags `Equivalent` and `EquivalentUpToGlobalPhase` are not distinguished (the top
weights of two different diagrams are compared), and `NotEquivalent` may be reported although the circuits agree on those inputs
(`construction_flags_incomplete`). -/
theorem construction_different_flags_partial (garb) (qc1 qc2 : QC n) (ω1 ω2 : Equiv.Perm (Fin n)) (h1 : WellFormed qc1 ω1)
    (h2 : WellFormed qc2 ω2) (T : ExactTests n) (sch) (hs : Configured qc1 qc2 sch) (prev : Criterion) (anc : List Bool)
    (hanc : ∀ q : Fin n, anc.getD q.val false = true ↔
      (qc1.ancillary.getD q.val false = true ∨ qc2.ancillary.getD q.val false = true)) :
    ∃ v s, runTwo (exactMatrix n garb) sch false (equalsMatrix T.ptrEq T.wEq T.close fun e f => e * fᴴ) (fun _ => false) prev
        qc1 qc2 (constructionInit (exactMatrix n garb) 1 qc1) (constructionInit (exactMatrix n garb) 1 qc2)
        (qc1.ops.length + qc2.ops.length + 2) = .ok (v, s) ∧
      (v = .equivalent ∨ v = .equivalentUpToGlobalPhase ∨ v = .notEquivalent) ∧
      (v ≠ .notEquivalent → SameUpToPhase anc qc1 ω1 qc2 ω2) := by
  obtain ⟨s, h | h⟩ := runTwo_spec (exactMatrix n garb) sch false (equalsMatrix T.ptrEq T.wEq T.close fun e f => e * fᴴ)
    (fun _ => false) (fun _ _ _ h => h) prev qc1 qc2
    hs.good (constructionInit (exactMatrix n garb) 1 qc1) (constructionInit (exactMatrix n garb) 1 qc2) _ (Nat.le_refl _)
  · exact absurd h.1 (by simp)
  · obtain ⟨_, hr, _, _, hd1, hd2⟩ := h
    refine ⟨_, s, hr, ?_, ?_⟩
    · exact equalsMatrix_three ..
    · rw [construction_object garb h1, construction_object garb h2]
      exact equalsMatrix_union T qc1.ancillary qc2.ancillary anc hanc qc1 qc2 ω1 ω2 h1.ops h2.ops

/-! ## C55: which reductions are applied -/

/-- **C55** (any decision-diagram package, any reductions): the verdict of an uninterrupted construction or simulation check
compares, for both circuits alike, the object obtained by applying all operations, correcting to the output permutation,
reducing that circuit's ancillary qubits on the input side and, iff partial equivalence is requested, that circuit's garbage
qubits.

Missing (hence `_partial`): the meaning of the package's garbage reduction in terms of measurement outcomes; for the ancillary
reduction the meaning is `construction_true_functionality` and `construction_verdict_correct`. -/
theorem reductions_on_both_sides_partial {α π ρ M D : Type} (b : Backend α π ρ M D) (sch) (partialEq : Bool)
    (verdict : D → D → Criterion) (prev : Criterion) (qc1 qc2 : Circuit α π ρ)
    (hg : sch.Good qc1.ops.length qc2.ops.length) (i1 i2 : D) :
    ∃ s, runTwo b sch partialEq verdict (fun _ => false) prev qc1 qc2 i1 i2 (qc1.ops.length + qc2.ops.length + 2) =
        .ok (verdict s.d1 s.d2, s) ∧
      ∃ p1 p2 o1 o2, (p1, o1) = applyAll b .left qc1.ops qc1.initialLayout i1 ∧
        (p2, o2) = applyAll b .left qc2.ops qc2.initialLayout i2 ∧
        (partialEq = false →
          s.d1 = b.reduceAncillae qc1.ancillary true (b.changePerm true o1 p1 qc1.outputPermutation).1 ∧
          s.d2 = b.reduceAncillae qc2.ancillary true (b.changePerm true o2 p2 qc2.outputPermutation).1) ∧
        (partialEq = true →
          s.d1 = b.reduceGarbage qc1.garbage true
            (b.reduceAncillae qc1.ancillary true (b.changePerm true o1 p1 qc1.outputPermutation).1) ∧
          s.d2 = b.reduceGarbage qc2.garbage true
            (b.reduceAncillae qc2.ancillary true (b.changePerm true o2 p2 qc2.outputPermutation).1)) := by
  obtain ⟨s, h | h⟩ := runTwo_spec b sch partialEq verdict (fun _ => false) (fun _ _ _ h => h) prev qc1 qc2 hg i1 i2 _
    (Nat.le_refl _)
  · exact absurd h.1 (by simp)
  · obtain ⟨_, hr, _, _, hd1, hd2⟩ := h
    refine ⟨s, by rw [hr, hd1, hd2], _, _, _, _, rfl, rfl, ?_, ?_⟩
    · rintro rfl; exact ⟨hd1, hd2⟩
    · rintro rfl; exact ⟨hd1, hd2⟩

/-! ## C07: the two definitive checks never contradict each other -/

theorem _root_.QCEC.Spec.Correct.unique {v w : Criterion} {anc : List Bool} {qc1 qc2 : QC n} {ω1 ω2 : Equiv.Perm (Fin n)}
    (hv : Correct v anc qc1 ω1 qc2 ω2) (hw : Correct w anc qc1 ω1 qc2 ω2) : v = w := by
  by_cases hs : Same anc qc1 ω1 qc2 ω2
  · rw [hv.equivalent.mpr hs, hw.equivalent.mpr hs]
  · by_cases hp : SameUpToPhase anc qc1 ω1 qc2 ω2
    · rw [hv.phase.mpr ⟨hp, hs⟩, hw.phase.mpr ⟨hp, hs⟩]
    · rw [hv.notEquivalent.mpr hp, hw.notEquivalent.mpr hp]

theorem _root_.QCEC.Spec.Correct.congr {v : Criterion} {anc anc' : List Bool} {qc1 qc2 : QC n} {ω1 ω2 : Equiv.Perm (Fin n)}
    (hv : Correct v anc qc1 ω1 qc2 ω2) (h : ∀ q : Fin n, anc.getD q.val false = anc'.getD q.val false) :
    Correct v anc' qc1 ω1 qc2 ω2 := by
  have hz : ∀ x : Basis n → ℂ, AncillasZero anc x ↔ AncillasZero anc' x := by
    intro x; unfold AncillasZero; simp only [h]
  have hs : ∀ c, SameUpTo c anc qc1 ω1 qc2 ω2 ↔ SameUpTo c anc' qc1 ω1 qc2 ω2 := by
    intro c; unfold SameUpTo; simp only [hz]
  refine ⟨?_, ?_, ?_⟩
  · rw [hv.equivalent]; exact hs 1
  · rw [hv.phase]; unfold SameUpToPhase Same; simp only [hs]
  · rw [hv.notEquivalent]; unfold SameUpToPhase; simp only [hs]

/-- **C07**: on the same pair of circuits the construction check (any scheme) and the alternating check (any scheme) return the
same verdict whenever the ancillas agree and each is idle in one of the circuits.

Missing (hence `_partial`): pairs that are not `SkipSafe` (see `identity_skip_wrong`) and lookahead on compound operations with
SWAPs (see `lookahead_compound_wrong`). -/
theorem checkers_agree_partial (garb) (qc1 qc2 : QC n) (ω1 ω2 : Equiv.Perm (Fin n)) (h1 : WellFormed qc1 ω1)
    (h2 : WellFormed qc2 ω2) (T : ExactTests n) (opEq : Op n → Op n → Bool)
    (schA : AltScheme (Op n) (Equiv.Perm (Fin n)) (Mat n))
    (hc : schA.Cancels → SkipSafe opEq qc1 qc2) (hsA : AltConfigured qc1 qc2 schA) (schC) (hsC : Configured qc1 qc2 schC)
    (hanc : ∀ q : Fin n, qc1.ancillary.getD q.val false = qc2.ancillary.getD q.val false)
    (hidle : ∀ q : Fin n, qc1.ancillary.getD q.val false = true → Idle qc1 ω1 q ∨ Idle qc2 ω2 q) :
    ∃ v s s', runAlt (exactMatrix n garb) T.isId opEq schA (altVerdict T.close T.wOne) (fun _ => false) .noInformation qc1 qc2
        (altInit (exactMatrix n garb) 1 n qc1 qc2) (qc1.ops.length + qc2.ops.length + 2) = .ok (v, s) ∧
      runTwo (exactMatrix n garb) schC false (equalsMatrix T.ptrEq T.wEq T.close fun e f => e * fᴴ) (fun _ => false)
        .noInformation qc1 qc2 (constructionInit (exactMatrix n garb) 1 qc1) (constructionInit (exactMatrix n garb) 1 qc2)
        (qc1.ops.length + qc2.ops.length + 2) = .ok (v, s') := by
  obtain ⟨v, s, hr, hv⟩ := alternating_verdict_correct_partial garb qc1 qc2 ω1 ω2 h1 h2 T opEq schA hc hsA .noInformation
    (fun q hq _ => hidle q hq)
  obtain ⟨w, s', hr', hw⟩ := construction_verdict_correct garb qc1 qc2 ω1 ω2 h1 h2 T schC hsC .noInformation hanc
  have : w = v := by
    refine hw.unique (hv.congr fun q => ?_)
    rw [altAncillary_flag, ← hanc q, Bool.and_self]
  subst this
  exact ⟨w, s, s', hr, hr'⟩

/-- **C07** (without the idleness condition): a positive verdict of the alternating check is never contradicted by the
construction check – the construction check then returns the same verdict. -/
theorem alternating_positive_confirmed_partial (garb) (qc1 qc2 : QC n) (ω1 ω2 : Equiv.Perm (Fin n)) (h1 : WellFormed qc1 ω1)
    (h2 : WellFormed qc2 ω2) (T : ExactTests n) (opEq : Op n → Op n → Bool)
    (schA : AltScheme (Op n) (Equiv.Perm (Fin n)) (Mat n))
    (hc : schA.Cancels → SkipSafe opEq qc1 qc2) (hsA : AltConfigured qc1 qc2 schA) (schC) (hsC : Configured qc1 qc2 schC)
    (hanc : ∀ q : Fin n, qc1.ancillary.getD q.val false = qc2.ancillary.getD q.val false) (v s)
    (hA : runAlt (exactMatrix n garb) T.isId opEq schA (altVerdict T.close T.wOne) (fun _ => false) .noInformation qc1 qc2
        (altInit (exactMatrix n garb) 1 n qc1 qc2) (qc1.ops.length + qc2.ops.length + 2) = .ok (v, s))
    (hv : v = .equivalent ∨ v = .equivalentUpToGlobalPhase) :
    ∃ s', runTwo (exactMatrix n garb) schC false (equalsMatrix T.ptrEq T.wEq T.close fun e f => e * fᴴ) (fun _ => false)
        .noInformation qc1 qc2 (constructionInit (exactMatrix n garb) 1 qc1) (constructionInit (exactMatrix n garb) 1 qc2)
        (qc1.ops.length + qc2.ops.length + 2) = .ok (v, s') := by
  obtain ⟨v', s'', hr, hs⟩ := alternating_verdict_sound_partial garb qc1 qc2 ω1 ω2 h1 h2 T opEq schA hc hsA .noInformation
  rw [hA] at hr
  injection hr with hr
  injection hr with hr _
  subst hr
  obtain ⟨w, s', hr', hw⟩ := construction_verdict_correct garb qc1 qc2 ω1 ω2 h1 h2 T schC hsC .noInformation hanc
  have hw' : Correct w (altAncillary n qc1.ancillary qc2.ancillary) qc1 ω1 qc2 ω2 := hw.congr fun q => by
    rw [altAncillary_flag, ← hanc q, Bool.and_self]
  refine ⟨s', ?_⟩
  rw [hr']
  rcases hv with rfl | rfl
  · rw [hw'.equivalent.mpr (hs.equivalent rfl)]
  · rw [hw'.phase.mpr (hs.phase rfl)]

/-! ## C06: simulation -/

/-- **C06**: if the circuits are equivalent up to a global phase, no simulation run – any normalised stimulus with ancillas
`|0⟩`, any scheme, any positive fidelity threshold – ever returns `NotEquivalent`. -/
theorem simulation_never_refutes_equivalent (garb) (qc1 qc2 : QC n) (ω1 ω2 : Equiv.Perm (Fin n)) (h1 : WellFormed qc1 ω1)
    (h2 : WellFormed qc2 ω2) (V : VectorTests n) (hthr : 0 < V.threshold) (sch) (hs : Configured qc1 qc2 sch)
    (anc : List Bool) (hsame : SameUpToPhase anc qc1 ω1 qc2 ω2) (prev : Criterion) (x : Basis n → ℂ) (hx : Normalised x)
    (ha : AncillasZero anc x) :
    ∃ v s, runTwo (exactVector n garb) sch false (equalsVector V.ptrEq V.wEq V.realClose V.fidClose) (fun _ => false) prev
        qc1 qc2 x x (qc1.ops.length + qc2.ops.length + 2) = .ok (v, s) ∧ v ≠ .notEquivalent := by
  obtain ⟨s, hr, _, _⟩ := simulation_true_output garb qc1 qc2 ω1 ω2 h1 h2 sch hs
    (equalsVector V.ptrEq V.wEq V.realClose V.fidClose) prev x
  refine ⟨_, s, hr, ?_⟩
  obtain ⟨c, hc, hsm⟩ := hsame
  have hout := hsm x ha
  have hnorm := output_normalised qc2 ω2 h2.ops x hx
  unfold equalsVector
  split
  · split <;> simp
  · split
    · simp
    · split
      · simp
      · rename_i hfid
        exfalso
        apply hfid
        rw [V.fidClose_iff, hout, inner_smul_left]
        unfold Normalised at hnorm
        rw [hnorm, mul_one]
        have : (star c).re * (star c).re + (star c).im * (star c).im = 1 := by
          have h2 : Complex.normSq (star c) = 1 := by
            rw [Complex.normSq_eq_norm_sq, norm_star, hc]; norm_num
          rwa [Complex.normSq_apply] at h2
        rw [this]
        simpa using hthr

/-- **C06** (contrapositive): a counterexample found by simulation refutes equivalence – the two output states for that stimulus
are really not equal up to a global phase. -/
theorem simulation_counterexample_real (garb) (qc1 qc2 : QC n) (ω1 ω2 : Equiv.Perm (Fin n)) (h1 : WellFormed qc1 ω1)
    (h2 : WellFormed qc2 ω2) (V : VectorTests n) (hthr : 0 < V.threshold) (sch) (hs : Configured qc1 qc2 sch)
    (anc : List Bool) (prev : Criterion) (x : Basis n → ℂ) (hx : Normalised x) (ha : AncillasZero anc x) (s)
    (hr : runTwo (exactVector n garb) sch false (equalsVector V.ptrEq V.wEq V.realClose V.fidClose) (fun _ => false) prev
        qc1 qc2 x x (qc1.ops.length + qc2.ops.length + 2) = .ok (.notEquivalent, s)) :
    ¬ SameUpToPhase anc qc1 ω1 qc2 ω2 ∧ ∀ c : ℂ, ‖c‖ = 1 → output qc1 ω1 x ≠ c • output qc2 ω2 x := by
  have key : ∀ c : ℂ, ‖c‖ = 1 → output qc1 ω1 x ≠ c • output qc2 ω2 x := by
    intro c hc hout
    obtain ⟨s', hr', _, _⟩ := simulation_true_output garb qc1 qc2 ω1 ω2 h1 h2 sch hs
      (equalsVector V.ptrEq V.wEq V.realClose V.fidClose) prev x
    rw [hr] at hr'
    injection hr' with hr'
    injection hr' with hv _
    have hnorm := output_normalised qc2 ω2 h2.ops x hx
    unfold equalsVector at hv
    split at hv
    · split at hv <;> exact absurd hv (by simp)
    · split at hv
      · exact absurd hv (by simp)
      · split at hv
        · exact absurd hv (by simp)
        · rename_i hfid
          apply hfid
          rw [V.fidClose_iff, hout, inner_smul_left]
          unfold Normalised at hnorm
          rw [hnorm, mul_one]
          have : (star c).re * (star c).re + (star c).im * (star c).im = 1 := by
            have h2 : Complex.normSq (star c) = 1 := by
              rw [Complex.normSq_eq_norm_sq, norm_star, hc]; norm_num
            rwa [Complex.normSq_apply] at h2
          rw [this]
          simpa using hthr
  exact ⟨fun ⟨c, hc, h⟩ => key c hc (h x ha), key⟩

/-- **C06** (what a passed simulation says): `Equivalent` for a normalised stimulus means that the two output states are equal or
that the real part of their overlap is within the threshold of one; `EquivalentUpToPhase` that they are multiples of each other
or that their fidelity is within the threshold of one. -/
theorem simulation_passed_meaning (garb) (qc1 qc2 : QC n) (ω1 ω2 : Equiv.Perm (Fin n)) (h1 : WellFormed qc1 ω1)
    (h2 : WellFormed qc2 ω2) (V : VectorTests n) (sch) (hs : Configured qc1 qc2 sch) (prev : Criterion) (x : Basis n → ℂ)
    (v s) (hr : runTwo (exactVector n garb) sch false (equalsVector V.ptrEq V.wEq V.realClose V.fidClose) (fun _ => false) prev
        qc1 qc2 x x (qc1.ops.length + qc2.ops.length + 2) = .ok (v, s)) :
    (v = .equivalent → output qc1 ω1 x = output qc2 ω2 x ∨
      |(inner (output qc1 ω1 x) (output qc2 ω2 x)).re - 1| < V.threshold) ∧
    (v = .equivalentUpToPhase → (∃ c : ℂ, c ≠ 0 ∧ output qc1 ω1 x = c • output qc2 ω2 x) ∨
      |Complex.normSq (inner (output qc1 ω1 x) (output qc2 ω2 x)) - 1| < V.threshold) ∧
    (v = .equivalent ∨ v = .equivalentUpToPhase ∨ v = .notEquivalent) := by
  obtain ⟨s', hr', _, _⟩ := simulation_true_output garb qc1 qc2 ω1 ω2 h1 h2 sch hs
    (equalsVector V.ptrEq V.wEq V.realClose V.fidClose) prev x
  rw [hr] at hr'
  injection hr' with hr'
  injection hr' with hv _
  subst hv
  unfold equalsVector
  rw [Complex.normSq_apply]
  refine ⟨?_, ?_, ?_⟩
  · intro hv
    split at hv
    · rename_i hp
      split at hv
      · rename_i hw; exact Or.inl (V.wEq_sound _ _ hp hw)
      · exact absurd hv (by simp)
    · split at hv
      · rename_i hre; exact Or.inr ((V.realClose_iff _ _).mp hre)
      · split at hv <;> exact absurd hv (by simp)
  · intro hv
    split at hv
    · rename_i hp
      exact Or.inl (V.ptrEq_sound _ _ hp)
    · split at hv
      · exact absurd hv (by simp)
      · split at hv
        · rename_i hfid; exact Or.inr ((V.fidClose_iff _ _).mp hfid)
        · exact absurd hv (by simp)
  · split
    · split <;> simp
    · split
      · simp
      · split <;> simp

/-- **C06** (distance): if the output states are normalised, the real-part test of a passed simulation bounds their squared
distance by twice the threshold. -/
theorem simulation_passed_distance (garb) (qc1 qc2 : QC n) (ω1 ω2 : Equiv.Perm (Fin n)) (h1 : WellFormed qc1 ω1)
    (h2 : WellFormed qc2 ω2) (V : VectorTests n) (hthr : 0 < V.threshold) (sch) (hs : Configured qc1 qc2 sch) (prev : Criterion)
    (x : Basis n → ℂ) (hx : Normalised x) (s)
    (hr : runTwo (exactVector n garb) sch false (equalsVector V.ptrEq V.wEq V.realClose V.fidClose) (fun _ => false) prev
        qc1 qc2 x x (qc1.ops.length + qc2.ops.length + 2) = .ok (.equivalent, s)) :
    ∑ y, Complex.normSq (output qc1 ω1 x y - output qc2 ω2 x y) < 2 * V.threshold := by
  have hm := (simulation_passed_meaning garb qc1 qc2 ω1 ω2 h1 h2 V sch hs prev x _ s hr).1 rfl
  have n1 := output_normalised qc1 ω1 h1.ops x hx
  have n2 := output_normalised qc2 ω2 h2.ops x hx
  generalize output qc1 ω1 x = e at *
  generalize output qc2 ω2 x = f at *
  rw [dist_eq e f n1 n2]
  rcases hm with h | h
  · subst h
    unfold Normalised at n1
    rw [n1]
    simpa using hthr
  · have := (abs_lt.mp h).1
    linarith

end QCEC.Props
