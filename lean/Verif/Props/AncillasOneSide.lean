import Verif.Props.VerifyEndToEndPartial
/-!
# Properties: qubits the manager adds are used by one circuit only (C74, C81)
-/
namespace QCEC.Props
open QCEC QCEC.Prep QCEC.Spec QCEC.Spec.Wide QCEC.Spec.ZX QCEC.Wide QCEC.Mgr QCEC.Sem

variable {m n : Nat}

theorem setup_unnamed {c1 c2 r1 r2 : Circ WOp} (hc1 : Runnable c1) (hp : Padded c2.nqubits c1 r1) (hs : SurplusMarked c1.nqubits c2 r2)
    (hno : NoCommonAncilla c1 c2) {q : Nat} (hq : q < c2.nqubits) (a1 : r1.isAncillary q = true) (a2 : r2.isAncillary q = true) : Unnamed r1 q := by
  refine padded_unnamed hc1 hp ?_
  by_contra hx
  have hx : q < c1.nqubits := by omega
  rw [(hp.old q hx).1] at a1
  rw [hs.ancillary q hq] at a2
  have : decide (c1.nqubits ≤ q) = false := by simp; omega
  rw [this, Bool.false_or] at a2
  exact hno q hx hq ⟨a1, a2⟩

theorem prepare_unnamed {acts : WOp → Nat → Bool} (hacts : Reliable acts) {cfg : Configuration} {c1 c2 : Circ WOp} (h1 : Runnable c1) (h2 : Runnable c2)
    {m : Made WOp} (h : prepare acts cfg (c1, c2) = .made m) (hno : NoCommonAncilla c1 c2) :
    (∀ q, q < m.qc1.nqubits → m.qc1.isAncillary q = true → m.qc2.isAncillary q = true → Unnamed m.qc1 q) ∨
    (∀ q, q < m.qc1.nqubits → m.qc1.isAncillary q = true → m.qc2.isAncillary q = true → Unnamed m.qc2 q) := by
  obtain ⟨s1, s2, g1, g2, _⟩ := prepare_made h
  obtain ⟨R, t1, t2, g0, _, k1, k2, ok1, ok2⟩ := strip_idle_qubits acts h1.ok h2.ok
  rw [g1] at g0
  cases g0
  have r1 := runnable_stripped hacts h1 ok1 k1
  have r2 := runnable_stripped hacts h2 ok2 k2
  obtain ⟨u1, u2, g3, w1, w2, ga, gb⟩ := setup_ancillaries ok1 ok2
  rw [g2] at g3
  cases g3
  have hs : NoCommonAncilla s1 s2 := by
    intro q a b
    rw [k1.width] at a
    rw [k2.width] at b
    have f1 := (k1.flags _ (old_lt a) (oldIndex_kept R q)).1
    have f2 := (k2.flags _ (old_lt b) (oldIndex_kept R q)).1
    rw [newIndex_oldIndex] at f1 f2
    rw [f1, f2]
    exact hno _ (old_lt a) (old_lt b)
  rw [w1]
  by_cases hn : s1.nqubits > s2.nqubits
  · obtain ⟨hm, hp⟩ := ga hn
    exact Or.inr fun q hq a1 a2 => setup_unnamed r2 hp hm (fun q a b c => hs q b a c.symm) (by omega) a2 a1
  · obtain ⟨hp, hm⟩ := gb (by omega)
    exact Or.inl fun q hq a1 a2 => setup_unnamed r1 hp hm hs (by omega) a1 a2

theorem construct_unnamed {acts : WOp → Nat → Bool} (hacts : Reliable acts) {P : Passes (Circ WOp)} {cfg : Configuration}
    {c1 c2 : Circ WOp} (h1 : Runnable c1) (h2 : Runnable c2) (hP : ∀ p ∈ planned cfg.optimizations true, Faithful P p) {m : Made WOp}
    (h : Prep.construct acts P cfg c1 c2 = .made m) (hno : NoCommonAncilla c1 c2) :
    (∀ q, q < m.qc1.nqubits → m.qc1.isAncillary q = true → m.qc2.isAncillary q = true → Unnamed m.qc1 q) ∨
    (∀ q, q < m.qc1.nqubits → m.qc1.isAncillary q = true → m.qc2.isAncillary q = true → Unnamed m.qc2 q) := by
  have sub : ∀ d, ∀ p ∈ planned cfg.optimizations d, Faithful P p := by
    intro d p hp
    refine hP p ?_
    cases d
    · simp only [planned, Bool.false_eq_true, if_false, List.nil_append] at hp
      simp only [planned, if_true]
      exact List.mem_append_right _ hp
    · exact hp
  unfold Prep.construct at h
  split at h
  · rw [passes_exact] at h
    by_cases he : P.empty c1 = true ∧ P.empty c2 = true
    · rw [if_pos he] at h
      exact prepare_unnamed hacts h1 h2 h hno
    · rw [if_neg he] at h
      by_cases hd : (P.dynamic c1 = true ∨ P.dynamic c2 = true) ∧ cfg.optimizations.transformDynamicCircuit = false
      · rw [if_pos hd] at h
        exact absurd h (by simp)
      · rw [if_neg hd] at h
        obtain ⟨a1, a2, a3, _⟩ := faithful_list _ (sub (P.dynamic c1)) c1 h1
        obtain ⟨b1, b2, b3, _⟩ := faithful_list _ (sub (P.dynamic c2)) c2 h2
        refine prepare_unnamed hacts a1 b1 h fun q x y => ?_
        rw [a3, b3]
        exact hno q (by rwa [← a2]) (by rwa [← b2])
  · exact prepare_unnamed hacts h1 h2 h hno

/-- **C74.** If the user declares no qubit ancillary in both circuits, one of the prepared circuits acts on none of the qubits that are ancillary in
both. -/
theorem constructed_one_idle {acts : WOp → Nat → Bool} (hacts : Reliable acts) {P : Passes (Circ WOp)} {cfg : Configuration}
    {c1 c2 : Circ WOp} (h1 : Runnable c1) (h2 : Runnable c2) (hP : ∀ p ∈ planned cfg.optimizations true, Faithful P p) {M : Made WOp}
    (h : Prep.construct acts P cfg c1 c2 = .made M) (hno : NoCommonAncilla c1 c2) (S : Mixed m n) {e1 e2 : Nat → Fin n}
    (hn1 : Numbered e1 M.qc1 S.qc1) (hn2 : Numbered e2 M.qc2 S.qc2) : S.OneIdle := by
  rcases construct_unnamed hacts h1 h2 hP h hno with hu | hu
  · refine Or.inl fun q a b => unnamed_idle hn1 S.wf1 (hu q.val (by rw [hn1.width]; exact q.isLt) ?_ ?_)
    · rw [← hn1.ancillary _ q.isLt]; exact a
    · rw [← hn2.ancillary _ q.isLt]; exact b
  · refine Or.inr fun q a b => unnamed_idle hn2 S.wf2 (hu q.val (by rw [hn1.width]; exact q.isLt) ?_ ?_)
    · rw [← hn1.ancillary _ q.isLt]; exact a
    · rw [← hn2.ancillary _ q.isLt]; exact b

theorem unnamed_leaves {c : Circ WOp} (w : Wired c) {q : Nat} (h : Unnamed c q) : LeavesAlone c q := by
  intro p hp o ho hn
  obtain ⟨q', hq', hlt⟩ := h.ops o ho p hn
  have := Layout.key_inj w.keys hp hq'
  omega

/-- **C81.** The exception for ancillary qubits that are read out elsewhere concerns circuits in which a common qubit is declared ancillary in both. -/
theorem not_misread {c1 c2 : Circ WOp} (h1 : Runnable c1) (h2 : Runnable c2) (hno : NoCommonAncilla c1 c2) (cfg : Configuration) :
    ¬ AncillaMisread lib c1 c2 cfg := by
  rintro ⟨M, hP, hm, _, ⟨q, a, b, d, e⟩, ⟨q', a', b', d', e'⟩⟩
  obtain ⟨w1, w2, _, _⟩ := construct_preserves lib.reliable h1 h2 hP hm
  rcases construct_unnamed lib.reliable h1 h2 hP hm hno with hu | hu
  · exact e (unnamed_leaves w1 (hu q a b d))
  · exact e' (unnamed_leaves w2 (hu q' a' b' d'))

/-- **C81.** The exception for the alternating checker concerns circuits in which a common qubit is declared ancillary in both. -/
theorem not_ancillas_on_both_sides {c1 c2 : Circ WOp} (h1 : Runnable c1) (h2 : Runnable c2) (hno : NoCommonAncilla c1 c2) (cfg : Configuration)
    (setters : List Param.Setter) : ¬ AncillasOnBothSides lib c1 c2 cfg setters := by
  rintro ⟨M, hP, hm, _, m, n, S, e1, e2, hn1, hn2, hi⟩
  have hacts := lib.reliable
  exact hi (constructed_one_idle hacts h1 h2 (fun p hp => (hP p hp).1) hm hno S.toMixed hn1 hn2)

/-- **C81.** For circuits without declared ancillary qubits – they may have different widths – the verdict with partial equivalence means: `NotEquivalent`
refutes partial equivalence; a positive verdict establishes equal outcome probabilities on the basis states, and partial equivalence if the construction
checker is not used. -/
theorem partial_verdict_no_ancillas {c1 c2 : Circ WOp} {cfg : Configuration} {setters : List Param.Setter} {v : Criterion} (r1 : Runnable c1)
    (r2 : Runnable c2) (n1 : ∀ q, c1.isAncillary q = false) (n2 : ∀ q, c2.isAncillary q = false) (hv : PartialVerdict lib c1 c2 cfg setters v) :
    (v = .notEquivalent → ¬ PartiallyEqual c1 c2) ∧
    (v = .equivalent ∨ v = .equivalentUpToGlobalPhase → EqualOnBasis c1 c2 ∧ (PartiallyEqual c1 c2 ∨ ConstructionUsed lib c1 c2 cfg setters)) := by
  obtain ⟨a, b⟩ := partial_verdict_same_ancillas r1 r2 (fun q _ _ => by rw [n1, n2]) (last_of_none n1) hv
  refine ⟨fun e => (a e).resolve_right ?_, b⟩
  exact not_ancillas_on_both_sides r1 r2 (fun q _ _ h => by rw [n1] at h; exact absurd h.1 (by simp)) cfg setters

end QCEC.Props
