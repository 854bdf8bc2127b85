import Verif.Spec.PartialRelation
import Verif.Props.PythonVerify
import Verif.Props.VerifyPartialDecides
import Verif.Props.VerifyEndToEndPartial
/-!
# C89: verdicts with partial equivalence fit together, and fit to those without
-/
namespace QCEC.Props
open QCEC QCEC.Mgr QCEC.Prep QCEC.Spec QCEC.Spec.Wide QCEC.Spec.Py QCEC.Wide QCEC.Sem

variable {lib lib' lib'' : Library} {c c1 c2 c3 : Circ WOp} {cfg cfg' cfg'' : Configuration} {v v' v'' : Criterion}
variable {V V' V'' : Type} {conv : QCEC.Py.Kind → V → Option QCEC.Py.FieldVal} {conv' : QCEC.Py.Kind → V' → Option QCEC.Py.FieldVal}
variable {conv'' : QCEC.Py.Kind → V'' → Option QCEC.Py.FieldVal}

/-! ## Partial equivalence of circuits -/

theorem _root_.QCEC.Spec.Py.Comparable.symm (h : Comparable c1 c2) : Comparable c2 c1 := ⟨h.right, h.left, fun q a b => (h.garbage q b a).symm⟩

theorem _root_.QCEC.Spec.Py.Comparable.ancillas (h : Comparable c1 c2) : SameAncillas c1 c2 := fun q _ _ => (h.left q).trans (h.right q).symm

theorem _root_.QCEC.Spec.Py.Comparable.last (h : Comparable c1 c2) : AncillasLast c1 := fun q q' _ _ e => by rw [h.left] at e; cases e

theorem comparable_self (h : ∀ q, c.isAncillary q = false) : Comparable c c := ⟨h, h, fun _ _ _ => rfl⟩

theorem measured_symm : Measured c1 c2 = Measured c2 c1 := funext fun _ => propext Or.comm

theorem partiallyEqual_symm : PartiallyEqual c1 c2 ↔ PartiallyEqual c2 c1 := by
  have key : ∀ {c1 c2 : Circ WOp}, PartiallyEqual c1 c2 → PartiallyEqual c2 c1 := by
    intro c1 c2 h v hv k
    have := h v (zero_mono (fun q => fixed_symm.1) hv) k
    unfold SameProbability at this ⊢
    rw [max_comm, measured_symm]
    exact this.symm
  exact ⟨key, key⟩

theorem measured_same_width (hg : SameGarbage c1 c2) (hw : c1.nqubits = c2.nqubits) : Measured c1 c2 = fun q => q < c1.nqubits ∧ c1.isGarbage q = false := by
  funext q
  refine propext ⟨?_, fun h => Or.inl ⟨h.1, h.2, fun hn => absurd h.1 (by omega)⟩⟩
  rintro (h | h)
  · exact ⟨h.1, h.2.1⟩
  · have := h.1
    exact ⟨by omega, (hg q (by omega) h.1).trans h.2.1⟩

/-- Partial equivalence is transitive, for circuits with the same number of qubits. -/
theorem partiallyEqual_trans (a : Comparable c1 c2) (b : Comparable c2 c3) (hw : c1.nqubits = c2.nqubits) (hw' : c2.nqubits = c3.nqubits)
    (h : PartiallyEqual c1 c2) (h' : PartiallyEqual c2 c3) : PartiallyEqual c1 c3 := by
  have g12 := a.garbage
  have g23 := b.garbage
  have g13 : SameGarbage c1 c3 := fun q x y => (g12 q x (by omega)).trans (g23 q (by omega) y)
  have f12 : ∀ q, Fixed c1 c2 q → Fixed c1 c3 q := fun q hq =>
    fixed_left a.ancillas b.ancillas (by omega) hq
  have f23 : ∀ q, Fixed c2 c3 q → Fixed c1 c3 q := fun q hq =>
    fixed_symm.1 (fixed_left (sameAncillas_symm b.ancillas) (sameAncillas_symm a.ancillas) (by omega) (fixed_symm.1 hq))
  intro v hv k
  have e := h v (zero_mono f12 hv) k
  have e' := h' v (zero_mono f23 hv) k
  unfold SameProbability at e e' ⊢
  rw [measured_same_width g12 hw, show max c1.nqubits c2.nqubits = c1.nqubits by omega] at e
  rw [measured_same_width g13 (hw.trans hw'), show max c1.nqubits c3.nqubits = c1.nqubits by omega]
  have m : Measured c2 c3 = fun q => q < c1.nqubits ∧ c1.isGarbage q = false := by
    rw [measured_same_width g23 hw']
    funext q
    refine propext ⟨fun ⟨x, y⟩ => ⟨by omega, (g12 q (by omega) x).trans y⟩, fun ⟨x, y⟩ => ⟨by omega, (g12 q x (by omega)).symm.trans y⟩⟩
  rw [m, show max c2.nqubits c3.nqubits = c1.nqubits by omega] at e'
  exact e.trans e'

/-! ## Verdicts -/

theorem not_positive (h : v = .notEquivalent) : ¬ Positive v := by
  subst h
  rintro (h | h) <;> cases h

/-- What an uninterrupted call says. -/
theorem partly_decides (h : PartlyDecided lib conv c1 c2 cfg v) (r1 : Runnable c1) (r2 : Runnable c2) (a : Comparable c1 c2) :
    (v = .notEquivalent ∧ ¬ PartiallyEqual c1 c2 ∨ Positive v ∧ (PartiallyEqual c1 c2 ∨ ConstructionUsed lib c1 c2 cfg [])) ∨ Excused lib c1 c2 cfg v := by
  obtain ⟨d, imp, w, hw, i₁, i₂, res, h, hp, hs1, hs2, h1, h2, hen, rfl⟩ := h
  rcases verify_partially_decides hw hp hs1 hs2 hen h1 h2 r1 r2 a.garbage a.left a.right (call_verify h) with hd | ⟨hc, hd⟩ | hd
  · left
    by_cases he : PartiallyEqual c1 c2
    · exact Or.inr ⟨hd.positive.2 he, Or.inl he⟩
    · exact Or.inl ⟨hd.negative.2 he, he⟩
  · left
    rcases hd with hd | hd
    · exact Or.inl hd
    · exact Or.inr ⟨hd.1, Or.inr hc⟩
  · exact Or.inr hd

/-- What a call says, interrupted or not. -/
theorem partly_refuted (h : PartlyChecked lib conv c1 c2 cfg .notEquivalent) (r1 : Runnable c1) (r2 : Runnable c2) (a : Comparable c1 c2) :
    ¬ PartiallyEqual c1 c2 ∨ Misled lib c1 c2 cfg [] := by
  obtain ⟨d, imp, w, hw, i₁, i₂, res, h, hp, hs1, hs2, h1, h2, hv⟩ := h
  rcases verify_partial_verdict hw hp hs1 hs2 h1 h2 r1 r2 a.garbage (call_verify h) with ht | ht | ht
  · exact Or.inl ((partial_verdict_no_ancillas r1 r2 a.left a.right ht).1 hv)
  · rw [hv] at ht
    exact absurd ht.1 (by simp)
  · exact Or.inr ht

/-- **C89.** Partial equivalence asks for less: if an uninterrupted call reports two circuits equivalent, perhaps up to a global phase, so does one with
partial equivalence, whatever the other options … -/
theorem partial_is_weaker (h : FullyChecked lib conv c1 c2 cfg v) (h' : PartlyDecided lib' conv' c1 c2 cfg' v') (r1 : Runnable c1) (r2 : Runnable c2)
    (a : Comparable c1 c2) (hv : Positive v) : Positive v' ∨ Excused lib c1 c2 cfg v ∨ Excused lib' c1 c2 cfg' v' := by
  rcases fullyChecked_decides h r1 r2 a.ancillas a.last with hd | hd
  · rcases partly_decides h' r1 r2 a with (⟨_, hn⟩ | ⟨hp, _⟩) | hd'
    · refine absurd (partiallyEqual_of_equal ?_) hn
      rcases hv with hv | hv
      · exact ⟨1, by simp, hd.equivalent.1 hv⟩
      · exact (hd.phase.1 hv).1
    · exact Or.inl hp
    · exact Or.inr (Or.inr hd')
  · exact Or.inr (Or.inl hd)

/-- … and calls, interrupted or not, do not contradict that: circuits are never reported equivalent by one without and not equivalent by one with
partial equivalence. -/
theorem partial_never_contradicts (h : Checked lib conv c1 c2 cfg v) (h' : PartlyChecked lib' conv' c1 c2 cfg' .notEquivalent) (r1 : Runnable c1)
    (r2 : Runnable c2) (a : Comparable c1 c2) :
    ¬ Positive v ∨ v = .equivalent ∧ CrossedShortcut lib c1 c2 cfg ∨ Misled lib c1 c2 cfg [] ∨ Misled lib' c1 c2 cfg' [] := by
  rcases partly_refuted h' r1 r2 a with hn | hm
  · obtain ⟨d, imp, w, hw, i₁, i₂, res, h, hp, hs1, hs2, h1, h2, rfl⟩ := h
    rcases call_verdict_true hw h hp hs1 hs2 h1 h2 r1 r2 with hv | hv | hv
    · left
      have ht := verdict_same_ancillas r1 r2 a.ancillas a.last hv
      rintro (e | e)
      · exact hn (partiallyEqual_of_equal ⟨1, by simp, ht.equivalent e⟩)
      · exact hn (partiallyEqual_of_equal (ht.phase e).1)
    · exact Or.inr (Or.inl hv)
    · exact Or.inr (Or.inr (Or.inl hv))
  · exact Or.inr (Or.inr (Or.inr hm))

/-- **C89.** Options and schedules do not change verdicts with partial equivalence – if the construction checker, which only looks at basis states, is not
used by the call that is content. -/
theorem partial_same_verdict (h : PartlyDecided lib conv c1 c2 cfg v) (h' : PartlyDecided lib' conv' c1 c2 cfg' v') (r1 : Runnable c1) (r2 : Runnable c2)
    (a : Comparable c1 c2) (hv : Positive v) : Positive v' ∨ ConstructionUsed lib c1 c2 cfg [] ∨ Excused lib c1 c2 cfg v ∨ Excused lib' c1 c2 cfg' v' := by
  rcases partly_decides h r1 r2 a with (⟨hn, _⟩ | ⟨_, hp | hc⟩) | hd
  · exact absurd hv (not_positive hn)
  · rcases partly_decides h' r1 r2 a with (⟨_, hn⟩ | ⟨hp', _⟩) | hd'
    · exact absurd hp hn
    · exact Or.inl hp'
    · exact Or.inr (Or.inr (Or.inr hd'))
  · exact Or.inr (Or.inl hc)
  · exact Or.inr (Or.inr (Or.inl hd))

/-- **C89.** Exchanging the circuits does not change the verdict. -/
theorem partial_exchange (h : PartlyDecided lib conv c1 c2 cfg v) (h' : PartlyDecided lib' conv' c2 c1 cfg' v') (r1 : Runnable c1) (r2 : Runnable c2)
    (a : Comparable c1 c2) (hv : Positive v) : Positive v' ∨ ConstructionUsed lib c1 c2 cfg [] ∨ Excused lib c1 c2 cfg v ∨ Excused lib' c2 c1 cfg' v' := by
  rcases partly_decides h r1 r2 a with (⟨hn, _⟩ | ⟨_, hp | hc⟩) | hd
  · exact absurd hv (not_positive hn)
  · rcases partly_decides h' r2 r1 a.symm with (⟨_, hn⟩ | ⟨hp', _⟩) | hd'
    · exact absurd (partiallyEqual_symm.1 hp) hn
    · exact Or.inl hp'
    · exact Or.inr (Or.inr (Or.inr hd'))
  · exact Or.inr (Or.inl hc)
  · exact Or.inr (Or.inr (Or.inl hd))

/-- **C89.** A circuit is partially equivalent to itself. -/
theorem partial_self (h : PartlyDecided lib conv c c cfg v) (r : Runnable c) (hn : ∀ q, c.isAncillary q = false) :
    Positive v ∨ v = .noInformation ∧ ParallelWithBoth cfg ∨ Misled lib c c cfg [] := by
  rcases partly_decides h r r (comparable_self hn) with (⟨_, hn⟩ | ⟨hp, _⟩) | hd
  · exact absurd (fun _ _ _ => rfl) hn
  · exact Or.inl hp
  · rcases hd with ⟨rfl, _⟩ | hd
    · exact Or.inl (Or.inl rfl)
    · exact Or.inr hd

/-- **C89.** Verdicts are transitive, for circuits with the same number of qubits. -/
theorem partial_trans (h : PartlyDecided lib conv c1 c2 cfg v) (h' : PartlyDecided lib' conv' c2 c3 cfg' v') (h'' : PartlyDecided lib'' conv'' c1 c3 cfg'' v'')
    (r1 : Runnable c1) (r2 : Runnable c2) (r3 : Runnable c3) (a : Comparable c1 c2) (b : Comparable c2 c3) (hw : c1.nqubits = c2.nqubits)
    (hw' : c2.nqubits = c3.nqubits) (hv : Positive v) (hv' : Positive v') :
    Positive v'' ∨ ConstructionUsed lib c1 c2 cfg [] ∨ ConstructionUsed lib' c2 c3 cfg' [] ∨ Excused lib c1 c2 cfg v ∨ Excused lib' c2 c3 cfg' v' ∨
      Excused lib'' c1 c3 cfg'' v'' := by
  have ac : Comparable c1 c3 := ⟨a.left, b.right, fun q x y => (a.garbage q x (by omega)).trans (b.garbage q (by omega) y)⟩
  rcases partly_decides h r1 r2 a with (⟨hn, _⟩ | ⟨_, hp | hc⟩) | hd
  · exact absurd hv (not_positive hn)
  · rcases partly_decides h' r2 r3 b with (⟨hn, _⟩ | ⟨_, hp' | hc⟩) | hd
    · exact absurd hv' (not_positive hn)
    · rcases partly_decides h'' r1 r3 ac with (⟨_, hn⟩ | ⟨hp'', _⟩) | hd
      · exact absurd (partiallyEqual_trans a b hw hw' hp hp') hn
      · exact Or.inl hp''
      · exact Or.inr (Or.inr (Or.inr (Or.inr (Or.inr hd))))
    · exact Or.inr (Or.inr (Or.inl hc))
    · exact Or.inr (Or.inr (Or.inr (Or.inr (Or.inl hd))))
  · exact Or.inr (Or.inl hc)
  · exact Or.inr (Or.inr (Or.inr (Or.inl hd)))

end QCEC.Props
