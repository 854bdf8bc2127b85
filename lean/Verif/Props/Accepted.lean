import Verif.Lemmas.Misled
import Verif.Props.Prepare
/-!
# C36: what the alternating checker accepts, in terms of the circuits it works on

The answers `MAnswer.alternating`, `RAnswer.alternating` presuppose `Accepted` of the numbered circuits; `canHandle` of the prepared ones establishes it.
-/
namespace QCEC.Props
open QCEC QCEC.Prep QCEC.Spec QCEC.Spec.Wide QCEC.Wide QCEC.Sem

variable {n : Nat}

theorem leavesAlone_of_not_acted {acts : WOp → Nat → Bool} (hacts : Reliable acts) {c : Circ WOp} {q : Nat} (h : ¬ Acted acts c q) : LeavesAlone c q := by
  intro p hp o ho
  by_contra hn
  exact h ⟨p, hp, fun hu => hacts o p (hu o ho) hn⟩

/-- **C36.** If `canHandle` accepts two circuits, then each qubit that is ancillary in both is left alone by one of the circuits the checker works on. -/
theorem accepted_of_canHandle {acts : WOp → Nat → Bool} (hacts : Reliable acts) {e1 e2 : Nat → Fin n} {c1 c2 : Circ WOp} {qc1 qc2 : QC n} (w1 : Wired c1)
    (w2 : Wired c2) (h1 : Numbered e1 c1 qc1) (h2 : Numbered e2 c2 qc2) (h : canHandle acts c1 c2 = true) : Accepted qc1 qc2 := by
  rintro q ⟨a1, a2⟩
  obtain ⟨k, -⟩ := (canHandle_iff w1.inj w2.inj).1 h q.val (by rw [h1.width]; exact q.isLt) ((h1.ancillary _ q.isLt).symm.trans a1)
    ((h2.ancillary _ q.isLt).symm.trans a2)
  by_cases k1 : Acted acts c1 q.val
  · exact Or.inr (leftAlone_numbered w2 h2 (leavesAlone_of_not_acted hacts fun k2 => k ⟨k1, k2⟩))
  · exact Or.inl (leftAlone_numbered w1 h1 (leavesAlone_of_not_acted hacts k1))

/-- The same for the circuits a manager has prepared. -/
theorem accepted_of_made {acts : WOp → Nat → Bool} (hacts : Reliable acts) {P : Passes (Circ WOp)} {cfg : Configuration} {c1 c2 : Circ WOp}
    (h1 : Runnable c1) (h2 : Runnable c2) (hP : ∀ p ∈ planned cfg.optimizations true, Faithful P p) {M : Made WOp}
    (h : Prep.construct acts P cfg c1 c2 = .made M) {e1 e2 : Nat → Fin n} {qc1 qc2 : QC n} (hn1 : Numbered e1 M.qc1 qc1) (hn2 : Numbered e2 M.qc2 qc2)
    (hc : canHandle acts M.qc1 M.qc2 = true) : Accepted qc1 qc2 := by
  obtain ⟨w1, w2, _, _⟩ := construct_preserves hacts h1 h2 hP h
  exact accepted_of_canHandle hacts w1 w2 hn1 hn2 hc

end QCEC.Props
