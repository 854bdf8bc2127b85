import Verif.Spec.VerifyDecides
import Verif.Spec.VerifyEndToEndPartial
/-!
# Specification: a run with `check_partial_equivalence` that nobody interrupts
-/
namespace QCEC.Spec
open QCEC QCEC.Mgr QCEC.Prep QCEC.Spec.Wide QCEC.Sem QCEC.Props

/-- As `PManagerRun`, but nobody interrupts the checkers. -/
inductive CalmPManagerRun (lib : Library) (c1 c2 : Circ WOp) (cfg : Configuration) (setters : List Param.Setter) (v : Criterion) : Prop
  | mk (hP : PassesFaithful lib.passes cfg)
      (M : Made WOp) (h : Prep.construct lib.acts lib.passes cfg c1 c2 = .made M) (m n : Nat) (hd : M.qc1.ndata = m) (S : PBase m n) (e1 e2 : Nat → Fin n)
      (hn1 : Numbered e1 M.qc1 S.qc1) (hn2 : Numbered e2 M.qc2 S.qc2)
      (hsch : Follows S.toMixed M.cfg) (hop : ∀ a ∈ M.qc1.ops, ∀ b ∈ M.qc2.ops, S.opEq (a.on e1) (b.on e2) = true → a = b)
      (hrun : CalmRuns (PAnswer S) (afterSetters M.cfg setters) (M.qc1.ops = [] ∧ M.qc2.ops = []) v) : CalmPManagerRun lib c1 c2 cfg setters v

/-- The managers are those of QCEC, with partial equivalence switched on, and nobody interrupts their checkers. -/
def CalmPRealises (lib : Library) (imp : Param.Subject → Option (Circ WOp)) (w : Param.World) : Prop :=
  ∀ k cfg setters s1 s2 res c1 c2, cfg.functionality.checkPartialEquivalence = true → imp s1 = some c1 → imp s2 = some c2 →
    w.manager k cfg setters s1 s2 = .ok res → CalmPManagerRun lib c1 c2 cfg setters res.equivalence

/-- The verdict is `NotEquivalent` for circuits that are not partially equivalent and positive for those that are. -/
structure PartiallyDecided (c1 c2 : Circ WOp) (v : Criterion) : Prop where
  negative : v = .notEquivalent ↔ ¬ PartiallyEqual c1 c2
  positive : v = .equivalent ∨ v = .equivalentUpToGlobalPhase ↔ PartiallyEqual c1 c2

end QCEC.Spec
