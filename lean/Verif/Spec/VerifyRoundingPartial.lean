import Verif.Spec.VerifyRounding
import Verif.Spec.VerifyEndToEndPartial
import Verif.Spec.EndToEndRoundingPartial
/-!
# Specification: what `verify` with `check_partial_equivalence` says about the user's circuits although the decision-diagram package rounds

As `Spec/VerifyRounding.lean` and `Spec/VerifyEndToEndPartial.lean` together.
-/
namespace QCEC.Spec.Wide
open QCEC QCEC.Prep

/-- Whether `x` belongs to the event can be seen from the qubits in `M` (and those from `N` on, which no circuit has). -/
def Visible (N : Nat) (M : Nat → Prop) (A : Set Bits) : Prop := ∀ x y : Bits, (∀ q, M q ∨ N ≤ q → x q = y q) → (x ∈ A ↔ y ∈ A)

open Classical in
/-- Probability that measuring the first `N` qubits gives an outcome in `A`; the other qubits are as in `z`. -/
noncomputable def chance (N : Nat) (A : Set Bits) (w : Bits → ℂ) (z : Bits) : ℝ := ∑ y : Fin N → Bool, if fill y z ∈ A then ‖w (fill y z)‖ ^ 2 else 0

/-- For every input in which the qubits in `F` are `|0⟩`, no event that can be seen on the measured qubits differs in its probability by more than `e`,
relative to the squared norm of the input. -/
def PartiallyNear (F : Nat → Prop) (e : ℝ) (c1 c2 : Circ WOp) : Prop := ∀ v, Zero F v → ∀ A, Visible (max c1.nqubits c2.nqubits) (Measured c1 c2) A →
  ∀ z, |chance (max c1.nqubits c2.nqubits) A (output c1 v) z - chance (max c1.nqubits c2.nqubits) A (output c2 v) z| ≤
    e * size (max c1.nqubits c2.nqubits) v z ^ 2

end QCEC.Spec.Wide

namespace QCEC.Spec
open QCEC QCEC.Mgr QCEC.Prep QCEC.Spec.Wide QCEC.Sem QCEC.Props

/-- The circuits have the same garbage qubits up to unused ancillary ones (the condition of `InexactPartial.garbage`). -/
def Inexact.SameGarbage {m n : Nat} (S : Inexact m n) : Prop := ∀ q : Fin n, S.qc1.garbage.getD q.val false = S.qc2.garbage.getD q.val false ∨
  (m ≤ q.val ∧ S.qc1.ancillary.getD q.val false = true ∧ S.qc2.ancillary.getD q.val false = true ∧
    (S.qc1.garbage.getD q.val false = true ∧ Idle S.qc1 S.ω1 q ∨ S.qc2.garbage.getD q.val false = true ∧ Idle S.qc2 S.ω2 q))

/-- A manager whose package rounds is constructed for two circuits; everything a run with partial equivalence needs. -/
structure RPPrepared (lib : Library) (c1 c2 : Circ WOp) (cfg : Configuration) (d : ℝ) (small : Prop) where
  hP : PassesFaithful lib.passes cfg
  M : Made WOp
  made : Prep.construct lib.acts lib.passes cfg c1 c2 = .made M
  n : Nat
  S : Inexact M.qc1.ndata n
  /-- the test for the identity up to garbage, and the garbage reduction -/
  G : RoundedGarbageTest S.valM S.θ S.θ₀
  roundG : RoundedGarbage S.bV S.valV S.ε
  e1 : Nat → Fin n
  e2 : Nat → Fin n
  hn1 : Numbered e1 M.qc1 S.qc1
  hn2 : Numbered e2 M.qc2 S.qc2
  drift : S.drift ≤ d
  hsch : S.schA.Cancels ↔ M.cfg.application.alternatingScheme ≠ .lookahead
  hop : ∀ a ∈ M.qc1.ops, ∀ b ∈ M.qc2.ops, S.opEq (a.on e1) (b.on e2) = true → a = b
  budget : small → ∀ hg : S.SameGarbage, InexactPartial.ReducedBudget { S with G := G, roundG := roundG, garbage := hg }

/-- The checkers' circuits and package, given that the garbage qubits match (which they do if they match in the circuits the manager was given). -/
def RPPrepared.setting {lib : Library} {c1 c2 : Circ WOp} {cfg : Configuration} {d : ℝ} {small : Prop} (Q : RPPrepared lib c1 c2 cfg d small)
    (hg : Q.S.SameGarbage) : InexactPartial Q.M.qc1.ndata Q.n := { Q.S with G := Q.G, roundG := Q.roundG, garbage := hg }

/-- As `PManagerRun`, with a package that rounds.  `d` bounds the drift of the matrix checkers on the prepared circuits; if `small` holds, the errors
are within what partially equivalent circuits are allowed. -/
inductive RPManagerRun (lib : Library) (c1 c2 : Circ WOp) (cfg : Configuration) (setters : List Param.Setter) (d : ℝ) (small : Prop) (v : Criterion) : Prop
  | mk (Q : RPPrepared lib c1 c2 cfg d small)
      (hrun : ∀ hg : Q.S.SameGarbage, Runs (PRAnswer (Q.setting hg) false) (afterSetters Q.M.cfg setters) (Q.M.qc1.ops = [] ∧ Q.M.qc2.ops = []) v) :
      RPManagerRun lib c1 c2 cfg setters d small v

/-- As `RPManagerRun`, but nobody interrupts the checkers. -/
inductive RPCalmManagerRun (lib : Library) (c1 c2 : Circ WOp) (cfg : Configuration) (setters : List Param.Setter) (d : ℝ) (small : Prop) (v : Criterion) : Prop
  | mk (Q : RPPrepared lib c1 c2 cfg d small)
      (hrun : ∀ hg : Q.S.SameGarbage, CalmRuns (PRAnswer (Q.setting hg)) (afterSetters Q.M.cfg setters) (Q.M.qc1.ops = [] ∧ Q.M.qc2.ops = []) v) :
      RPCalmManagerRun lib c1 c2 cfg setters d small v

/-- The alternating checker is used although each of the prepared circuits does something with, or reads out elsewhere, a qubit that is ancillary in both. -/
def CommonAncillasUsed (lib : Library) (c1 c2 : Circ WOp) (cfg : Configuration) (setters : List Param.Setter) : Prop :=
  ∃ M, PassesFaithful lib.passes cfg ∧ Prep.construct lib.acts lib.passes cfg c1 c2 = .made M ∧ Enabled (afterSetters M.cfg setters) .alternating ∧
    (∃ q < M.qc1.nqubits, M.qc1.isAncillary q = true ∧ M.qc2.isAncillary q = true ∧ ¬ Keeps M.qc1 q) ∧
    (∃ q < M.qc1.nqubits, M.qc1.isAncillary q = true ∧ M.qc2.isAncillary q = true ∧ ¬ Keeps M.qc2 q)

/-- What a verdict means.  A positive one says that no event that can be seen on the measured qubits differs in its probability by more than four drifts,
`NotEquivalent` (if the errors are small) that the circuits are not partially equivalent. -/
structure RPVerdict (lib : Library) (c1 c2 : Circ WOp) (cfg : Configuration) (setters : List Param.Setter) (d : ℝ) (small : Prop) (v : Criterion) : Prop where
  positive : v = .equivalent ∨ v = .equivalentUpToGlobalPhase → PartiallyNear (Fixed c1 c2) (4 * d) c1 c2 ∨ ConstructionUsed lib c1 c2 cfg setters ∨
    Displaced lib c1 c2 cfg setters .zx
  negative : v = .notEquivalent → small → ¬ PartiallyOn (FixedInBoth c1 c2) c1 c2 ∨ ConstructionUsed lib c1 c2 cfg setters ∨
    CommonAncillasUsed lib c1 c2 cfg setters ∨ Displaced lib c1 c2 cfg setters .simulation
  never : v = .equivalentUpToPhase → ConstructionUsed lib c1 c2 cfg setters

/-- The managers are those of QCEC with a package that rounds and partial equivalence switched on; `d` and `small` for every call. -/
def RPRealises (lib : Library) (imp : Param.Subject → Option (Circ WOp)) (w : Param.World) (d : ℝ) (small : Prop) : Prop :=
  ∀ k cfg setters s1 s2 res c1 c2, cfg.functionality.checkPartialEquivalence = true → imp s1 = some c1 → imp s2 = some c2 →
    w.manager k cfg setters s1 s2 = .ok res → RPManagerRun lib c1 c2 cfg setters d small res.equivalence

/-- The same, and nobody interrupts the checkers. -/
def RPCalmRealises (lib : Library) (imp : Param.Subject → Option (Circ WOp)) (w : Param.World) (d : ℝ) (small : Prop) : Prop :=
  ∀ k cfg setters s1 s2 res c1 c2, cfg.functionality.checkPartialEquivalence = true → imp s1 = some c1 → imp s2 = some c2 →
    w.manager k cfg setters s1 s2 = .ok res → RPCalmManagerRun lib c1 c2 cfg setters d small res.equivalence

end QCEC.Spec
