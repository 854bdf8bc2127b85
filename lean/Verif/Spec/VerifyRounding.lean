import Verif.Spec.EndToEndRounding
import Verif.Spec.VerifyDecides
import Verif.Spec.WidePartial
/-!
# Specification: what `verify` says about the user's circuits although the decision-diagram package rounds

As `Spec/VerifyEndToEnd.lean`, with the inexact package of `Spec/EndToEndRounding.lean`.  Distances of states are measured on the qubits the circuits
have; the other qubits of the unlimited register are not touched and keep their values.
-/
namespace QCEC.Spec.Wide
open QCEC QCEC.Prep

/-- The norm of the part of the state in which the qubits from `N` on are as in `z`. -/
noncomputable def size (N : Nat) (w : Bits → ℂ) (z : Bits) : ℝ := Real.sqrt (∑ y : Fin N → Bool, ‖w (fill y z)‖ ^ 2)

/-- On every input in which the qubits in `F` are `|0⟩` the outputs of the circuits differ by at most `e`, relative to the input, after removing the
factor `k`. -/
def Within (F : Nat → Prop) (e : ℝ) (k : ℂ) (c1 c2 : Circ WOp) : Prop := ∀ v, Zero F v → ∀ z,
  size (max c1.nqubits c2.nqubits) (fun x => output c1 v x - k * output c2 v x) z ≤ e * size (max c1.nqubits c2.nqubits) v z

end QCEC.Spec.Wide

namespace QCEC.Spec
open QCEC QCEC.Mgr QCEC.Prep QCEC.Spec.Wide QCEC.Sem QCEC.Props

/-- As `Mistakable`, for a package that is wrong by up to `e`: the beginnings do the same up to `e` and a factor, on inputs in which the common ancillary
qubits are `|0⟩`. -/
def NearlyMistakable (e : ℝ) (c1 c2 : Circ WOp) : Prop :=
  ∃ p1 p2 o r1 r2, c1.ops = p1 ++ o :: r1 ∧ c2.ops = p2 ++ o :: r2 ∧ isSwap o = false ∧
    (∃ k : ℂ, Within (fun q => c1.isAncillary q = true ∧ c2.isAncillary q = true) e k (upTo c1 p1) (upTo c2 p2)) ∧
    (HidesSwap o ∨ ∃ p, Uses o p ∧ labelAfter c1 p1 p ≠ labelAfter c2 p2 p)

/-- As `Misled`, for a package that is wrong by up to `d`. -/
def NearlyMisled (lib : Library) (c1 c2 : Circ WOp) (cfg : Configuration) (setters : List Param.Setter) (d : ℝ) : Prop :=
  ∃ M, (∀ p ∈ planned cfg.optimizations true, Faithful lib.passes p) ∧ Prep.construct lib.acts lib.passes cfg c1 c2 = .made M ∧
    Enabled (afterSetters M.cfg setters) .alternating ∧
    (M.cfg.application.alternatingScheme ≠ .lookahead ∧
        (d < 1 / 2 → ∀ q < M.qc1.nqubits, ¬ (M.qc1.isAncillary q = true ∧ M.qc2.isAncillary q = true)) ∧ NearlyMistakable d M.qc1 M.qc2 ∨
     (M.cfg.application.alternatingScheme = .lookahead ∧ ∃ o, (o ∈ M.qc1.ops ∨ o ∈ M.qc2.ops) ∧ HidesSwap o) ∨ Misread M.qc1 M.qc2)

/-- As `ManagerRun`, with a package that rounds.  `d` bounds the drift of the matrix checkers on the prepared circuits; if `small` holds, the errors
are within what equivalent circuits are allowed. -/
inductive RManagerRun (lib : Library) (c1 c2 : Circ WOp) (cfg : Configuration) (setters : List Param.Setter) (d : ℝ) (small : Prop) (v : Criterion) : Prop
  | mk (hP : ∀ p ∈ planned cfg.optimizations true, Faithful lib.passes p)
      (M : Made WOp) (h : Prep.construct lib.acts lib.passes cfg c1 c2 = .made M) (m n : Nat) (hd : M.qc1.ndata = m) (S : Inexact m n) (e1 e2 : Nat → Fin n)
      (hn1 : Numbered e1 M.qc1 S.qc1) (hn2 : Numbered e2 M.qc2 S.qc2) (drift : S.drift ≤ d) (budget : small → S.Budget)
      (hsch : S.schA.Cancels ↔ M.cfg.application.alternatingScheme ≠ .lookahead)
      (hop : ∀ a ∈ M.qc1.ops, ∀ b ∈ M.qc2.ops, S.opEq (a.on e1) (b.on e2) = true → a = b)
      (hrun : Runs (RAnswer S false) (afterSetters M.cfg setters) (M.qc1.ops = [] ∧ M.qc2.ops = []) v) : RManagerRun lib c1 c2 cfg setters d small v

/-- As `RManagerRun`, but nobody interrupts the checkers. -/
inductive RCalmManagerRun (lib : Library) (c1 c2 : Circ WOp) (cfg : Configuration) (setters : List Param.Setter) (d : ℝ) (small : Prop) (v : Criterion) : Prop
  | mk (hP : ∀ p ∈ planned cfg.optimizations true, Faithful lib.passes p)
      (M : Made WOp) (h : Prep.construct lib.acts lib.passes cfg c1 c2 = .made M) (m n : Nat) (hd : M.qc1.ndata = m) (S : Inexact m n) (e1 e2 : Nat → Fin n)
      (hn1 : Numbered e1 M.qc1 S.qc1) (hn2 : Numbered e2 M.qc2 S.qc2) (drift : S.drift ≤ d) (budget : small → S.Budget)
      (hsch : S.schA.Cancels ↔ M.cfg.application.alternatingScheme ≠ .lookahead)
      (hop : ∀ a ∈ M.qc1.ops, ∀ b ∈ M.qc2.ops, S.opEq (a.on e1) (b.on e2) = true → a = b)
      (hrun : CalmRuns (RAnswer S) (afterSetters M.cfg setters) (M.qc1.ops = [] ∧ M.qc2.ops = []) v) : RCalmManagerRun lib c1 c2 cfg setters d small v

/-- The construction checker is used: it is enabled, or replaces the alternating checker. -/
def ConstructionRuns (lib : Library) (c1 c2 : Circ WOp) (cfg : Configuration) (setters : List Param.Setter) : Prop :=
  ∃ M, (∀ p ∈ planned cfg.optimizations true, Faithful lib.passes p) ∧
    Prep.construct lib.acts lib.passes cfg c1 c2 = .made M ∧ Enabled (afterSetters M.cfg setters) .construction

/-- What a verdict means.  A positive verdict says that the outputs of the circuits differ by at most eight times the drift, up to a factor of modulus
close to one; without the construction checker the factor is one if the verdict is `Equivalent`, and if the errors are small
`EquivalentUpToGlobalPhase` is not reported for equivalent circuits and `NotEquivalent` not for circuits that are equivalent up to a global phase. -/
structure RVerdict (lib : Library) (c1 c2 : Circ WOp) (cfg : Configuration) (setters : List Param.Setter) (d : ℝ) (small : Prop) (v : Criterion) : Prop where
  positive : v = .equivalent ∨ v = .equivalentUpToGlobalPhase → d ≤ 1 / 10 →
    (∃ k : ℂ, |‖k‖ - 1| ≤ 8 * d ∧ Within (Fixed c1 c2) (8 * d) k c1 c2) ∨ Displaced lib c1 c2 cfg setters .zx
  equivalent : v = .equivalent → d ≤ 1 / 10 →
    Within (Fixed c1 c2) (8 * d) 1 c1 c2 ∨ ConstructionRuns lib c1 c2 cfg setters ∨ Displaced lib c1 c2 cfg setters .zx
  phase : v = .equivalentUpToGlobalPhase → small → ¬ EqualOn (FixedInBoth c1 c2) 1 c1 c2 ∨ ConstructionRuns lib c1 c2 cfg setters ∨
    Displaced lib c1 c2 cfg setters .simulation ∨ Displaced lib c1 c2 cfg setters .zx
  notEquivalent : v = .notEquivalent → small → (¬ ∃ k : ℂ, ‖k‖ = 1 ∧ EqualOn (FixedInBoth c1 c2) k c1 c2) ∨ ConstructionRuns lib c1 c2 cfg setters ∨
    Displaced lib c1 c2 cfg setters .simulation ∨ Displaced lib c1 c2 cfg setters .zx
  never : v ≠ .equivalentUpToPhase

/-- The managers are those of QCEC with a package that rounds; `d` and `small` for every call. -/
def RRealises (lib : Library) (imp : Param.Subject → Option (Circ WOp)) (w : Param.World) (d : ℝ) (small : Prop) : Prop :=
  ∀ k cfg setters s1 s2 res c1 c2, cfg.functionality.checkPartialEquivalence = false → imp s1 = some c1 → imp s2 = some c2 →
    w.manager k cfg setters s1 s2 = .ok res → RManagerRun lib c1 c2 cfg setters d small res.equivalence

/-- The same, and nobody interrupts the checkers. -/
def RCalmRealises (lib : Library) (imp : Param.Subject → Option (Circ WOp)) (w : Param.World) (d : ℝ) (small : Prop) : Prop :=
  ∀ k cfg setters s1 s2 res c1 c2, cfg.functionality.checkPartialEquivalence = false → imp s1 = some c1 → imp s2 = some c2 →
    w.manager k cfg setters s1 s2 = .ok res → RCalmManagerRun lib c1 c2 cfg setters d small res.equivalence

end QCEC.Spec
