import Verif.Spec.VerifyEndToEnd
import Verif.Spec.WidePartial
import Verif.Spec.EndToEndPartial
/-!
# Specification: a manager with `check_partial_equivalence`
-/
namespace QCEC.Spec
open QCEC QCEC.Mgr QCEC.Prep QCEC.Spec.Wide QCEC.Sem QCEC.Props

/-- The passes enabled by the configuration keep outputs, width, ancillary and garbage qubits, and the wires that are read out. -/
def PassesFaithful (P : Passes (Circ WOp)) (cfg : Configuration) : Prop := ∀ p ∈ planned cfg.optimizations true, Faithful P p ∧ KeepsGarbage P p

/-- A manager is constructed for two circuits, setters are called, and it is run; `v` is the verdict.  The checkers answer what they compute with
partial equivalence switched on. -/
inductive PManagerRun (lib : Library) (c1 c2 : Circ WOp) (cfg : Configuration) (setters : List Param.Setter) (v : Criterion) : Prop
  | mk (hP : PassesFaithful lib.passes cfg)
      (M : Made WOp) (h : Prep.construct lib.acts lib.passes cfg c1 c2 = .made M) (m n : Nat) (hd : M.qc1.ndata = m) (S : PBase m n) (e1 e2 : Nat → Fin n)
      (hn1 : Numbered e1 M.qc1 S.qc1) (hn2 : Numbered e2 M.qc2 S.qc2)
      (hsch : Follows S.toMixed M.cfg) (hop : ∀ a ∈ M.qc1.ops, ∀ b ∈ M.qc2.ops, S.opEq (a.on e1) (b.on e2) = true → a = b)
      (hrun : Runs (PAnswer S false) (afterSetters M.cfg setters) (M.qc1.ops = [] ∧ M.qc2.ops = []) v) : PManagerRun lib c1 c2 cfg setters v

/-- The construction checker may be used: it is enabled, or replaces the alternating checker. -/
def ConstructionUsed (lib : Library) (c1 c2 : Circ WOp) (cfg : Configuration) (setters : List Param.Setter) : Prop :=
  ∃ M, PassesFaithful lib.passes cfg ∧ Prep.construct lib.acts lib.passes cfg c1 c2 = .made M ∧ Enabled (afterSetters M.cfg setters) .construction

/-- The alternating checker may be used although both prepared circuits act on qubits that are ancillary in both. -/
def AncillasOnBothSides (lib : Library) (c1 c2 : Circ WOp) (cfg : Configuration) (setters : List Param.Setter) : Prop :=
  ∃ M, PassesFaithful lib.passes cfg ∧ Prep.construct lib.acts lib.passes cfg c1 c2 = .made M ∧ Enabled (afterSetters M.cfg setters) .alternating ∧
    ∃ (m n : Nat) (S : PBase m n) (e1 e2 : Nat → Fin n), Numbered e1 M.qc1 S.qc1 ∧ Numbered e2 M.qc2 S.qc2 ∧ ¬ S.OneIdle

/-- No qubit is declared ancillary in both circuits (e.g. none at all). -/
def NoCommonAncilla (c1 c2 : Circ WOp) : Prop := ∀ q, q < c1.nqubits → q < c2.nqubits → ¬ (c1.isAncillary q = true ∧ c2.isAncillary q = true)

/-- The managers are those of QCEC, with partial equivalence switched on. -/
def PRealises (lib : Library) (imp : Param.Subject → Option (Circ WOp)) (w : Param.World) : Prop :=
  ∀ k cfg setters s1 s2 res c1 c2, cfg.functionality.checkPartialEquivalence = true → imp s1 = some c1 → imp s2 = some c2 →
    w.manager k cfg setters s1 s2 = .ok res → PManagerRun lib c1 c2 cfg setters res.equivalence

/-- What a verdict means for two circuits whose garbage qubits are not measured and that may declare any qubits as ancillary, also different ones.
Positive verdicts speak about the inputs in which all qubits are `|0⟩` that are ancillary in one of the circuits (or are missing in one), `NotEquivalent`
about those in which the qubits ancillary in both are. -/
structure PartialVerdict (lib : Library) (c1 c2 : Circ WOp) (cfg : Configuration) (setters : List Param.Setter) (v : Criterion) : Prop where
  negative : v = .notEquivalent → ¬ PartiallyOn (FixedInBoth c1 c2) c1 c2 ∨ AncillasOnBothSides lib c1 c2 cfg setters ∨ ConstructionMixed lib c1 c2 cfg setters ∨
    Displaced lib c1 c2 cfg setters .simulation
  basis : v = .equivalent ∨ v = .equivalentUpToGlobalPhase → EqualOnBasis c1 c2 ∨ ConstructionMixed lib c1 c2 cfg setters ∨ Displaced lib c1 c2 cfg setters .zx
  positive : v = .equivalent ∨ v = .equivalentUpToGlobalPhase → PartiallyEqual c1 c2 ∨ ConstructionUsed lib c1 c2 cfg setters ∨
    Displaced lib c1 c2 cfg setters .zx
  never : v ≠ .equivalentUpToPhase

end QCEC.Spec
