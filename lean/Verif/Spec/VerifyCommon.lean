import Verif.Spec.PythonVerify
/-!
# Specification: deciding the equivalence of circuits that declare any qubits as ancillary
-/
namespace QCEC.Spec
open QCEC QCEC.Mgr QCEC.Prep QCEC.Spec.Wide

/-- The circuits do the same, exactly, on every input in which all qubits are `|0⟩` that are ancillary in both or missing in one of
them (`FixedInBoth`). -/
def EqualCommon (c1 c2 : Circ WOp) : Prop := EqualOn (FixedInBoth c1 c2) 1 c1 c2

/-- The same up to a global phase. -/
def EqualCommonUpToPhase (c1 c2 : Circ WOp) : Prop := ∃ k : ℂ, ‖k‖ = 1 ∧ EqualOn (FixedInBoth c1 c2) k c1 c2

/-- What a verdict says about these inputs. -/
structure TrueCommon (c1 c2 : Circ WOp) (v : Criterion) : Prop where
  equivalent : v = .equivalent → EqualCommon c1 c2
  phase : v = .equivalentUpToGlobalPhase → EqualCommonUpToPhase c1 c2 ∧ ¬ EqualCommon c1 c2
  notEquivalent : v = .notEquivalent → ¬ EqualCommonUpToPhase c1 c2
  never : v ≠ .equivalentUpToPhase

/-- The verdict decides whether the circuits do the same whenever the qubits that are ancillary in both are `|0⟩`. -/
structure DecidedCommon (c1 c2 : Circ WOp) (v : Criterion) : Prop where
  equivalent : v = .equivalent ↔ EqualCommon c1 c2
  phase : v = .equivalentUpToGlobalPhase ↔ EqualCommonUpToPhase c1 c2 ∧ ¬ EqualCommon c1 c2
  notEquivalent : v = .notEquivalent ↔ ¬ EqualCommonUpToPhase c1 c2

/-- Circuits that declare different qubits as ancillary are given to the ZX checker, which fixes as many of the last qubits of both as the first one has
ancillary qubits. -/
def ZXMixed (c1 c2 : Circ WOp) (cfg : Configuration) : Prop := Enabled cfg .zx ∧ ¬ SameAncillas c1 c2

/-- A checker is used that treats the ancillary qubits of these circuits differently from the alternating checker: construction or ZX-calculus although they
declare different ones, or simulation or ZX-calculus although they are not the last ones of the first circuit. -/
def OtherwiseTreated (lib : Library) (c1 c2 : Circ WOp) (cfg : Configuration) : Prop :=
  ConstructionMixed lib c1 c2 cfg [] ∨ ZXMixed c1 c2 cfg ∨ Displaced lib c1 c2 cfg [] .simulation ∨ Displaced lib c1 c2 cfg [] .zx

/-- The cases in which a call that nobody interrupts does not decide this. -/
def ExcusedCommon (lib : Library) (c1 c2 : Circ WOp) (cfg : Configuration) (v : Criterion) : Prop := Py.Excused lib c1 c2 cfg v ∨ OtherwiseTreated lib c1 c2 cfg

end QCEC.Spec
