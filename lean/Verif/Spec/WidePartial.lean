import Verif.Spec.Wide
/-!
# Specification: partial equivalence of circuits of any width

As documented for `check_partial_equivalence` (`src/python/bindings.cpp:670-684`): for each input state, the same probability for each
measurement outcome; garbage qubits are not measured.  For circuits on the unlimited register of `Spec/Wide.lean`.
-/
namespace QCEC.Spec.Wide
open QCEC QCEC.Prep

/-- The wire on which logical qubit `q` starts is read out. -/
def Labelled (c : Circ WOp) (q : Nat) : Prop := ∃ p q', (p, q) ∈ c.initialLayout ∧ (p, q') ∈ c.outputPermutation

/-- The first circuit has the qubit and does not call it garbage.  Qubits the other circuit does not have count as garbage, too, if the wire on which they
start is not read out. -/
def Reads (c d : Circ WOp) (q : Nat) : Prop := q < c.nqubits ∧ c.isGarbage q = false ∧ (d.nqubits ≤ q → Labelled c q)

/-- The qubit is measured. -/
def Measured (c1 c2 : Circ WOp) (q : Nat) : Prop := Reads c1 c2 q ∨ Reads c2 c1 q

/-- The basis state that is `y` on the first `N` qubits and `x` on the others. -/
def fill {N : Nat} (y : Fin N → Bool) (x : Bits) : Bits := fun q => if h : q < N then y ⟨q, h⟩ else x q

open Classical in
/-- Probability that measuring the qubits in `M` gives the values they have in `k` (the qubits from `N` on, which no circuit has, are as in `k`). -/
noncomputable def probability (N : Nat) (M : Nat → Prop) (w : Bits → ℂ) (k : Bits) : ℝ :=
  ∑ y : Fin N → Bool, if ∀ q : Fin N, M q → y q = k q then ‖w (fill y k)‖ ^ 2 else 0

/-- The probability of the outcome `k` of the first circuit, for the input `v`, is that of the second. -/
def SameProbability (c1 c2 : Circ WOp) (v : Bits → ℂ) (k : Bits) : Prop :=
  probability (max c1.nqubits c2.nqubits) (Measured c1 c2) (output c1 v) k = probability (max c1.nqubits c2.nqubits) (Measured c1 c2) (output c2 v) k

/-- The circuits are partially equivalent on the inputs in which the qubits in `F` are `|0⟩`. -/
def PartiallyOn (F : Nat → Prop) (c1 c2 : Circ WOp) : Prop := ∀ v, Zero F v → ∀ k, SameProbability c1 c2 v k

/-- The circuits are partially equivalent. -/
def PartiallyEqual (c1 c2 : Circ WOp) : Prop := PartiallyOn (Fixed c1 c2) c1 c2

open Classical in
/-- The basis state `y`. -/
noncomputable def basisState (y : Bits) : Bits → ℂ := fun x => if x = y then 1 else 0

/-- The circuits have the same outcome probabilities on all basis states whose fixed qubits are 0. -/
def EqualOnBasis (c1 c2 : Circ WOp) : Prop := ∀ y : Bits, (∀ q, Fixed c1 c2 q → y q = false) → ∀ k, SameProbability c1 c2 (basisState y) k

/-- The pass also keeps the garbage qubits and the wires that are read out. -/
def KeepsGarbage (P : Passes (Circ WOp)) (p : Pass) : Prop := ∀ c, Runnable c → ∀ q,
  (P.apply p c).isGarbage q = c.isGarbage q ∧ (Labelled (P.apply p c) q ↔ Labelled c q)

/-- The circuits call the same qubits garbage, as far as they both have them. -/
def SameGarbage (c1 c2 : Circ WOp) : Prop := ∀ q, q < c1.nqubits → q < c2.nqubits → c1.isGarbage q = c2.isGarbage q

end QCEC.Spec.Wide
