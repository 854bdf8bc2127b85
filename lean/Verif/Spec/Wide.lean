import Verif.Spec.Prepare
import Verif.Spec.Functionality
import Mathlib.Logic.Function.Basic
/-!
# Specification: what circuits of any width do

The preparation of the circuits removes and adds qubits, so circuits of different widths have to be compared.  Here a basis state assigns a
bit to *every* number, and a circuit is run on a state of that unlimited register.  Physical qubits are the numbers the operations name;
logical qubits are the numbers the layouts name.  A logical qubit that a circuit does not have passes through it unchanged.

Independent of the preparation and of the checkers.
-/
namespace QCEC.Spec.Wide
open QCEC QCEC.Prep QCEC.Sem

/-- A basis state. -/
abbrev Bits := Nat → Bool

/-- A (controlled) gate on numbered qubits. -/
structure WGate where
  k : Nat
  u : Matrix (Fin k → Bool) (Fin k → Bool) ℂ
  targets : Fin k → Nat
  controls : List (Nat × Bool)
  swapType : Bool := false

/-- Elementary operations. -/
inductive WSOp
  | gate (g : WGate)
  | swap (a b : Nat)
  | barrier (qs : List Nat)

/-- Operations: elementary ones and compound operations. -/
inductive WOp
  | simple (s : WSOp)
  | compound (l : List WSOp)

/-- The state after an elementary operation.  A gate acts with `u` on its targets where all controls are satisfied: the new amplitude of `x`
is the sum of the old amplitudes of all basis states that differ from `x` at the targets only, weighted with the entries of `u`. -/
noncomputable def WSOp.run : WSOp → (Bits → ℂ) → (Bits → ℂ)
  | .gate g, w => fun x =>
      if ∀ c ∈ g.controls, x c.1 = c.2 then ∑ y, g.u (x ∘ g.targets) y * w (Function.extend g.targets y x) else w x
  | .swap a b, w => fun x => w (x ∘ Equiv.swap a b)
  | .barrier _, w => w

/-- The elementary operations an operation consists of. -/
def WOp.parts : WOp → List WSOp
  | .simple s => [s]
  | .compound l => l

/-- The state after a sequence of operations. -/
noncomputable def run (ops : List WOp) (w : Bits → ℂ) : Bits → ℂ :=
  (ops.flatMap WOp.parts).foldl (fun w s => s.run w) w

/-- The elementary operation names the physical qubit. -/
def WSOp.Names (p : Nat) : WSOp → Prop
  | .gate g => (∃ i, g.targets i = p) ∨ ∃ b, (p, b) ∈ g.controls
  | .swap a b => a = p ∨ b = p
  | .barrier qs => p ∈ qs

/-- The operation names the physical qubit. -/
def WOp.Names (p : Nat) (o : WOp) : Prop := ∃ s ∈ o.parts, s.Names p

/-- The operation is a proper one: distinct targets, no target is a control, the matrix is unitary. -/
def WSOp.Proper : WSOp → Prop
  | .gate g => Function.Injective g.targets ∧ (∀ c ∈ g.controls, ∀ i, g.targets i ≠ c.1) ∧ g.u * g.u.conjTranspose = 1
  | .swap _ _ => True
  | .barrier _ => True

/-- `acts` tells every qubit an operation names (mqt-core's `Operation::actsOn`). -/
def Reliable (acts : WOp → Nat → Bool) : Prop := ∀ o p, acts o p = false → ¬ o.Names p

/-- A circuit that can be run: its operations are proper and name physical qubits of its layout only, and only such qubits are read out. -/
structure Runnable (c : Circ WOp) : Prop where
  ok : CircOk c
  proper : ∀ o ∈ c.ops, ∀ s ∈ o.parts, s.Proper
  inside : ∀ o ∈ c.ops, ∀ p, o.Names p → ∃ q, (p, q) ∈ c.initialLayout
  outInside : ∀ p q, (p, q) ∈ c.outputPermutation → ∃ q', (p, q') ∈ c.initialLayout

/-- The physical qubit that carries logical qubit `q` at the beginning. -/
def carrier (c : Circ WOp) (q : Nat) : Nat := (c.initialLayout.keyOf q).getD 0

/-- The logical qubit on physical qubit `p` at the beginning; physical qubits without one get labels that are not in use. -/
def startLabel (c : Circ WOp) (p : Nat) : Nat := (c.initialLayout.get p).getD (c.nqubits + p)

/-- Labels follow uncontrolled SWAPs. -/
def WSOp.moved (σ : Nat → Nat) : WSOp → (Nat → Nat)
  | .swap a b => σ ∘ Equiv.swap a b
  | _ => σ

/-- For every entry `(p, q)` of the output permutation `p` gets the label `q`, and in exchange the qubit labelled `q` gets the former label of
`p`. -/
def settled (out : Layout) (σ : Nat → Nat) : Nat → Nat := out.foldl (fun σ e => Equiv.swap (σ e.1) e.2 ∘ σ) σ

/-- The labels under which the physical qubits are read out. -/
def endLabel (c : Circ WOp) : Nat → Nat :=
  settled c.outputPermutation ((c.ops.flatMap WOp.parts).foldl WSOp.moved (startLabel c))

open Classical in
/-- The amplitude of `x` in the logical output state of the circuit for the logical input state `v`: logical qubits that the layout knows are
loaded onto their physical qubits, the operations are run, and physical qubits are read out under their labels; other logical qubits pass
through. -/
noncomputable def output (c : Circ WOp) (v : Bits → ℂ) (x : Bits) : ℂ :=
  run c.ops (fun z => v fun q => if ∃ p, (p, q) ∈ c.initialLayout then z (carrier c q) else x q) (x ∘ endLabel c)

/-- Logical qubits whose input is fixed to `|0⟩` when two circuits are compared: those one of the circuits does not have, and those marked as
ancillary. -/
def Fixed (c1 c2 : Circ WOp) (q : Nat) : Prop :=
  c1.nqubits ≤ q ∨ c2.nqubits ≤ q ∨ c1.isAncillary q = true ∨ c2.isAncillary q = true

/-- Only basis states in which all fixed qubits are 0 occur in the state. -/
def Zero (F : Nat → Prop) (v : Bits → ℂ) : Prop := ∀ x, v x ≠ 0 → ∀ q, F q → x q = false

/-- The circuits have the same output on every input whose fixed qubits are `|0⟩`, up to the factor `k`. -/
def EqualUpTo (k : ℂ) (c1 c2 : Circ WOp) : Prop := ∀ v, Zero (Fixed c1 c2) v → ∀ x, output c1 v x = k * output c2 v x

/-- As `EqualUpTo`, for the inputs in which the qubits in `F` are `|0⟩`. -/
def EqualOn (F : Nat → Prop) (k : ℂ) (c1 c2 : Circ WOp) : Prop := ∀ v, Zero F v → ∀ x, output c1 v x = k * output c2 v x

/-- Logical qubits one of the circuits does not have, and those marked as ancillary in both. -/
def FixedInBoth (c1 c2 : Circ WOp) (q : Nat) : Prop :=
  c1.nqubits ≤ q ∨ c2.nqubits ≤ q ∨ c1.isAncillary q = true ∧ c2.isAncillary q = true

/-- The circuits are equivalent. -/
def Equal (c1 c2 : Circ WOp) : Prop := EqualUpTo 1 c1 c2

/-- The circuits are equivalent up to a global phase. -/
def EqualUpToPhase (c1 c2 : Circ WOp) : Prop := ∃ k : ℂ, ‖k‖ = 1 ∧ EqualUpTo k c1 c2

/-- The pass changes no circuit's outputs, width or ancillary qubits. -/
def Faithful (P : Passes (Circ WOp)) (p : Pass) : Prop := ∀ c, Runnable c →
  Runnable (P.apply p c) ∧ (P.apply p c).nqubits = c.nqubits ∧ (∀ q, (P.apply p c).isAncillary q = c.isAncillary q) ∧
    ∀ v x, output (P.apply p c) v x = output c v x

/-- What a verdict must mean about two circuits. -/
structure VerdictTrue (c1 c2 : Circ WOp) (v : Criterion) : Prop where
  equivalent : v = .equivalent → Equal c1 c2
  phase : v = .equivalentUpToGlobalPhase → EqualUpToPhase c1 c2 ∧ ¬ Equal c1 c2
  notEquivalent : v = .notEquivalent → ¬ EqualUpToPhase c1 c2
  never : v ≠ .equivalentUpToPhase

/-- The verdict is the right one of the three definitive ones. -/
structure Decided (c1 c2 : Circ WOp) (v : Criterion) : Prop where
  equivalent : v = .equivalent ↔ Equal c1 c2
  phase : v = .equivalentUpToGlobalPhase ↔ EqualUpToPhase c1 c2 ∧ ¬ Equal c1 c2
  notEquivalent : v = .notEquivalent ↔ ¬ EqualUpToPhase c1 c2

/-! ## Circuits with numbered physical qubits

The decision diagrams of the checkers have one level per qubit; the physical qubits of a circuit may be any numbers (also larger ones than
the number of qubits, after idle qubits are gone).  `Numbered e c qc` says that `qc` is the circuit `c` with its physical qubits counted by
`e`. -/

/-- The gate with its qubits renamed. -/
def WGate.on {n : Nat} (e : Nat → Fin n) (g : WGate) : Gate n :=
  { k := g.k, u := g.u, targets := e ∘ g.targets, controls := g.controls.map fun c => (e c.1, c.2), swapType := g.swapType }

/-- The elementary operation with its qubits renamed. -/
def WSOp.on {n : Nat} (e : Nat → Fin n) : WSOp → SOp n
  | .gate g => .gate (g.on e)
  | .swap a b => .swap (e a) (e b)
  | .barrier _ => .barrier

/-- The operation with its qubits renamed. -/
def WOp.on {n : Nat} (e : Nat → Fin n) : WOp → Op n
  | .simple s => .simple (s.on e)
  | .compound l => .compound (l.map (WSOp.on e))

/-- `qc` is `c` with its physical qubits counted by `e`. -/
structure Numbered {n : Nat} (e : Nat → Fin n) (c : Circ WOp) (qc : QC n) : Prop where
  width : c.nqubits = n
  inj : ∀ p p' q q', (p, q) ∈ c.initialLayout → (p', q') ∈ c.initialLayout → e p = e p' → p = p'
  ops : qc.ops = c.ops.map (WOp.on e)
  initial : ∀ p q, (p, q) ∈ c.initialLayout → (qc.initialLayout (e p)).val = q
  output : qc.outputPermutation.map (fun t => (t.1, t.2.val)) = c.outputPermutation.map fun t => (e t.1, t.2)
  ancillary : ∀ q, q < n → qc.ancillary.getD q false = c.isAncillary q
  garbage : ∀ q, q < n → qc.garbage.getD q false = c.isGarbage q

end QCEC.Spec.Wide
