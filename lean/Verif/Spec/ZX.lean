import Verif.Model.ZX
import Verif.Spec.Functionality
import Mathlib.Analysis.SpecialFunctions.Sqrt
/-!
# Specification: what a graph-like ZX diagram means, and what the final test of the ZX checker sees of it

Independent of the checker.  A graph-like diagram consists of inputs, outputs and Z spiders with phases, joined by plain or Hadamard
edges.  Its matrix is a sum over all assignments of bits to the spiders; every spider contributes its phase factor where its bit is 1,
a plain edge forces equal bits, a Hadamard edge contributes `(-1)^{ab}/√2`.
-/
namespace QCEC.Spec.ZX
open QCEC QCEC.Sem QCEC.Prep QCEC.ZX

/-- Vertices: inputs, outputs, spiders. -/
inductive Vertex (m : Nat) (V : Type)
  | inp (i : Fin m)
  | out (i : Fin m)
  | mid (v : V)

/-- A graph-like ZX diagram with `m` inputs and `m` outputs. -/
structure Graph (m : Nat) where
  V : Type
  [finV : Fintype V]
  [decV : DecidableEq V]
  E : Type
  [finE : Fintype E]
  ends : E → Bool → Vertex m V
  hadamard : E → Bool
  /-- `e^{iα}` for a spider of phase `α` -/
  phase : V → ℂ

attribute [instance] Graph.finV Graph.decV Graph.finE

/-- Factor of an edge between bits `a` and `b`. -/
noncomputable def edgeFactor (h a b : Bool) : ℂ :=
  if h then (if a && b then -1 else 1) / (Real.sqrt 2 : ℂ) else if a = b then 1 else 0

/-- Bit of a vertex. -/
def Vertex.bit {m : Nat} {V : Type} (y x : Basis m) (z : V → Bool) : Vertex m V → Bool
  | .inp i => x i
  | .out i => y i
  | .mid v => z v

/-- Matrix of a diagram: rows are outputs, columns inputs. -/
noncomputable def Graph.matrix {m : Nat} (g : Graph m) : Mat m := fun y x =>
  ∑ z : g.V → Bool, (∏ v, if z v then g.phase v else 1) * ∏ e, edgeFactor (g.hadamard e) ((g.ends e false).bit y x z) ((g.ends e true).bit y x z)

/-- The diagram is complete: every input and output is connected, and no spider is left without an edge. -/
structure Graph.Tidy {m : Nat} (g : Graph m) : Prop where
  input : ∀ i, ∃ e s, g.ends e s = .inp i
  output : ∀ i, ∃ e s, g.ends e s = .out i
  spider : ∀ v, ∃ e s, g.ends e s = .mid v

/-- What the final test sees of the diagram `g`, whose inputs and outputs carry the qubit numbers `inLabel`, `outLabel`:
`getNEdges()`, `getNQubits()` and for every input one edge, its type and the qubit number at its other end. -/
structure Sees {m : Nat} (M : Miter) (g : Graph m) (inLabel outLabel : Fin m → Nat) : Prop where
  edges : M.nEdges = Fintype.card g.E
  qubits : M.nQubits = m
  wire : ∀ i : Fin m, ∃ e s, g.ends e s = .inp i ∧ (M.wire i.val).hadamard = g.hadamard e ∧ (M.wire i.val).inQubit = inLabel i ∧
    (∀ j, g.ends e (!s) = .inp j → (M.wire i.val).outQubit = inLabel j) ∧ (∀ j, g.ends e (!s) = .out j → (M.wire i.val).outQubit = outLabel j)

/-- The layouts of the circuit `c` are the permutations `ι` and `ω` of the physical qubits `0 .. n-1`. -/
structure Represents {α : Type} {n : Nat} (c : Circ α) (ι ω : Equiv.Perm (Fin n)) : Prop where
  size : c.nqubits = n
  initKeys : (c.initialLayout.map Prod.fst).Pairwise (· < ·)
  init : ∀ p q, (p, q) ∈ c.initialLayout ↔ ∃ i : Fin n, p = i.val ∧ q = (ι i).val
  outKeys : (c.outputPermutation.map Prod.fst).Pairwise (· < ·)
  out : ∀ p q, (p, q) ∈ c.outputPermutation ↔ ∃ i : Fin n, p = i.val ∧ q = (ω i).val

/-- A basis state of the wires `e 0 .. e (m-1)`, all other wires 0. -/
noncomputable def embed {m n : Nat} (e : Fin m → Fin n) (x : Basis m) : Basis n := Function.extend e x (fun _ => false)

/-- The wire on which the diagram of a circuit ends with logical qubit `q` (wires carry the initial logical labels). -/
def wireOf {n : Nat} (qc : QC n) (ω : Equiv.Perm (Fin n)) : Equiv.Perm (Fin n) := qc.initialLayout * ω⁻¹

/-- Matrix of the diagram `buildFunctionality` makes of a circuit: wires carry the initial logical labels at both ends. -/
noncomputable def wireMatrix {n : Nat} (qc : QC n) : Mat n := fun y x => output qc qc.initialLayout (Pi.single x 1) y

/-- That diagram with the inputs `m .. n-1` plugged with `|0⟩` and only the outputs `outs` kept, the others plugged with `⟨0|`. -/
noncomputable def plugged {m n : Nat} (h : m ≤ n) (qc : QC n) (outs : Fin m → Fin n) : Mat m := fun y x =>
  wireMatrix qc (embed outs y) (embed (Fin.castLE h) x)

/-- Flags of the ancillary qubits: the last `n - m`. -/
def flags (m n : Nat) : List Bool := List.replicate m false ++ List.replicate (n - m) true

/-- The circuit returns its ancillary qubits to `|0⟩`. -/
def Clean {n : Nat} (anc : List Bool) (qc : QC n) (ω : Equiv.Perm (Fin n)) : Prop :=
  ∀ v, AncillasZero anc v → AncillasZero anc (output qc ω v)

end QCEC.Spec.ZX
