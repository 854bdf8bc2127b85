import Verif.Spec.Wide
/-!
# Specification: what a compiler does to a circuit

A compiled circuit runs on a device with more qubits.  At every moment each qubit of the original circuit sits on some qubit of the device (`loc`); the
compiler inserts SWAPs to move them around and replaces gates by sequences of device operations with the same effect.  Independent of the checkers and of the
preparation of the circuits.
-/
namespace QCEC.Spec.Wide
open QCEC QCEC.Prep

/-- The operation with the qubits it names renamed. -/
def WSOp.placed (loc : Nat → Nat) : WSOp → WSOp
  | .gate g => .gate { g with targets := loc ∘ g.targets, controls := g.controls.map fun c => (loc c.1, c.2) }
  | .swap a b => .swap (loc a) (loc b)
  | .barrier qs => .barrier (qs.map loc)

/-- The state after a sequence of elementary operations. -/
noncomputable def effect (l : List WSOp) (w : Bits → ℂ) : Bits → ℂ := l.foldl (fun w s => s.run w) w

/-- The qubits of the device on which none of the `n` qubits of the original circuit sits are `|0⟩`. -/
def OthersZero (n : Nat) (device : Nat → Prop) (loc : Nat → Nat) (w : Bits → ℂ) : Prop :=
  ∀ z, w z ≠ 0 → ∀ p, device p → (∀ q, q < n → loc q ≠ p) → z p = false

/-- `Routes n device loc l l' loc'`: the device operations `l'` carry out the operations `l` of the original circuit, if its qubits are at `loc`, and leave them
at `loc'`. -/
inductive Routes (n : Nat) (device : Nat → Prop) : (Nat → Nat) → List WSOp → List WSOp → (Nat → Nat) → Prop
  | done (loc : Nat → Nat) : Routes n device loc [] [] loc
  | swap (a b : Nat) (ha : device a) (hb : device b) {loc loc' : Nat → Nat} {l l' : List WSOp} (h : Routes n device (Equiv.swap a b ∘ loc) l l' loc') :
      Routes n device loc l (.swap a b :: l') loc'
  | replace (gates block : List WSOp) {loc loc' : Nat → Nat} {l l' : List WSOp}
      (hb : ∀ w, OthersZero n device loc w → effect block w = effect (gates.map (WSOp.placed loc)) w) (h : Routes n device loc l l' loc') :
      Routes n device loc (gates ++ l) (block ++ l') loc'

/-- `compiled` is a compilation of `c`: the qubits of `c` carry their own numbers and all are read out; the compiled circuit's layout says where they are in
the beginning, its operations carry out those of `c`, and it reads out what `c` reads out where it is in the end.  The other qubits of the device may be read
out under any of the remaining labels, or not at all.  No qubit of `c` is ancillary. -/
structure Compiled (c compiled : Circ WOp) : Prop where
  own : ∀ q, q < c.nqubits → (q, q) ∈ c.initialLayout
  readOut : ∀ q, q < c.nqubits → ∃ l, (q, l) ∈ c.outputPermutation
  data : ∀ q, q < c.nqubits → c.isAncillary q = false ∧ compiled.isAncillary q = false
  wide : c.nqubits ≤ compiled.nqubits
  routed : ∃ loc loc' : Nat → Nat, (∀ q, q < c.nqubits → (loc q, q) ∈ compiled.initialLayout) ∧
    Routes c.nqubits (fun p => ∃ q, (p, q) ∈ compiled.initialLayout) loc (c.ops.flatMap WOp.parts) (compiled.ops.flatMap WOp.parts) loc' ∧
    ∀ q l, (q, l) ∈ c.outputPermutation → (loc' q, l) ∈ compiled.outputPermutation

end QCEC.Spec.Wide
