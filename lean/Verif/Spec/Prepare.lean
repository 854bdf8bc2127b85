import Verif.Model.Prepare
/-!
# Specification: preparing the circuits

`(p, q) ∈ c.initialLayout` reads "physical qubit `p` carries logical qubit `q` at the beginning", `(p, q) ∈ c.outputPermutation`
reads "physical qubit `p` is read out as logical qubit `q`".
-/
namespace QCEC.Spec
open QCEC QCEC.Prep

variable {α : Type}

/-- The invariants `qc::QuantumComputation` keeps for a circuit: the initial layout is a bijection between some physical qubits and
the logical qubits `0 .. n-1`, the output permutation is injective and
mentions no garbage qubit, flags exist for every logical qubit and the number of ancillary
qubits is the number of flags set. -/
structure CircOk (c : Circ α) : Prop where
  keys : (c.initialLayout.map Prod.fst).Pairwise (· < ·)
  inj : (c.initialLayout.map Prod.snd).Nodup
  onto : ∀ q, (∃ p, (p, q) ∈ c.initialLayout) ↔ q < c.nqubits
  outKeys : (c.outputPermutation.map Prod.fst).Pairwise (· < ·)
  outInj : (c.outputPermutation.map Prod.snd).Nodup
  outRange : ∀ p q, (p, q) ∈ c.outputPermutation → q < c.nqubits
  outGarbage : ∀ p q, (p, q) ∈ c.outputPermutation → c.isGarbage q = false
  ancillary : c.ancillary.length = c.nqubits
  garbage : c.garbage.length = c.nqubits
  count : c.ancillary.count true = c.nancillae

/-- Number of kept qubits below `q`: the new label of `q` when the qubits in `removed` are taken away and the others keep their
order. -/
def newIndex (removed : List Nat) (q : Nat) : Nat := ((List.range q).filter (fun i => decide (i ∉ removed))).length

/-- No operation names the physical qubit. -/
def Untouched (acts : α → Nat → Bool) (c : Circ α) (p : Nat) : Prop := ∀ o ∈ c.ops, acts o p = false

/-- Logical qubit `q`, carried by `p`, is read out from `p` again, or neither `p` nor `q` is read out at all. -/
def StaysPut (c : Circ α) (p q : Nat) : Prop :=
  (p, q) ∈ c.outputPermutation ∨ ((∀ q', (p, q') ∉ c.outputPermutation) ∧ ∀ p', (p', q) ∉ c.outputPermutation)

/-- Nothing happens to logical qubit `q` in the circuit (trivially so if the circuit has no such qubit). -/
def Unused (acts : α → Nat → Bool) (c : Circ α) (q : Nat) : Prop :=
  ∀ p, (p, q) ∈ c.initialLayout → Untouched acts c p ∧ StaysPut c p q

/-- `c'` is `c` without the logical qubits in `removed`, to which nothing happens in `c`; all the others keep their physical
qubit, their place in the order, their output and their flags; the operations are the same. -/
structure Stripped (acts : α → Nat → Bool) (removed : List Nat) (c c' : Circ α) : Prop where
  ops : c'.ops = c.ops
  idle : ∀ q ∈ removed, Unused acts c q
  width : c'.nqubits = newIndex removed c.nqubits
  initial : ∀ p q', (p, q') ∈ c'.initialLayout ↔ ∃ q, (p, q) ∈ c.initialLayout ∧ q ∉ removed ∧ q' = newIndex removed q
  output : ∀ p q', (p, q') ∈ c'.outputPermutation ↔ ∃ q, (p, q) ∈ c.outputPermutation ∧ q ∉ removed ∧ q' = newIndex removed q
  flags : ∀ q, q < c.nqubits → q ∉ removed →
    c'.isAncillary (newIndex removed q) = c.isAncillary q ∧ c'.isGarbage (newIndex removed q) = c.isGarbage q

/-- The larger circuit after the set-up for a partner with `m` qubits: the qubits from `m` on are ancillary now; those of them whose
physical qubit is not read out are garbage; everything else is as before. -/
structure SurplusMarked (m : Nat) (c c' : Circ α) : Prop where
  ops : c'.ops = c.ops
  width : c'.nqubits = c.nqubits
  initial : c'.initialLayout = c.initialLayout
  output : c'.outputPermutation = c.outputPermutation
  ancillary : ∀ q, q < c.nqubits → c'.isAncillary q = (decide (m ≤ q) || c.isAncillary q)
  garbage : ∀ q, q < c.nqubits → (c'.isGarbage q = true ↔
    c.isGarbage q = true ∨ (m ≤ q ∧ ∃ p, (p, q) ∈ c.initialLayout ∧ ∀ q', (p, q') ∉ c.outputPermutation))

/-- The smaller circuit after the set-up for a partner with `n` qubits: the qubits it already had are as before, and it has
additional qubits up to `n` which are ancillary and garbage; the physical qubits of the additional ones are those of the same
number, as far as these are not in use. -/
structure Padded (n : Nat) (c c' : Circ α) : Prop where
  ops : c'.ops = c.ops
  width : c'.nqubits = n
  keys : (c'.initialLayout.map Prod.fst).Pairwise (· < ·)
  initial : ∀ p q, (p, q) ∈ c'.initialLayout ↔
    (p, q) ∈ c.initialLayout ∨ (q = p ∧ c.nqubits ≤ p ∧ p < n ∧ ∀ q', (p, q') ∉ c.initialLayout)
  output : c'.outputPermutation = c.outputPermutation
  old : ∀ q, q < c.nqubits → c'.isAncillary q = c.isAncillary q ∧ c'.isGarbage q = c.isGarbage q
  new : ∀ q, c.nqubits ≤ q → q < n → c'.isAncillary q = true ∧ c'.isGarbage q = true

end QCEC.Spec
