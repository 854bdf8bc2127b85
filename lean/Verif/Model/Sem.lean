import Verif.Model.DD
import Mathlib.Data.Matrix.Mul
import Mathlib.LinearAlgebra.Matrix.ConjTranspose
import Mathlib.Data.Complex.Basic
import Mathlib.Logic.Equiv.Basic
import Mathlib.Analysis.Complex.Basic
/-!
# Exact semantics of circuits and the decision-diagram package over it

The decision-diagram package and `qc::Operation` are external code (mqt-core).  This file states, as definitions, what that
code computes in exact arithmetic: matrices over `ℂ` indexed by basis states `Fin n → Bool`.  `exactMatrix` and `exactVector`
are the `Backend`s used by `Verif.Model.DD` in the semantic theorems.

Simplifications: compound operations are one level deep; classically controlled, non-unitary and symbolic operations do not
occur (they are removed or rejected before a DD checker runs); numerical tolerances are zero.
-/
namespace QCEC.Sem
open QCEC QCEC.DD

/-- Basis states of `n` qubits (states handled in `include/checker/dd/TaskManager.hpp:70-86`). -/
abbrev Basis (n : Nat) := Fin n → Bool

/-- Operators on `n` qubits (matrices handled in `include/checker/dd/TaskManager.hpp:70-86`). -/
abbrev Mat (n : Nat) := Matrix (Basis n) (Basis n) ℂ

/-- A (controlled) gate as in `qc::StandardOperation`: a `k`-qubit matrix, its targets and its controls with polarity.  Used
by QCEC through `dd::getDD` (`TaskManager.hpp:54-56`). -/
structure Gate (n : Nat) where
  k : Nat
  u : Matrix (Fin k → Bool) (Fin k → Bool) ℂ
  targets : Fin k → Fin n
  controls : List (Fin n × Bool)
  /-- controlled SWAPs have `getType() == qc::SWAP` but are ordinary gates for `dd::getDD` -/
  swapType : Bool := false

/-- Matrix of a gate on the whole register: act with `u` on the targets where all controls are satisfied (for `getDD()`, `include/checker/dd/TaskManager.hpp:55-57`). -/
noncomputable def Gate.mat {n : Nat} (g : Gate n) : Mat n := fun x y =>
  if ∀ c ∈ g.controls, y c.1 = c.2 then
    if ∀ q, (∀ i, g.targets i ≠ q) → x q = y q then g.u (x ∘ g.targets) (y ∘ g.targets) else 0
  else if x = y then 1 else 0

/-- Map targets and controls through a permutation (`permutation.apply(...)` inside mqt-core's `dd::getDD`) (for `getDD()`, `include/checker/dd/TaskManager.hpp:55-57`). -/
def Gate.map {n : Nat} (σ : Equiv.Perm (Fin n)) (g : Gate n) : Gate n :=
  { g with targets := fun i => σ (g.targets i), controls := g.controls.map fun c => (σ c.1, c.2) }

/-- The SWAP of two qubits as an operator (for `changePermutation`, `include/checker/dd/TaskManager.hpp:112-115`). -/
def swapMat {n : Nat} (a b : Fin n) : Mat n := fun x y => if x = y ∘ Equiv.swap a b then 1 else 0

/-- Elementary operations: (controlled) gates, uncontrolled SWAPs, barriers (read through `include/checker/dd/TaskManager.hpp:55-60`). -/
inductive SOp (n : Nat)
  | gate (g : Gate n)
  | swap (a b : Fin n)
  | barrier

/-- Operations: elementary ones and compound operations (read through `include/checker/dd/TaskManager.hpp:55-60`). -/
inductive Op (n : Nat)
  | simple (s : SOp n)
  | compound (l : List (SOp n))

/-- Physical operator of an elementary operation (for `getDD()`, `include/checker/dd/TaskManager.hpp:55-57`). -/
noncomputable def SOp.phys {n : Nat} : SOp n → Mat n
  | .gate g => g.mat
  | .swap a b => swapMat a b
  | .barrier => 1

/-- Physical operator of a list of elementary operations (first operation acts first) (for `getDD()`, `include/checker/dd/TaskManager.hpp:55-57`). -/
noncomputable def physList {n : Nat} : List (SOp n) → Mat n
  | [] => 1
  | s :: r => physList r * s.phys

/-- Physical operator of an operation (for `getDD()`, `include/checker/dd/TaskManager.hpp:55-57`). -/
noncomputable def Op.phys {n : Nat} : Op n → Mat n
  | .simple s => s.phys
  | .compound l => physList l

/-- Physical operator of a circuit: every operation executed on the physical qubits, SWAPs included (what the circuits of `include/checker/dd/TaskManager.hpp:26-32` do). -/
noncomputable def physOps {n : Nat} : List (Op n) → Mat n
  | [] => 1
  | o :: r => physOps r * o.phys

/-- `dd::getDD` for elementary operations: gates are mapped through the permutation; an uncontrolled SWAP only exchanges the
two permutation entries; barriers are the identity (mqt-core `dd/Operations.hpp`, called from `TaskManager.hpp:54-56`). -/
noncomputable def SOp.getDD {n : Nat} (s : SOp n) (σ : Equiv.Perm (Fin n)) : Mat n × Equiv.Perm (Fin n) :=
  match s with
  | .gate g => ((g.map σ).mat, σ)
  | .swap a b => (1, σ * Equiv.swap a b)
  | .barrier => (1, σ)

/-- `dd::getInverseDD` for elementary operations (called from `TaskManager.hpp:57-59`). -/
noncomputable def SOp.getInv {n : Nat} (s : SOp n) (σ : Equiv.Perm (Fin n)) : Mat n × Equiv.Perm (Fin n) :=
  match s with
  | .gate g => ((g.map σ).mat.conjTranspose, σ)
  | .swap a b => (1, σ * Equiv.swap a b)
  | .barrier => (1, σ)

/-- `dd::getDD` for compound operations: multiply the sub-operations, threading the permutation (called in `include/checker/dd/TaskManager.hpp:55-57`). -/
noncomputable def getDDList {n : Nat} : List (SOp n) → Mat n → Equiv.Perm (Fin n) → Mat n × Equiv.Perm (Fin n)
  | [], m, σ => (m, σ)
  | s :: r, m, σ => getDDList r ((s.getDD σ).1 * m) (s.getDD σ).2

/-- `dd::getInverseDD` for compound operations (called in `include/checker/dd/TaskManager.hpp:58-60`). -/
noncomputable def getInvList {n : Nat} : List (SOp n) → Mat n → Equiv.Perm (Fin n) → Mat n × Equiv.Perm (Fin n)
  | [], m, σ => (m, σ)
  | s :: r, m, σ => getInvList r (m * (s.getInv σ).1) (s.getInv σ).2

/-- `dd::getDD` (called in `include/checker/dd/TaskManager.hpp:55-57`). -/
noncomputable def Op.getDD {n : Nat} (o : Op n) (σ : Equiv.Perm (Fin n)) : Mat n × Equiv.Perm (Fin n) :=
  match o with
  | .simple s => s.getDD σ
  | .compound l => getDDList l 1 σ

/-- `dd::getInverseDD` (called in `include/checker/dd/TaskManager.hpp:58-60`). -/
noncomputable def Op.getInv {n : Nat} (o : Op n) (σ : Equiv.Perm (Fin n)) : Mat n × Equiv.Perm (Fin n) :=
  match o with
  | .simple s => s.getInv σ
  | .compound l => getInvList l 1 σ

/-- `getType() == qc::SWAP`, `TaskManager.hpp:87`: SWAPs, with or without controls. -/
def Op.isSwap {n : Nat} : Op n → Bool
  | .simple (.swap _ _) => true
  | .simple (.gate g) => g.swapType
  | _ => false

/-- One round of the loop of `dd::changePermutation` (mqt-core `dd/Operations.hpp`, called from `TaskManager.hpp:109-112`);
`mul a b d` multiplies the SWAP of `a` and `b` onto the object. -/
def changePermStep {n : Nat} {D : Type} (mul : Fin n → Fin n → D → D) (s : D × Equiv.Perm (Fin n)) (t : Fin n × Fin n) :
    D × Equiv.Perm (Fin n) :=
  if s.2 t.1 = t.2 then s
  else (mul (s.2 t.1) t.2 s.1, Equiv.swap (s.2 t.1) t.2 * s.2)

/-- `dd::changePermutation`: for every entry `(i, goal)` of the target permutation, exchange the entries of the tracked
permutation so that `i` is mapped to `goal` (called in `include/checker/dd/TaskManager.hpp:112-115`). -/
def changePerm {n : Nat} {D : Type} (mul : Fin n → Fin n → D → D) (d : D) (σ : Equiv.Perm (Fin n))
    (tgt : List (Fin n × Fin n)) : D × Equiv.Perm (Fin n) :=
  tgt.foldl (changePermStep mul) (d, σ)

/-- Projector onto the states in which all flagged qubits are `0` (for the call in `include/checker/dd/TaskManager.hpp:118-123`). -/
noncomputable def ancProj {n : Nat} (anc : List Bool) : Mat n :=
  Matrix.diagonal fun x => if ∀ q : Fin n, anc.getD q.val false = true → x q = false then 1 else 0

/-- `Package::reduceAncillae` on matrices: with `regular = true` the contributions of ancillary inputs `|1⟩` (columns) are set
to zero, with `regular = false` those of ancillary outputs (rows) (called in `include/checker/dd/TaskManager.hpp:118-123`). -/
noncomputable def reduceAncillae {n : Nat} (anc : List Bool) (regular : Bool) (d : Mat n) : Mat n :=
  if regular then d * ancProj anc else ancProj anc * d

/-- The matrix decision diagram package in exact arithmetic.  `reduceGarbage` is left abstract (parameter): it is only used
for partial equivalence (called in `include/checker/dd/TaskManager.hpp:55-60,70-86,112-137`). -/
noncomputable def exactMatrix (n : Nat) (garb : List Bool → Bool → Mat n → Mat n) :
    Backend (Op n) (Equiv.Perm (Fin n)) (List (Fin n × Fin n)) (Mat n) (Mat n) where
  isSwap := Op.isSwap
  getDD := Op.getDD
  getInv := Op.getInv
  mulL m d := m * d
  mulR d m := d * m
  changePerm regular d σ tgt :=
    changePerm (fun a b d => if regular then swapMat a b * d else d * swapMat a b) d σ tgt
  reduceAncillae := reduceAncillae
  reduceGarbage := garb

/-- The state-vector decision diagram package in exact arithmetic (`reduceAncillae` has no effect on vectors,
`TaskManager.hpp:115-121`; the direction flag has no effect either). -/
noncomputable def exactVector (n : Nat) (garb : List Bool → Bool → (Basis n → ℂ) → (Basis n → ℂ)) :
    Backend (Op n) (Equiv.Perm (Fin n)) (List (Fin n × Fin n)) (Mat n) (Basis n → ℂ) where
  isSwap := Op.isSwap
  getDD := Op.getDD
  getInv := Op.getInv
  mulL m d := m.mulVec d
  mulR d m := m.mulVec d
  changePerm _ d σ tgt := changePerm (fun a b d => (swapMat a b).mulVec d) d σ tgt
  reduceAncillae _ _ d := d
  reduceGarbage := garb

/-- Circuits over the exact semantics (`include/checker/dd/TaskManager.hpp:26-32`). -/
abbrev QC (n : Nat) := Circuit (Op n) (Equiv.Perm (Fin n)) (List (Fin n × Fin n))

end QCEC.Sem
