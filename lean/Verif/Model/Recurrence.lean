import Mathlib.LinearAlgebra.Matrix.NonsingularInverse
import Mathlib.Algebra.Order.Floor.Ring
import Mathlib.Data.Rat.Floor
/-!
# Extrapolation of gate costs

Models `check_recurrence` and `find_continuation`, `src/mqt/qcec/compilation_flow_profiles.py:308-364`.

Simplifications: numbers are exact (integers and rationals instead of `numpy` integers and doubles; `numpy.linalg.det`, `inv` and `dot` are the
mathematical ones). `numpy` raises an exception if the sequence is empty or if two or three coefficients meet a shorter sequence that cannot be
broadcast; one element is broadcast.
-/
namespace QCEC.Recurrence

/-- Profile data, a Python `dict` from (gate, number of controls) to cost in insertion order (`src/mqt/qcec/compilation_flow_profiles.py:329-364`). -/
abbrev Data := List ((String × Nat) × Int)

/-- `mat`, `compilation_flow_profiles.py:313`. -/
def mat (seq : List Int) (order : Nat) : Matrix (Fin order) (Fin order) ℚ := fun i j => (seq.getD (i + j) 0 : ℚ)

/-- `f`, `compilation_flow_profiles.py:314`. -/
def rhs (seq : List Int) (order : Nat) : Fin order → ℚ := fun i => (seq.getD (i + order) 0 : ℚ)

/-- `predict`, `compilation_flow_profiles.py:322`. -/
def predict (seq : List Int) {order : Nat} (c : Fin order → ℚ) (i : Nat) : ℚ := ∑ j : Fin order, c j * (seq.getD (i - order + j) 0 : ℚ)

/-- The loop of `check_recurrence`, `compilation_flow_profiles.py:321-324`. -/
def fits (seq : List Int) {order : Nat} (c : Fin order → ℚ) : Bool :=
  (List.range' (2 * order) (seq.length - 2 * order)).all fun i => decide (|predict seq c i - (seq.getD i 0 : ℚ)| ≤ 1 / 100)

/-- `check_recurrence`, `compilation_flow_profiles.py:308-326`. -/
noncomputable def checkRecurrence (seq : List Int) (order : Nat) : Option (Fin order → ℚ) :=
  if seq.length < 2 * order + 1 then none
  else if (mat seq order).det = 0 then none
  else
    let c := (mat seq order)⁻¹.mulVec (rhs seq order)
    if fits seq c then some c else none

/-- `numpy.round`: to the nearest integer, ties to the even one (called in `src/mqt/qcec/compilation_flow_profiles.py:360`). -/
def roundEven (q : ℚ) : Int :=
  if q - ⌊q⌋ < 1 / 2 then ⌊q⌋
  else if 1 / 2 < q - ⌊q⌋ then ⌊q⌋ + 1
  else if ⌊q⌋ % 2 = 0 then ⌊q⌋ else ⌊q⌋ + 1

/-- Coefficients of some order (`src/mqt/qcec/compilation_flow_profiles.py:319,347-358`). -/
abbrev Coeffs := Σ order : Nat, Fin order → ℚ

/-- The loop over the orders, `compilation_flow_profiles.py:346-350`. -/
noncomputable def firstFit (seq : List Int) : (orders : List Nat) → Option Coeffs
  | [] => none
  | o :: os => match checkRecurrence seq o with
    | some c => some ⟨o, c⟩
    | none => firstFit seq os

/-- The coefficients of a linear sequence, `compilation_flow_profiles.py:353-354`. -/
def linear : Coeffs := ⟨2, ![-1, 2]⟩

/-- `coeffs`, `compilation_flow_profiles.py:345-354`. -/
noncomputable def coefficients (seq : List Int) (maxOrder : Nat) : Coeffs := (firstFit seq (List.range' 1 maxOrder)).getD linear

/-- `next_term`, `compilation_flow_profiles.py:359`; `none` is the exception `numpy` raises if the shapes do not match. -/
def nextTerm (c : Coeffs) (seq : List Int) : Option Int :=
  if c.1 ≤ seq.length then some (roundEven (∑ j : Fin c.1, c.2 j * (seq.getD (seq.length - c.1 + j) 0 : ℚ)))
  else match seq with
    | [a] => some (roundEven (∑ j : Fin c.1, c.2 j * (a : ℚ)))
    | _ => none

/-- Assignment to a key of a `dict` (`src/mqt/qcec/compilation_flow_profiles.py:364`). -/
def assign (d : Data) (k : String × Nat) (v : Int) : Data :=
  if d.any (fun e => e.1 == k) then d.map (fun e => if e.1 == k then (k, v) else e) else d ++ [(k, v)]

/-- Look-up in a `dict` (`include/checker/dd/applicationscheme/GateCostApplicationScheme.hpp:127-128` reads it back). -/
def lookup (d : Data) (k : String × Nat) : Option Int := (d.find? (fun e => e.1 == k)).map (·.2)

/-- The loop of `find_continuation`, `compilation_flow_profiles.py:358-364`, with `n` iterations left; `none` is an exception. -/
def extend (gate : String) (c : Coeffs) (maxControl : Nat) (cutoff : ℚ) : (n i : Nat) → List Int → Data → Option (List Int × Data)
  | 0, _, seq, d => some (seq, d)
  | n + 1, i, seq, d => match nextTerm c seq with
    | none => none
    | some t =>
      if cutoff ≤ (t : ℚ) then some (seq, d)
      else extend gate c maxControl cutoff n (i + 1) (seq ++ [t]) (assign d (gate, maxControl + i + 1) t)

/-- `sequence`, `compilation_flow_profiles.py:339-345`: the costs of the gate, sorted, without the first `cut`. -/
def costs (d : Data) (gate : String) (cut : Nat) : List Int :=
  (((d.filter fun e => e.1.1 == gate).map (·.2)).mergeSort (· ≤ ·)).drop cut

/-- `find_continuation`, `compilation_flow_profiles.py:329-364`. -/
noncomputable def findContinuation (d : Data) (gate : String) (cut : Nat := 5) (maxOrder : Nat := 3) (maxControl : Nat := 11) (maxQubits : Nat := 128)
    (cutoff : ℚ := 1000000) : Option Data :=
  (extend gate (coefficients (costs d gate cut) maxOrder) maxControl cutoff (maxQubits - maxControl - 1) 0 (costs d gate cut) d).map (·.2)

end QCEC.Recurrence
