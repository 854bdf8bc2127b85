import Verif.Model.Enums
/-!
# The generator of random stimuli

Models `src/checker/dd/simulation/StateGenerator.cpp:29-172` and `include/checker/dd/simulation/StateGenerator.hpp`.

`std::mt19937_64` and `std::uniform_int_distribution` are an abstract deterministic random source `Rng`, over which the theorems
quantify; all that is assumed is what the standard promises: results within the requested range.  The decision diagrams built
from the generated bits are represented by those bits (`dd.makeBasisState`), the random Clifford circuit of the stabilizer state
by its number of qubits and its seed (its depth `round(log2(n))` is a function of the number of qubits).

`std::unordered_set` is a list without duplicates.  Assertions are those of a release build (none): with assertions enabled the
process is aborted in line 54 where here the loop does not end.  `std::ceil(double(n)/64)` is the exact quotient (right below
2^53).  `totalQubits - ancillaryQubits` is only meaningful if it does not wrap around.
-/
namespace QCEC.Gen
open QCEC

/-- A random source: the engine and the uniform distribution (`include/checker/dd/simulation/StateGenerator.hpp:50,56-58`). -/
structure Rng where
  σ : Type
  /-- `mt.seed(s)` -/
  seed : Nat → σ
  /-- `mt.seed(std::seed_seq)` filled from `std::random_device` -/
  seedSeq : List Nat → σ
  /-- `mt()` -/
  next : σ → Nat × σ
  next_lt : ∀ s, (next s).1 < 2 ^ 64
  /-- `std::uniform_int_distribution(0, hi)(mt)` -/
  uniform : Nat → σ → Nat × σ
  uniform_le : ∀ hi s, (uniform hi s).1 ≤ hi

/-- `class StateGenerator`, `StateGenerator.hpp:46-57`. -/
structure Generator (R : Rng) where
  seed : Nat
  mt : R.σ
  generated : List Nat := []

/-- `seedGenerator`, `StateGenerator.cpp:160-172`; `entropy` is what `std::random_device` delivers. -/
def Generator.reseed {R : Rng} (g : Generator R) (s : Nat) (entropy : List Nat) : Generator R :=
  { g with seed := s, mt := if s = 0 then R.seedSeq entropy else R.seed s }

/-- Constructor, `StateGenerator.hpp:22-25`. -/
def Generator.new (R : Rng) (s : Nat) (entropy : List Nat) : Generator R :=
  { seed := s, mt := if s = 0 then R.seedSeq entropy else R.seed s }

/-- `clear`, `StateGenerator.hpp:46`. -/
def Generator.clear {R : Rng} (g : Generator R) : Generator R := { g with generated := [] }

/-- A request, `StateGenerator.cpp:29-41`. -/
structure Req where
  total : Nat
  ancillary : Nat
  type : StateType

/-- `randomQubits`, `StateGenerator.cpp:47,97,135`. -/
def Req.random (r : Req) : Nat := r.total - r.ancillary

/-- `dd::BasisStates` (`src/checker/dd/simulation/StateGenerator.cpp:103-124`). -/
inductive Basis1
  | zero | one | plus | minus | right | left
  deriving DecidableEq, Repr

/-- A stimulus: one bit per qubit, one single-qubit state per qubit, or the state of a random Clifford circuit on the first
`n` qubits (given by the circuit's seed) with `zeros` qubits in |0⟩ on top (`src/checker/dd/simulation/StateGenerator.cpp:48,100-101,138-154`). -/
inductive Stim
  | basis (bits : List Bool)
  | product (states : List Basis1)
  | stabilizer (n seed zeros : Nat)
  deriving DecidableEq, Repr

/-- `w & (1 << i)`; shifting by the width of the type or more is undefined (`src/checker/dd/simulation/StateGenerator.cpp:67,82-83`). -/
def maskBit (w i : Nat) : Option Bool := if i < 64 then some ((w &&& (1 <<< i)) != 0) else none

/-- `stimulusBits[i] = true`; an index out of range is undefined (`src/checker/dd/simulation/StateGenerator.cpp:68,84`). -/
def setBit (bits : List Bool) (i : Nat) : Option (List Bool) := if i < bits.length then some (bits.set i true) else none

/-- One iteration of the loops in `StateGenerator.cpp:66-70,82-87`. -/
def fillStep (bit : Nat → Option Bool) (bits : List Bool) (i : Nat) : Option (List Bool) :=
  match bit i with
  | none => none
  | some true => setBit bits i
  | some false => some bits

/-- The loops in `StateGenerator.cpp:66-70,82-87`. -/
def fill (total random : Nat) (bit : Nat → Option Bool) : Option (List Bool) :=
  (List.range random).foldlM (fillStep bit) (List.replicate total false)

/-- `randomNumbers[i / 64] & (1 << (i % 64))`, `StateGenerator.cpp:83-84`; an index out of range is undefined. -/
def wordBit (words : List Nat) (i : Nat) : Option Bool :=
  match words[i / 64]? with
  | none => none
  | some w => maskBit w (i % 64)

/-- Number of words, `StateGenerator.cpp:73-74`. -/
def wordCount (random : Nat) : Nat := (random + 63) / 64

/-- `n` words from the engine, `StateGenerator.cpp:76-79`. -/
def drawWords (R : Rng) : Nat → R.σ → List Nat × R.σ
  | 0, s => ([], s)
  | n + 1, s => ((R.next s).1 :: (drawWords R n (R.next s).2).1, (drawWords R n (R.next s).2).2)

/-- The loop drawing a number that is not in the set yet, `StateGenerator.cpp:56-63`. -/
inductive Draw (R : Rng) (hi : Nat) (used : List Nat) : R.σ → Nat → R.σ → Prop
  | fresh (s : R.σ) (h : (R.uniform hi s).1 ∉ used) : Draw R hi used s (R.uniform hi s).1 (R.uniform hi s).2
  | again (s : R.σ) (v : Nat) (s' : R.σ) (h : (R.uniform hi s).1 ∈ used) (hd : Draw R hi used (R.uniform hi s).2 v s') :
      Draw R hi used s v s'

/-- `random1QBasisDistribution(mt)` translated, `StateGenerator.cpp:102-124`. -/
def basis1 : Nat → Basis1
  | 0 => .zero
  | 1 => .one
  | 2 => .plus
  | 3 => .minus
  | 4 => .right
  | 5 => .left
  | _ => .zero

/-- `n` single-qubit states, `StateGenerator.cpp:101-125`. -/
def drawBases (R : Rng) : Nat → R.σ → List Basis1 × R.σ
  | 0, s => ([], s)
  | n + 1, s => (basis1 (R.uniform 5 s).1 :: (drawBases R n (R.uniform 5 s).2).1, (drawBases R n (R.uniform 5 s).2).2)

/-- `generateRandomState`, `StateGenerator.cpp:29-158`: a request that returns.  Requests without a result do not return or have
undefined behaviour. -/
inductive Generate {R : Rng} : Generator R → Req → Stim → Generator R → Prop
  /-- up to 63 random qubits, l.51-70 -/
  | narrow (g : Generator R) (r : Req) (v : Nat) (mt : R.σ) (bits : List Bool) (ht : r.type = .computationalBasis)
      (hn : r.random ≤ 63) (hd : Draw R ((1 <<< r.random) - 1) g.generated g.mt v mt)
      (hb : fill r.total r.random (maskBit v) = some bits) :
      Generate g r (.basis bits) { g with mt := mt, generated := v :: g.generated }
  /-- more than 63 random qubits, l.71-88 -/
  | wide (g : Generator R) (r : Req) (bits : List Bool) (ht : r.type = .computationalBasis) (hn : 63 < r.random)
      (hb : fill r.total r.random (wordBit (drawWords R (wordCount r.random) g.mt).1) = some bits) :
      Generate g r (.basis bits) { g with mt := (drawWords R (wordCount r.random) g.mt).2 }
  /-- l.93-129 -/
  | product (g : Generator R) (r : Req) (ht : r.type = .random1QBasis) :
      Generate g r (.product ((drawBases R r.random g.mt).1 ++ List.replicate (r.total - r.random) .zero))
        { g with mt := (drawBases R r.random g.mt).2 }
  /-- l.131-158; `log2(0)` is minus infinity, whose conversion to an integer is undefined -/
  | stabilizer (g : Generator R) (r : Req) (ht : r.type = .stabilizer) (hn : r.random ≠ 0) :
      Generate g r (.stabilizer r.random (R.next g.mt).1 (r.total - r.random)) { g with mt := (R.next g.mt).2 }

/-- What the manager does with its generator (`src/EquivalenceCheckingManager.cpp:439`, `include/EquivalenceCheckingManager.hpp:105,337`). -/
inductive Ev
  | request (r : Req)
  | clear
  | reseed (s : Nat) (entropy : List Nat)

/-- A history of the generator and the stimuli it returned (`src/EquivalenceCheckingManager.cpp:439`, `include/EquivalenceCheckingManager.hpp:105,337`). -/
inductive History {R : Rng} : Generator R → List Ev → List Stim → Generator R → Prop
  | nil (g : Generator R) : History g [] [] g
  | request (g g' g'' : Generator R) (r : Req) (st : Stim) (evs : List Ev) (sts : List Stim) (h : Generate g r st g')
      (ht : History g' evs sts g'') : History g (.request r :: evs) (st :: sts) g''
  | clear (g g' : Generator R) (evs : List Ev) (sts : List Stim) (ht : History g.clear evs sts g') :
      History g (.clear :: evs) sts g'
  | reseed (g g' : Generator R) (s : Nat) (e : List Nat) (evs : List Ev) (sts : List Stim)
      (ht : History (g.reseed s e) evs sts g') : History g (.reseed s e :: evs) sts g'

/-- The request of the simulation checker, `src/checker/dd/DDSimulationChecker.cpp:42-48`; `n` is the number of qubits of the
checker, `data` that of `qc1` without ancillaries. -/
def checkerReq (n data : Nat) (t : StateType) : Req := ⟨n, n - data, t⟩

end QCEC.Gen
