import Verif.Model.Config
import Verif.Model.StateGen
/-!
# Construction of the manager: preparing the circuits

Models the constructor of `EquivalenceCheckingManager` (`src/EquivalenceCheckingManager.cpp:354-410`) with the preparation of the
two circuits (`:39-291`), the optimization methods (`:897-935`) and `DDAlternatingChecker::canHandle`
(`src/checker/dd/DDAlternatingChecker.cpp:135-163`).

`qc::QuantumComputation` is external code (mqt-core).  `Circ` records the parts of it that QCEC touches here; the functions
`removeQubit`, `addAncillaryRegister`, `addAncillaryQubit`, `setLogicalQubitGarbage` state what the mqt-core methods of these names
do to them (quantum registers and their names are left out).  The circuit optimizations are external too and stay abstract
(`Passes`).

A result `none` means: an assertion of the code fails, an `.at()` throws, or an iterator is dereferenced out of range.
-/
namespace QCEC.Prep
open QCEC

/-- `qc::Permutation`, a `std::map` from physical to logical qubits: entries in ascending order of the keys (passed to `src/EquivalenceCheckingManager.cpp:39-46`). -/
abbrev Layout := List (Nat × Nat)

namespace Layout
/-- `std::map::find`/`at`; used e.g. in `src/EquivalenceCheckingManager.cpp:65-66,74-76`. -/
def get (l : Layout) (k : Nat) : Option Nat := (l.find? (fun e => e.1 == k)).map (·.2)
/-- `std::any_of(.., pair.second == v)`, `src/EquivalenceCheckingManager.cpp:77-82`. -/
def hasValue (l : Layout) (v : Nat) : Bool := l.any (fun e => e.2 == v)
/-- First key with a given value: `std::find_if(.., pair.second == v)`, `src/EquivalenceCheckingManager.cpp:105-109`. -/
def keyOf (l : Layout) (v : Nat) : Option Nat := (l.find? (fun e => e.2 == v)).map (·.1)
/-- `std::map::erase(key)`, used by mqt-core's `removeQubit` (called through `src/EquivalenceCheckingManager.cpp:98,167,168,202`). -/
def erase (l : Layout) (k : Nat) : Layout := l.filter (fun e => e.1 != k)
/-- Erase the first entry with a value (mqt-core's `setLogicalQubitGarbage`) (called through `src/EquivalenceCheckingManager.cpp:215-220`). -/
def eraseValue (l : Layout) (v : Nat) : Layout := l.eraseP (fun e => e.2 == v)
/-- `std::map::insert`: keeps the order of the keys and does not overwrite (called through `src/EquivalenceCheckingManager.cpp:206,212`). -/
def insert : Layout → Nat → Nat → Layout
  | [], k, v => [(k, v)]
  | e :: r, k, v => if k < e.1 then (k, v) :: e :: r else if k = e.1 then e :: r else e :: insert r k v
/-- `qc::Permutation::maxValue()`; on an empty map the past-the-end iterator is dereferenced (`none`) (called in `src/EquivalenceCheckingManager.cpp:73,199`). -/
def maxValue (l : Layout) : Option Nat := (l.map (·.2)).max?
/-- `decrementLogicalQubitsInLayoutAboveIndex`, `src/EquivalenceCheckingManager.cpp:39-46`. -/
def decAbove (l : Layout) (i : Nat) : Layout := l.map fun e => (e.1, if e.2 > i then e.2 - 1 else e.2)
end Layout

/-- The parts of a `qc::QuantumComputation` used here.  `α` are its operations, which name physical qubits (members `qc1`, `qc2`, `include/EquivalenceCheckingManager.hpp:252-253`). -/
structure Circ (α : Type) where
  /-- `getNqubitsWithoutAncillae()` -/
  ndata : Nat
  nancillae : Nat
  initialLayout : Layout
  outputPermutation : Layout
  /-- indexed by logical qubits -/
  ancillary : List Bool
  /-- indexed by logical qubits -/
  garbage : List Bool
  ops : List α

variable {α : Type}

/-- `getNqubits()` (called in `src/EquivalenceCheckingManager.cpp:186-190`). -/
def Circ.nqubits (c : Circ α) : Nat := c.ndata + c.nancillae

/-- `isIdleQubit(physical)`: no operation acts on it; `acts` is mqt-core's `Operation::actsOn` (called in `src/EquivalenceCheckingManager.cpp:48-182`). -/
def Circ.isIdle (acts : α → Nat → Bool) (c : Circ α) (phys : Nat) : Bool := c.ops.all (fun o => !acts o phys)

/-- `logicalQubitIsAncillary(q)` (called in `src/checker/dd/DDAlternatingChecker.cpp:135-163`). -/
def Circ.isAncillary (c : Circ α) (q : Nat) : Bool := c.ancillary.getD q false
/-- `logicalQubitIsGarbage(q)` (called in `src/EquivalenceCheckingManager.cpp:201`). -/
def Circ.isGarbage (c : Circ α) (q : Nat) : Bool := c.garbage.getD q false

/-- mqt-core's `removeQubit(logical)`, called at `src/EquivalenceCheckingManager.cpp:98,167,168,202`; returns the physical qubit
and its entry in the output permutation. -/
def Circ.removeQubit (c : Circ α) (logical : Nat) : Option (Circ α × Nat × Option Nat) :=
  match c.initialLayout.keyOf logical with
  | none => none
  | some phys => some (
      { c with
        ndata := if c.isAncillary logical then c.ndata else c.ndata - 1
        nancillae := if c.isAncillary logical then c.nancillae - 1 else c.nancillae
        initialLayout := c.initialLayout.erase phys
        outputPermutation := c.outputPermutation.erase phys
        ancillary := c.ancillary.eraseIdx logical
        garbage := c.garbage.eraseIdx logical },
      phys, c.outputPermutation.get phys)

/-- The two `decrement...` calls for one circuit, `src/EquivalenceCheckingManager.cpp:171-174` and `:176-179`. -/
def Circ.decAbove (c : Circ α) (i : Nat) : Circ α :=
  { c with initialLayout := c.initialLayout.decAbove i, outputPermutation := c.outputPermutation.decAbove i }

/-- `safeToRemoveInLargerCircuit`/`safeToRemoveInSmallerCircuit`, `src/EquivalenceCheckingManager.cpp:74-94,121-158`. -/
def Circ.safeToRemove (c : Circ α) (phys logical : Nat) : Bool :=
  ((c.outputPermutation.get phys).isNone && !c.outputPermutation.hasValue logical) ||
  decide (c.outputPermutation.get phys = some logical)

/-- The local variables of `stripIdleQubits` (`src/EquivalenceCheckingManager.cpp:48-182`). -/
structure Strip (α : Type) where
  larger : Circ α
  smaller : Circ α
  diff : Nat

/-- `qubitDifference > 0 && (smallerCircuit.getNqubits() == 0 || logicalQubitIndex > smallerCircuit.initialLayout.maxValue())`,
`src/EquivalenceCheckingManager.cpp:71-73`. -/
def Strip.onlyInLarger (s : Strip α) (logical : Nat) : Option Bool :=
  if s.diff = 0 then some false
  else if s.smaller.nqubits = 0 then some true
  else s.smaller.initialLayout.maxValue.map (fun m => decide (logical > m))

/-- Branch for a qubit of the larger circuit only, `src/EquivalenceCheckingManager.cpp:74-99,171-174`. -/
def Strip.removeLarger (s : Strip α) (phys logical : Nat) : Option (Strip α) :=
  if s.larger.safeToRemove phys logical then
    (s.larger.removeQubit logical).map fun r => { s with larger := r.1.decAbove logical, diff := s.diff - 1 }
  else some s

/-- Branch for a qubit of both circuits, `src/EquivalenceCheckingManager.cpp:101-180`. -/
def Strip.removeBoth (acts : α → Nat → Bool) (s : Strip α) (phys logical : Nat) : Option (Strip α) :=
  match s.smaller.initialLayout.keyOf logical with
  | none => none
  | some physicalSmaller =>
    if s.smaller.isIdle acts physicalSmaller && s.larger.safeToRemove phys logical && s.smaller.safeToRemove physicalSmaller logical then
      match s.larger.removeQubit logical, s.smaller.removeQubit logical with
      | some rl, some rs => some { s with larger := rl.1.decAbove logical, smaller := rs.1.decAbove logical }
      | _, _ => none
    else some s

/-- Body of the loop of `stripIdleQubits`, `src/EquivalenceCheckingManager.cpp:57-181`. -/
def stripStep (acts : α → Nat → Bool) (s : Strip α) (phys : Nat) : Option (Strip α) :=
  if s.larger.isIdle acts phys then
    match s.larger.initialLayout.get phys with
    | none => none
    | some logical =>
      match s.onlyInLarger logical with
      | none => none
      | some true => s.removeLarger phys logical
      | some false => s.removeBoth acts phys logical
  else some s

/-- The loop over a copy of the larger circuit's layout, backwards, `src/EquivalenceCheckingManager.cpp:53-181`. -/
def stripLoop (acts : α → Nat → Bool) (larger smaller : Circ α) : Option (Strip α) :=
  (larger.initialLayout.reverse.map (·.1)).foldlM (stripStep acts)
    { larger := larger, smaller := smaller, diff := larger.nqubits - smaller.nqubits }

/-- Run `f larger smaller` on the pair and put the results back: the references `largerCircuit`, `smallerCircuit` of
`src/EquivalenceCheckingManager.cpp:49-50,185-188`. -/
def onPair (f : Circ α → Circ α → Option (Circ α × Circ α)) (qc1 qc2 : Circ α) : Option (Circ α × Circ α) :=
  if qc1.nqubits > qc2.nqubits then f qc1 qc2 else (f qc2 qc1).map fun r => (r.2, r.1)

/-- The body of `stripIdleQubits` in terms of the two references, `src/EquivalenceCheckingManager.cpp:51-181`. -/
def stripPair (acts : α → Nat → Bool) (l s : Circ α) : Option (Circ α × Circ α) :=
  (stripLoop acts l s).map fun r => (r.larger, r.smaller)

/-- `stripIdleQubits`, `src/EquivalenceCheckingManager.cpp:48-182`. -/
def stripIdleQubits (acts : α → Nat → Bool) (qc1 qc2 : Circ α) : Option (Circ α × Circ α) := onPair (stripPair acts) qc1 qc2

/-- mqt-core's `addAncillaryRegister(nq)`, called at `src/EquivalenceCheckingManager.cpp:206`. -/
def Circ.addAncillaryRegister (c : Circ α) (nq : Nat) : Circ α :=
  { c with
    nancillae := c.nancillae + nq
    initialLayout := (List.range nq).foldl (fun l i => l.insert (c.nqubits + i) (c.nqubits + i)) c.initialLayout
    outputPermutation := (List.range nq).foldl (fun l i => l.insert (c.nqubits + i) (c.nqubits + i)) c.outputPermutation
    ancillary := c.ancillary ++ List.replicate nq true
    garbage := c.garbage ++ List.replicate nq false }

/-- mqt-core's `addAncillaryQubit(physical, output)`, called at `src/EquivalenceCheckingManager.cpp:212`; throws if the physical
qubit is in use. -/
def Circ.addAncillaryQubit (c : Circ α) (phys : Nat) (out : Option Nat) : Option (Circ α) :=
  if (c.initialLayout.get phys).isSome || (c.outputPermutation.get phys).isSome then none
  else some
    { c with
      nancillae := c.nancillae + 1
      initialLayout := c.initialLayout.insert phys c.nqubits
      outputPermutation := match out with
        | some o => c.outputPermutation.insert phys o
        | none => c.outputPermutation
      ancillary := c.ancillary ++ [true]
      garbage := c.garbage ++ [out.isNone] }

/-- mqt-core's `setLogicalQubitGarbage(q)`, called at `src/EquivalenceCheckingManager.cpp:215,219`. -/
def Circ.setGarbage (c : Circ α) (q : Nat) : Circ α :=
  { c with garbage := c.garbage.set q true, outputPermutation := c.outputPermutation.eraseValue q }

/-- A removed qubit: physical qubit, entry in the output permutation, garbage flag (`removed` and `garbage`,
`src/EquivalenceCheckingManager.cpp:192-196`; the flags are indexed by the logical qubit there). -/
structure Removed where
  phys : Nat
  out : Option Nat
  garbage : Bool
  deriving DecidableEq

/-- First loop of `setupAncillariesAndGarbage`, `src/EquivalenceCheckingManager.cpp:198-203`; the result lists the removed qubits,
last one first (the second loop runs backwards). -/
def takeOut : Nat → Circ α → List Removed → Option (Circ α × List Removed)
  | 0, c, acc => some (c, acc)
  | k + 1, c, acc =>
    match c.initialLayout.maxValue with
    | none => none
    | some logical =>
      match c.removeQubit logical with
      | none => none
      | some (c', phys, out) => takeOut k c' (⟨phys, out, c.isGarbage logical⟩ :: acc)

/-- One round of the second loop for the larger circuit, `src/EquivalenceCheckingManager.cpp:212-217`. -/
def putBack1 (c : Circ α) (r : Removed) : Option (Circ α) :=
  (c.addAncillaryQubit r.phys r.out).map fun c' => if r.garbage then c'.setGarbage (c'.nqubits - 1) else c'

/-- Second loop of `setupAncillariesAndGarbage`, `src/EquivalenceCheckingManager.cpp:210-221`. -/
def putBack : List Removed → Circ α → Circ α → Option (Circ α × Circ α)
  | [], l, s => some (l, s)
  | r :: rs, l, s =>
    match putBack1 l r with
    | none => none
    | some l' => putBack rs l' (s.setGarbage (l'.nqubits - 1))

/-- The body of `setupAncillariesAndGarbage` in terms of the two references, `src/EquivalenceCheckingManager.cpp:189-221`. -/
def setupPair (l s : Circ α) : Option (Circ α × Circ α) :=
  match takeOut (l.nqubits - s.nqubits) l [] with
  | none => none
  | some (l', removed) => putBack removed l' (s.addAncillaryRegister (l.nqubits - s.nqubits))

/-- `setupAncillariesAndGarbage`, `src/EquivalenceCheckingManager.cpp:184-222`. -/
def setupAncillaries (qc1 qc2 : Circ α) : Option (Circ α × Circ α) := onPair setupPair qc1 qc2

/-- The test of one qubit in `canHandle`, `src/checker/dd/DDAlternatingChecker.cpp:143-160`: `true` means go on.
`containsLogicalQubit(q)` of mqt-core finds the physical qubit with `q` in the initial layout. -/
def handles (acts : α → Nat → Bool) (qc1 qc2 : Circ α) (q : Nat) : Bool :=
  if qc1.isAncillary q && qc2.isAncillary q then
    match qc1.initialLayout.keyOf q, qc2.initialLayout.keyOf q with
    | some p1, some p2 => qc1.isIdle acts p1 || qc2.isIdle acts p2
    | none, none => false
    | _, _ => true
  else true

/-- `DDAlternatingChecker::canHandle`, `src/checker/dd/DDAlternatingChecker.cpp:135-163` (the result does not depend on the order of
the loop). -/
def canHandle (acts : α → Nat → Bool) (qc1 qc2 : Circ α) : Bool := (List.range qc1.nqubits).all (handles acts qc1 qc2)

/-- The test at the beginning of `DDAlternatingChecker::initialize`, `src/checker/dd/DDAlternatingChecker.cpp:27-35`; an error is the
`std::invalid_argument`. -/
def initializeAlternating (acts : α → Nat → Bool) (qc1 qc2 : Circ α) : Except String Unit :=
  if canHandle acts qc1 qc2 then .ok ()
  else .error "Alternating checker must not be used for circuits that both have non-idle ancillary qubits."

/-- The test in the constructor of the construction checker, `include/checker/dd/DDConstructionChecker.hpp:24-35`; an error is the
`std::invalid_argument`.  What `initializeApplicationScheme` does afterwards is `DD.initScheme`. -/
def constructionCtor (c : Configuration) : Except String Unit :=
  if c.application.constructionScheme = .lookahead then
    .error "Lookahead application scheme must not be used with DD construction checker."
  else .ok ()

/-! ## Optimization passes -/

/-- The circuit optimizations called by QCEC; the code of each is in mqt-core (called in `src/EquivalenceCheckingManager.cpp:224-291`). -/
inductive Pass
  | eliminateResets | deferMeasurements | swapReconstruction | backpropagateOutputPermutation | elidePermutations
  | singleQubitGateFusion | removeDiagonalGatesBeforeMeasure | reorderOperations | removeFinalMeasurements
  deriving DecidableEq, Repr

/-- What the passes and the tests on circuits do (external code), for circuits of type `Q` (called in `src/EquivalenceCheckingManager.cpp:224-291,365`). -/
structure Passes (Q : Type) where
  apply : Pass → Q → Q
  empty : Q → Bool
  dynamic : Q → Bool
  variableFree : Q → Bool

variable {Q : Type}

/-- Apply a pass to both circuits if enabled: the `if` blocks of `src/EquivalenceCheckingManager.cpp:253-285`. -/
def Passes.both (P : Passes Q) (enabled : Bool) (p : Pass) (c : Q × Q) : Q × Q :=
  if enabled then (P.apply p c.1, P.apply p c.2) else c

/-- Elimination of dynamic primitives in one circuit, `src/EquivalenceCheckingManager.cpp:233-240`. -/
def Passes.undynamic (P : Passes Q) (c : Q) : Q :=
  if P.dynamic c then P.apply .deferMeasurements (P.apply .eliminateResets c) else c

/-- What follows the treatment of dynamic circuits, `src/EquivalenceCheckingManager.cpp:251-290`. -/
def Passes.static (P : Passes Q) (o : Optimizations) (c : Q × Q) : Q × Q :=
  P.both true .removeFinalMeasurements
    (P.both o.reorderOperations .reorderOperations
      (P.both o.removeDiagonalGatesBeforeMeasure .removeDiagonalGatesBeforeMeasure
        (P.both o.fuseSingleQubitGates .singleQubitGateFusion
          (P.both o.elidePermutations .elidePermutations
            (P.both o.backpropagateOutputPermutation .backpropagateOutputPermutation
              (P.both o.reconstructSWAPs .swapReconstruction c))))))

/-- `runOptimizationPasses`, `src/EquivalenceCheckingManager.cpp:224-291`; an error is the `std::runtime_error`. -/
def Passes.run (P : Passes Q) (o : Optimizations) (c : Q × Q) : Except String (Q × Q) :=
  if P.empty c.1 && P.empty c.2 then .ok c
  else if P.dynamic c.1 || P.dynamic c.2 then
    if o.transformDynamicCircuit then .ok (P.static o (P.undynamic c.1, P.undynamic c.2))
    else .error "One of the circuits contains mid-circuit non-unitary primitives."
  else .ok (P.static o c)

/-! ## The constructor -/

/-- `1ULL << nq`; undefined for shifts by 64 and more (`src/EquivalenceCheckingManager.cpp:401`). -/
def shl64 (nq : Nat) : Option Nat := if nq < 64 then some (2 ^ nq) else none

/-- Fallback to the construction checker, `src/EquivalenceCheckingManager.cpp:385-391`. -/
def fallback (handled : Bool) (c : Configuration) : Configuration :=
  if c.execution.runAlternatingChecker && !handled then
    { c with execution := { c.execution with runAlternatingChecker := false, runConstructionChecker := true } }
  else c

/-- Limit the number of simulations, `src/EquivalenceCheckingManager.cpp:398-405`.  `none`: undefined behaviour. -/
def capSims (nq : Nat) (c : Configuration) : Option Configuration :=
  if c.execution.runSimulationChecker && decide (c.simulation.stateType = .computationalBasis) then
    (shl64 nq).map fun uniqueStates =>
      if decide (nq ≤ 63) && decide (c.simulation.maxSims > uniqueStates) then
        { c with simulation := { c.simulation with maxSims := uniqueStates } }
      else c
  else some c

/-- The members of the manager set up by the constructor (members in `include/EquivalenceCheckingManager.hpp:252-255`). -/
structure Made (α : Type) where
  qc1 : Circ α
  qc2 : Circ α
  cfg : Configuration

/-- Ways construction ends (of `src/EquivalenceCheckingManager.cpp:354-410`). -/
inductive MakeResult (α : Type)
  | made (m : Made α)
  | threw (what : String)
  | undefined

/-- Continuation of the constructor after the optimization passes, `src/EquivalenceCheckingManager.cpp:369-405`; the state of the
random generator is modelled in `Verif/Model/StateGen.lean`. -/
def prepare (acts : α → Nat → Bool) (cfg : Configuration) (c : Circ α × Circ α) : MakeResult α :=
  match stripIdleQubits acts c.1 c.2 with
  | none => .undefined
  | some s =>
    match setupAncillaries s.1 s.2 with
    | none => .undefined
    | some p =>
      match capSims p.1.ndata (fallback (canHandle acts p.1 p.2) cfg) with
      | none => .undefined
      | some cfg' => .made { qc1 := p.1, qc2 := p.2, cfg := cfg' }

/-- `EquivalenceCheckingManager::EquivalenceCheckingManager`, `src/EquivalenceCheckingManager.cpp:354-410`. -/
def construct (acts : α → Nat → Bool) (P : Passes (Circ α)) (cfg : Configuration) (qc1 qc2 : Circ α) : MakeResult α :=
  if P.variableFree qc1 && P.variableFree qc2 then
    match P.run cfg.optimizations (qc1, qc2) with
    | .error e => .threw e
    | .ok c => prepare acts cfg c
  else prepare acts cfg (qc1, qc2)

/-! ## Optimization methods of the manager -/

/-- The optimization methods, `include/EquivalenceCheckingManager.hpp:151-155`. -/
inductive OptMethod
  | fuseSingleQubitGates | reconstructSWAPs | reorderOperations | backpropagateOutputPermutation | elidePermutations
  deriving DecidableEq, Repr

/-- The flag guarding an optimization method (tested in `src/EquivalenceCheckingManager.cpp:897-935`). -/
def OptMethod.flag (o : Optimizations) : OptMethod → Bool
  | .fuseSingleQubitGates => o.fuseSingleQubitGates
  | .reconstructSWAPs => o.reconstructSWAPs
  | .reorderOperations => o.reorderOperations
  | .backpropagateOutputPermutation => o.backpropagateOutputPermutation
  | .elidePermutations => o.elidePermutations

/-- Setting that flag (`src/EquivalenceCheckingManager.cpp:897-935`). -/
def OptMethod.enable (o : Optimizations) : OptMethod → Optimizations
  | .fuseSingleQubitGates => { o with fuseSingleQubitGates := true }
  | .reconstructSWAPs => { o with reconstructSWAPs := true }
  | .reorderOperations => { o with reorderOperations := true }
  | .backpropagateOutputPermutation => { o with backpropagateOutputPermutation := true }
  | .elidePermutations => { o with elidePermutations := true }

/-- The pass an optimization method applies (`src/EquivalenceCheckingManager.cpp:897-935`). -/
def OptMethod.pass : OptMethod → Pass
  | .fuseSingleQubitGates => .singleQubitGateFusion
  | .reconstructSWAPs => .swapReconstruction
  | .reorderOperations => .reorderOperations
  | .backpropagateOutputPermutation => .backpropagateOutputPermutation
  | .elidePermutations => .elidePermutations

/-- `fuseSingleQubitGates()` … `elidePermutations()`, `src/EquivalenceCheckingManager.cpp:897-935`. -/
def optimize (P : Passes Q) (m : OptMethod) (s : Optimizations × Q × Q) : Optimizations × Q × Q :=
  if m.flag s.1 then s else (m.enable s.1, P.apply m.pass s.2.1, P.apply m.pass s.2.2)

end QCEC.Prep
