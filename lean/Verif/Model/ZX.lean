import Verif.Model.Prepare
import Verif.Model.Enums
/-!
# The ZX checker

Models `src/checker/zx/ZXChecker.cpp` and `include/checker/zx/ZXChecker.hpp`.

`zx::ZXDiagram`, the rewrite rules and `zx::FunctionalityConstruction` are external code (mqt-core).  The rules are an abstract
`Engine`; of the diagram the constructor and the final test see the positions of the inputs and outputs and the edge at each input.
A result `none` means: `.at()` throws, or the behaviour is undefined.
-/
namespace QCEC.Prep

/-- `std::map::operator[]` with assignment: overwrites; `src/checker/zx/ZXChecker.cpp:120,130,159`. -/
def Layout.set : Layout → Nat → Nat → Layout
  | [], k, v => [(k, v)]
  | e :: r, k, v => if k < e.1 then (k, v) :: e :: r else if k = e.1 then (k, v) :: r else e :: Layout.set r k v

end QCEC.Prep

namespace QCEC.ZX
open QCEC QCEC.Prep

/-! ## Permutations -/

/-- `invert`, `src/checker/zx/ZXChecker.cpp:117-123`. -/
def invert (p : Layout) : Layout := p.foldl (fun a e => a.set e.2 e.1) []

/-- Body of the loop of `concat`, `src/checker/zx/ZXChecker.cpp:128-132`. -/
def concatStep (p2 : Layout) (a : Layout) (e : Nat × Nat) : Layout :=
  match p2.get e.2 with
  | some w => a.set e.1 w
  | none => a

/-- `concat`, `src/checker/zx/ZXChecker.cpp:124-134`. -/
def concat (p1 p2 : Layout) : Layout := p1.foldl (concatStep p2) []

/-- Local variables of `complete`, `src/checker/zx/ZXChecker.cpp:141-148`. -/
structure Completion where
  comp : Layout
  mappedTo : List Bool
  mappedFrom : List Nat

/-- Initialisation, `src/checker/zx/ZXChecker.cpp:141-148`; `mappedTo[v]` for `v ≥ n` is undefined. -/
def Completion.start (p : Layout) (n : Nat) : Option Completion :=
  if p.all (fun e => decide (e.2 < n)) then
    some { comp := p, mappedTo := p.foldl (fun m e => m.set e.2 true) (List.replicate n false), mappedFrom := p.map (·.1) }
  else none

/-- One round of the outer loop, `src/checker/zx/ZXChecker.cpp:151-165`; the inner loop ends at the first free `j`. -/
def Completion.step (n : Nat) (s : Completion) (i : Nat) : Completion :=
  if s.mappedTo.getD i false then s
  else
    match (List.range n).find? (fun j => !s.mappedFrom.contains j) with
    | some j => { comp := s.comp.set j i, mappedTo := s.mappedTo.set i true, mappedFrom := j :: s.mappedFrom }
    | none => s

/-- `complete`, `src/checker/zx/ZXChecker.cpp:136-167`. -/
def complete (p : Layout) (n : Nat) : Option Layout :=
  if p.length = n then some p
  else (Completion.start p n).map fun s => ((List.range n).foldl (Completion.step n) s).comp

/-- `invertPermutations`, `src/checker/zx/ZXChecker.cpp:169-172`, in terms of the two layouts and the number of qubits. -/
def invertLayouts (out init : Layout) (n : Nat) : Option Layout :=
  match complete out n, complete init n with
  | some o, some i => some (concat (invert o) i)
  | _, _ => none

/-- `invertPermutations`, `src/checker/zx/ZXChecker.cpp:169-172`. -/
def invertPermutations {α : Type} (c : Circ α) : Option Layout := invertLayouts c.outputPermutation c.initialLayout c.nqubits

/-! ## Constructor: fixing the ancillaries -/

/-- Inputs and outputs of a diagram, each given by the number of its qubit, in the order of `getInputs()`/`getOutputs()` (handled in `src/checker/zx/ZXChecker.cpp:41-52`). -/
structure Ports where
  inputs : List Nat
  outputs : List Nat
  deriving DecidableEq

/-- The ports of a diagram of `n` qubits as built by `buildFunctionality` (called in `src/checker/zx/ZXChecker.cpp:30,32`). -/
def Ports.new (n : Nat) : Ports := ⟨List.range n, List.range n⟩

/-- mqt-core's `makeAncilla(in, out)`, called at `src/checker/zx/ZXChecker.cpp:46-49`: plugs |0⟩ into the input at position `in` and
⟨0| into the output at position `out` of the current lists, and erases both positions. -/
def Ports.makeAncilla (d : Ports) (i o : Nat) : Option Ports :=
  if i < d.inputs.length ∧ o < d.outputs.length then some ⟨d.inputs.eraseIdx i, d.outputs.eraseIdx o⟩ else none

/-- Body of the loop for one of the two diagrams, `src/checker/zx/ZXChecker.cpp:46-49`. -/
def fixAncilla (p : Layout) (d : Ports) (anc : Nat) : Option Ports :=
  match p.get anc with
  | some o => d.makeAncilla anc o
  | none => none

/-- The loop over the ancillaries for one diagram, `src/checker/zx/ZXChecker.cpp:42-50`, from the last qubit down; `data` is
`qc1->getNqubitsWithoutAncillae()` for both diagrams. -/
def fixAncillae (p : Layout) (data n : Nat) : Option Ports :=
  (List.range' data (n - data)).reverse.foldlM (fixAncilla p) (Ports.new n)

/-- The constructor, `src/checker/zx/ZXChecker.cpp:26-53`: ports of the two diagrams (before one is inverted and both are joined).
It is `noexcept`: `none` also means that an exception ends the process. -/
def construct {α : Type} (qc1 qc2 : Circ α) : Option (Ports × Ports) :=
  match invertPermutations qc1, invertPermutations qc2 with
  | some p1, some p2 =>
    match fixAncillae p1 qc1.ndata qc1.nqubits, fixAncillae p2 qc1.ndata qc1.nqubits with
    | some d1, some d2 => some (d1, d2)
    | _, _ => none
  | _, _ => none

/-- The flag `ancilla`, `src/checker/zx/ZXChecker.cpp:34-36`. -/
def hasAncilla {α : Type} (qc1 qc2 : Circ α) : Bool := decide (qc1.nancillae ≠ 0) || decide (qc2.nancillae ≠ 0)

/-! ## The final test -/

/-- The edge at an input of the reduced miter: its type, the qubit of the input and the qubit of the vertex at the other end (read in `src/checker/zx/ZXChecker.cpp:73-86`). -/
structure Wire where
  hadamard : Bool
  inQubit : Nat
  outQubit : Nat
  deriving DecidableEq

/-- What the final test sees of the reduced miter: `getNEdges()`, `getNQubits()` (the number of inputs), the edge at every input, and
`globalPhaseIsZero()` (read in `src/checker/zx/ZXChecker.cpp:62-90,105`). -/
structure Miter where
  nEdges : Nat
  nQubits : Nat
  wire : Nat → Wire
  phaseZero : Bool

/-- Test of one input, `src/checker/zx/ZXChecker.cpp:67-88`: `some true` to go on, `some false` for `equivalent = false; break`. -/
def testInput (g1 g2 : Nat → Bool) (p1 p2 : Layout) (m : Miter) (i : Nat) : Option Bool :=
  if g1 i && g2 i then some true
  else if (m.wire i).hadamard then some false
  else
    match p1.get (m.wire i).inQubit, p2.get (m.wire i).outQubit with
    | some a, some b => some (decide (a = b))
    | _, _ => none

/-- The loop over the inputs, `src/checker/zx/ZXChecker.cpp:66-89`. -/
def testInputs (g1 g2 : Nat → Bool) (p1 p2 : Layout) (m : Miter) : List Nat → Option Bool
  | [] => some true
  | i :: r =>
    match testInput g1 g2 p1 p2 m i with
    | some true => testInputs g1 g2 p1 p2 m r
    | x => x

/-- The variable `equivalent`, `src/checker/zx/ZXChecker.cpp:60-92`. -/
def testMiter {α : Type} (qc1 qc2 : Circ α) (m : Miter) : Option Bool :=
  if m.nEdges = m.nQubits then
    match invertPermutations qc1, invertPermutations qc2 with
    | some p1, some p2 => testInputs qc1.isGarbage qc2.isGarbage (invert p1) (invert p2) m (List.range m.nQubits)
    | _, _ => none
  else some false

/-- The verdict, `src/checker/zx/ZXChecker.cpp:97-114`. -/
def verdict (equivalent ancilla done phaseZero : Bool) : Criterion :=
  if (!equivalent && ancilla) || done then .noInformation
  else if equivalent then
    if phaseZero then .equivalent else .equivalentUpToGlobalPhase
  else .probablyNotEquivalent

/-- `run` after the reduction to `m`, `src/checker/zx/ZXChecker.cpp:60-115`; `done` is the last `isDone()`. -/
def finish {α : Type} (qc1 qc2 : Circ α) (m : Miter) (done : Bool) : Option Criterion :=
  (testMiter qc1 qc2 m).map fun e => verdict e (hasAncilla qc1 qc2) done m.phaseZero

/-! ## Simplification loops -/

/-- The rewrite rules (`include/checker/zx/ZXChecker.hpp:49-67`). -/
inductive Rule
  | id | spider | localComp | pivotPauli | pivot | pivotGadget | gadget
  deriving DecidableEq, Repr

/-- The external code working on diagrams of type `D`; candidates (vertices or pairs of vertices) are of type `X`.
`check` comprises the tests `isDeleted`; `visit r k d` are the candidates an iteration over the live diagram visits in the `k`-th sweep (called in `src/checker/zx/ZXChecker.cpp:174-253`, `include/checker/zx/ZXChecker.hpp:69-108`). -/
structure Engine (D X : Type) where
  check : Rule → D → X → Bool
  apply : Rule → D → X → D
  elems : Rule → D → List X
  visit : Rule → Nat → D → List X
  toGraphlike : D → D
  approximateCliffords : D → D
  removeDisconnected : D → D

/-- State: the miter, the number of calls of `isDone()` and the number of sweeps so far (`src/checker/zx/ZXChecker.cpp:174-253`). -/
structure St (D : Type) where
  d : D
  polls : Nat
  sweeps : Nat

variable {D X : Type}

/-- A call of `isDone()` (`src/checker/zx/ZXChecker.cpp:176-251`). -/
def St.polled (s : St D) : St D := { s with polls := s.polls + 1 }

/-- Rules whose sweep asks `isDone()` before every candidate: all but `gadgetSimp` (`ZXChecker.cpp:211-218`,
`ZXChecker.hpp:74-77,94-98`). -/
def Rule.polls : Rule → Bool
  | .gadget => false
  | _ => true

/-- One candidate of a sweep, `ZXChecker.hpp:74-80,94-101`, `ZXChecker.cpp:211-218`; the flag is `moreSimplified`. -/
def visitOne (E : Engine D X) (stop : Nat → Bool) (r : Rule) (a : Bool × St D) (x : X) : Bool × St D :=
  if r.polls then
    if stop a.2.polls then (a.1, a.2.polled)
    else if E.check r a.2.d x then (true, { a.2.polled with d := E.apply r a.2.d x }) else (a.1, a.2.polled)
  else if E.check r a.2.d x then (true, { a.2 with d := E.apply r a.2.d x }) else a

/-- One sweep over all candidates, `ZXChecker.hpp:73-80,93-101`, `ZXChecker.cpp:210-218`. -/
def sweep (E : Engine D X) (stop : Nat → Bool) (r : Rule) (s : St D) : Option (Bool × St D) :=
  some ((E.visit r s.sweeps s.d).foldl (visitOne E stop r) (false, { s with sweeps := s.sweeps + 1 }))

/-- `while (!isDone()) { more = ...; if (!more) break; simplified = true; }`; `none`: not finished within the given number of rounds (`src/checker/zx/ZXChecker.cpp:191-200,209-223,229-238,244-251`). -/
def whileMore (stop : Nat → Bool) (body : St D → Option (Bool × St D)) : Nat → Bool → St D → Option (Bool × St D)
  | 0, _, _ => none
  | f + 1, simplified, s =>
    if stop s.polls then some (simplified, s.polled)
    else
      match body s.polled with
      | none => none
      | some (false, s') => some (simplified, s')
      | some (true, s') => whileMore stop body f true s'

/-- `more = a(); more |= b(); ...` (`src/checker/zx/ZXChecker.cpp:192-195,230-233,245-246`). -/
def orAll : List (St D → Option (Bool × St D)) → St D → Option (Bool × St D)
  | [], s => some (false, s)
  | p :: r, s =>
    match p s with
    | none => none
    | some (b, s') =>
      match orAll r s' with
      | none => none
      | some (b', s'') => some (b || b', s'')

/-- `simplifyVertices`, `simplifyEdges` (`ZXChecker.hpp:69-108`) for the six rules, `gadgetSimp` (`ZXChecker.cpp:207-225`). -/
def simplify (E : Engine D X) (stop : Nat → Bool) (f : Nat) (r : Rule) : St D → Option (Bool × St D) :=
  whileMore stop (sweep E stop r) f false

/-- `interiorCliffordSimp`, `ZXChecker.cpp:227-240`. -/
def interiorCliffordSimp (E : Engine D X) (stop : Nat → Bool) (f : Nat) (s : St D) : Option (Bool × St D) :=
  match simplify E stop f .spider s with
  | none => none
  | some (b, s') => whileMore stop (orAll [simplify E stop f .id, simplify E stop f .spider, simplify E stop f .pivotPauli,
      simplify E stop f .localComp]) f b s'

/-- `cliffordSimp`, `ZXChecker.cpp:242-253`. -/
def cliffordSimp (E : Engine D X) (stop : Nat → Bool) (f : Nat) : St D → Option (Bool × St D) :=
  whileMore stop (orAll [interiorCliffordSimp E stop f, simplify E stop f .pivot]) f false

/-- `if (!isDone()) miter.f()`, `ZXChecker.cpp:187-189,201-203`. -/
def unlessDone (stop : Nat → Bool) (g : D → D) (s : St D) : St D :=
  if stop s.polls then s.polled else { s.polled with d := g s.d }

/-- Loop of `fullReduce`, `ZXChecker.cpp:191-200`. -/
def reduceLoop (E : Engine D X) (stop : Nat → Bool) (f : Nat) : Bool → St D → Option (Bool × St D) :=
  whileMore stop (orAll [cliffordSimp E stop f, simplify E stop f .gadget, interiorCliffordSimp E stop f,
    simplify E stop f .pivotGadget]) f

/-- `fullReduce`, `ZXChecker.cpp:186-205`. -/
def fullReduce (E : Engine D X) (stop : Nat → Bool) (f : Nat) (s : St D) : Option (Bool × St D) :=
  match interiorCliffordSimp E stop f (unlessDone stop E.toGraphlike s) with
  | none => none
  | some (b, s1) =>
    match reduceLoop E stop f b s1 with
    | none => none
    | some (b', s2) => some (b', unlessDone stop E.removeDisconnected s2)

/-- Body of the loop of `fullReduceApproximate`, `ZXChecker.cpp:177-180`. -/
def approxRound (E : Engine D X) (stop : Nat → Bool) (f : Nat) (s : St D) : Option (Bool × St D) :=
  fullReduce E stop f { s with d := E.approximateCliffords s.d }

/-- `fullReduceApproximate`, `ZXChecker.cpp:174-184`. -/
def fullReduceApproximate (E : Engine D X) (stop : Nat → Bool) (f : Nat) (s : St D) : Option (Bool × St D) :=
  match fullReduce E stop f s with
  | none => none
  | some (b, s') => whileMore stop (approxRound E stop f) f b s'

end QCEC.ZX
