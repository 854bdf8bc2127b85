import Verif.Model.Enums
/-!
# Reference counts of decision diagrams

The package frees in `garbageCollect()` what has no reference, and the checkers have to hold references to what they still need:
`incRef`, `decRef` and `garbageCollect` in `include/checker/dd/TaskManager.hpp:68-84,140-144`,
`include/checker/dd/applicationscheme/LookaheadApplicationScheme.hpp:34-81`, `src/checker/dd/DDAlternatingChecker.cpp:21-50`,
`include/checker/dd/DDConstructionChecker.hpp:38-46`, `src/checker/dd/DDSimulationChecker.cpp:27-56`,
`src/checker/dd/simulation/StateGenerator.cpp:131-160`.  This model keeps of the checkers' control flow (`Model/DD.lean`) what decides which
decision diagrams are touched in which order; everything else – the results of the package, sizes, the moment of being stopped, what a
collection frees – is arbitrary.
-/
namespace QCEC.Mem

/-- A decision diagram held by a checker: one that needs no memory of the package (the identity), or a node (members in `include/checker/dd/TaskManager.hpp:147-153`). -/
inductive Dd
  | fixed
  | node (a : Nat)
  deriving DecidableEq, Repr

/-- The package's memory.  Identifiers of nodes are never used twice, so that a stale one is recognised.  `fault` records a use of a freed
node or a reference given back that nobody held (the package of `include/checker/dd/DDEquivalenceChecker.hpp:40-47`). -/
structure Heap where
  refs : Nat → Nat := fun _ => 0
  live : Nat → Bool := fun _ => false
  next : Nat := 0
  calls : Nat := 0
  fault : Bool := false

/-- The arbitrary choices of the package, by number of the call: which existing diagram a result coincides with (if it is not alive, the
result is a new node), which unreferenced nodes a collection frees, whether a reduction changes anything and whether its argument is (a
multiple of) the identity, how many SWAPs `changePermutation` applies, how many gates a random Clifford circuit has (of the calls in `include/checker/dd/TaskManager.hpp:70-137`). -/
structure Lib where
  answer : Nat → Dd
  frees : Nat → Nat → Bool
  reduces : Nat → Bool
  onIdentity : Nat → Bool
  swaps : Nat → Nat
  gates : Nat → Nat

/-- The diagram can be used (for the calls in `include/checker/dd/TaskManager.hpp:70-137`). -/
def Heap.ok (h : Heap) : Dd → Bool
  | .fixed => true
  | .node a => h.live a

/-- The diagram is used (for the calls in `include/checker/dd/TaskManager.hpp:70-137`). -/
def Heap.use (h : Heap) (d : Dd) : Heap := { h with fault := h.fault || !h.ok d }

/-- The package returns a diagram; nothing is freed (for the calls in `include/checker/dd/TaskManager.hpp:70-137`). -/
def Heap.result (L : Lib) (h : Heap) : Heap × Dd :=
  match L.answer h.calls with
  | .fixed => ({ h with calls := h.calls + 1 }, .fixed)
  | .node a =>
    if h.live a then ({ h with calls := h.calls + 1 }, .node a)
    else ({ h with calls := h.calls + 1, next := h.next + 1, live := fun b => decide (b = h.next) || h.live b }, .node h.next)

/-- `dd::Package::multiply` (external) (called in `include/checker/dd/TaskManager.hpp:70-86`). -/
def Heap.multiply (L : Lib) (h : Heap) (x y : Dd) : Heap × Dd := ((h.use x).use y).result L

/-- `dd::Package::incRef` (external) (called in `include/checker/dd/TaskManager.hpp:82`). -/
def Heap.incRef (h : Heap) (d : Dd) : Heap :=
  match d with
  | .fixed => h
  | .node a => { h.use d with refs := fun b => if b = a then h.refs b + 1 else h.refs b }

/-- `dd::Package::decRef` (external) (called in `include/checker/dd/TaskManager.hpp:83`). -/
def Heap.decRef (h : Heap) (d : Dd) : Heap :=
  match d with
  | .fixed => h
  | .node a =>
    { h.use d with
      refs := fun b => if b = a then h.refs b - 1 else h.refs b
      fault := (h.use d).fault || decide (h.refs a = 0) }

/-- `dd::Package::garbageCollect` (external): frees any unreferenced nodes; that nodes below a referenced one stay is covered by this (called in `include/checker/dd/TaskManager.hpp:84`). -/
def Heap.collect (L : Lib) (h : Heap) : Heap :=
  { h with
    live := fun a => h.live a && !(decide (h.refs a = 0) && L.frees h.calls a)
    calls := h.calls + 1 }

/-- Replace a diagram by its product with a matrix, taking over the reference; `TaskManager.hpp:68-84`, and `dd::changePermutation` and
`dd::simulate` do the same (external). -/
def step (L : Lib) (h : Heap) (d : Dd) : Heap × Dd :=
  let m := h.result L
  let r := m.1.multiply L m.2 d
  let h := r.1.incRef r.2
  let h := h.decRef d
  (h.collect L, r.2)

/-- `k` such steps (for the call in `include/checker/dd/TaskManager.hpp:112-115`). -/
def steps (L : Lib) : Nat → Heap → Dd → Heap × Dd
  | 0, h, d => (h, d)
  | k + 1, h, d => let r := step L h d; steps L k r.1 r.2

/-- `dd::changePermutation` (external), `TaskManager.hpp:108-112`. -/
def changePerm (L : Lib) (h : Heap) (d : Dd) : Heap × Dd := steps L (L.swaps h.calls) h d

/-- `dd::Package::reduceAncillae` (external): unchanged, or a new diagram that gets a reference while the argument loses its one – except
that the reference to a multiple of the identity is kept (called in `include/checker/dd/TaskManager.hpp:118-123`). -/
def reduceAncillae (L : Lib) (h : Heap) (d : Dd) : Heap × Dd :=
  if L.reduces h.calls then
    let r := (h.use d).result L
    let h' := r.1.incRef r.2
    (if L.onIdentity h.calls then h' else h'.decRef d, r.2)
  else (h.use d, d)

/-- `dd::Package::reduceGarbage` (external): unchanged, or a new diagram that gets a reference while the argument loses its one (called in `include/checker/dd/TaskManager.hpp:130-137`). -/
def reduceGarbage (L : Lib) (h : Heap) (d : Dd) : Heap × Dd :=
  if L.reduces h.calls then
    let r := (h.use d).result L
    ((r.1.incRef r.2).decRef d, r.2)
  else (h.use d, d)

section
variable {α : Type}

/-- A task manager: remaining operations and internal state; `TaskManager.hpp:146-152`. -/
structure Task (α : Type) where
  rest : List α
  state : Dd := .fixed

/-- `applySwapOperations`, `TaskManager.hpp:86-91`. -/
def applySwaps (L : Lib) (isSwap : α → Bool) : List α → Heap → Dd → Heap × Dd × List α
  | [], h, d => (h, d, [])
  | op :: r, h, d =>
    if isSwap op then let s := step L h d; applySwaps L isSwap r s.1 s.2
    else (h, d, op :: r)

/-- `advance`, `TaskManager.hpp:93-98`. -/
def advance (L : Lib) (isSwap : α → Bool) : Nat → List α → Heap → Dd → Heap × Dd × List α
  | 0, l, h, d => (h, d, l)
  | _ + 1, [], h, d => (h, d, [])
  | k + 1, _ :: l, h, d =>
    let s := step L h d
    let t := applySwaps L isSwap l s.1 s.2
    advance L isSwap k t.2.2 t.1 t.2.1

/-- `finish`, `TaskManager.hpp:103-107`: the same operations one after the other. -/
def finish (L : Lib) (l : List α) (h : Heap) (d : Dd) : Heap × Dd := steps L l.length h d

/-- How a run is influenced from outside: what the calls of `isDone()` return, what the application scheme answers (`src/checker/dd/DDEquivalenceChecker.cpp:155-175`). -/
structure Ctl (α : Type) where
  isSwap : α → Bool
  scheme : List α → List α → Nat × Nat
  stop : Nat → Bool

/-- Both task managers and the memory they share (`include/checker/dd/DDEquivalenceChecker.hpp:40-47`). -/
structure Two (α : Type) where
  h : Heap
  d1 : Dd
  l1 : List α
  d2 : Dd
  l2 : List α
  polls : Nat

/-- `DDEquivalenceChecker::execute`, `DDEquivalenceChecker.cpp:155-175`, with a bound on the number of rounds. -/
def executeTwo (L : Lib) (c : Ctl α) : Nat → Two α → Two α
  | 0, s => s
  | fuel + 1, s =>
    if s.l1.isEmpty || s.l2.isEmpty then s
    else if c.stop s.polls then { s with polls := s.polls + 1 }
    else
      let r1 := applySwaps L c.isSwap s.l1 s.h s.d1
      let r2 := applySwaps L c.isSwap s.l2 r1.1 s.d2
      let s : Two α := { h := r2.1, d1 := r1.2.1, l1 := r1.2.2, d2 := r2.2.1, l2 := r2.2.2, polls := s.polls + 1 }
      if s.l1.isEmpty || s.l2.isEmpty then executeTwo L c fuel s
      else if c.stop s.polls then executeTwo L c fuel { s with polls := s.polls + 1 }
      else
        let a := c.scheme s.l1 s.l2
        let n := s.polls + 1
        let r1 := if c.stop n then (s.h, s.d1, s.l1) else advance L c.isSwap a.1 s.l1 s.h s.d1
        let r2 := if c.stop (n + 1) then (r1.1, s.d2, s.l2) else advance L c.isSwap a.2 s.l2 r1.1 s.d2
        executeTwo L c fuel { h := r2.1, d1 := r1.2.1, l1 := r1.2.2, d2 := r2.2.1, l2 := r2.2.2, polls := n + 2 }

/-- `DDEquivalenceChecker::finish`, `DDEquivalenceChecker.cpp:177-186`. -/
def finishTwo (L : Lib) (c : Ctl α) (s : Two α) : Two α :=
  let r1 := if c.stop s.polls then (s.h, s.d1) else finish L s.l1 s.h s.d1
  let r2 := if c.stop (s.polls + 1) then (r1.1, s.d2) else finish L s.l2 r1.1 s.d2
  { s with h := r2.1, d1 := r1.2, d2 := r2.2, polls := s.polls + 2 }

/-- `postprocessTask`, `DDEquivalenceChecker.cpp:188-209`; `matrix` tells whether the diagrams are matrices (`TaskManager.hpp:118-123`). -/
def postprocessTask (L : Lib) (c : Ctl α) (matrix partialEq : Bool) (h : Heap) (d : Dd) (n : Nat) : Heap × Dd × Nat :=
  let r := changePerm L h d
  if c.stop n then (r.1, r.2, n + 1)
  else
    let r := if matrix then reduceAncillae L r.1 r.2 else r
    if c.stop (n + 1) then (r.1, r.2, n + 2)
    else
      let r := if partialEq then reduceGarbage L r.1 r.2 else r
      (r.1, r.2, n + 2)

/-- `postprocess`, `DDEquivalenceChecker.cpp:211-219`. -/
def postprocessTwo (L : Lib) (c : Ctl α) (matrix partialEq : Bool) (s : Two α) : Two α :=
  let r1 := if c.stop s.polls then (s.h, s.d1, s.polls + 1) else postprocessTask L c matrix partialEq s.h s.d1 (s.polls + 1)
  let r2 := if c.stop r1.2.2 then (r1.1, s.d2, r1.2.2 + 1) else postprocessTask L c matrix partialEq r1.1 s.d2 (r1.2.2 + 1)
  { s with h := r2.1, d1 := r1.2.1, d2 := r2.2.1, polls := r2.2.2 }

/-- `equals`, `DDEquivalenceChecker.cpp:27-102`: both diagrams are used, no reference changes. -/
def equals (L : Lib) (h : Heap) (d1 d2 : Dd) : Heap :=
  let r := (((h.use d1).use d2).use d2).result L
  (r.1.multiply L d1 r.2).1

/-- `initializeTask` of the construction checker, `DDConstructionChecker.hpp:38-46`. -/
def constructionInit (L : Lib) (h : Heap) : Heap × Dd := reduceAncillae L (h.incRef .fixed) .fixed

/-- `run()` of the construction checker, `DDEquivalenceChecker.cpp:104-141`: the memory afterwards. -/
def runConstruction (L : Lib) (c : Ctl α) (partialEq : Bool) (ops1 ops2 : List α) (fuel : Nat) (h : Heap) : Heap :=
  let i1 := constructionInit L h
  let i2 := constructionInit L i1.1
  let s := executeTwo L c fuel { h := i2.1, d1 := i1.2, l1 := ops1, d2 := i2.2, l2 := ops2, polls := 0 }
  let s := finishTwo L c s
  let s := postprocessTwo L c true partialEq s
  if c.stop s.polls then s.h else equals L s.h s.d1 s.d2

/-- `run()` called several times on one construction checker (`src/checker/dd/DDEquivalenceChecker.cpp:104-141`). -/
def runsConstruction (L : Lib) (partialEq : Bool) (ops1 ops2 : List α) : List (Ctl α × Nat) → Heap → Heap
  | [], h => h
  | (c, fuel) :: l, h => runsConstruction L partialEq ops1 ops2 l (runConstruction L c partialEq ops1 ops2 fuel h)

/-- `run()` of the simulation checker with the stimulus `init`, `DDEquivalenceChecker.cpp:104-141` with `DDSimulationChecker.cpp:27-42`: the
memory afterwards and whether the check was completed. -/
def runSimulation (L : Lib) (c : Ctl α) (partialEq : Bool) (ops1 ops2 : List α) (fuel : Nat) (h : Heap) (init : Dd) : Heap × Bool :=
  let h := (h.incRef init).incRef init
  let s := executeTwo L c fuel { h := h, d1 := init, l1 := ops1, d2 := init, l2 := ops2, polls := 0 }
  let s := finishTwo L c s
  let s := postprocessTwo L c false partialEq s
  if c.stop s.polls then (s.h, false)
  else (((equals L s.h s.d1 s.d2).decRef s.d1).decRef s.d2, true)

/-- The diagram gets a level for every ancillary qubit: `makeDDNode` in `StateGenerator.cpp:149-155`. -/
def addLevels (L : Lib) : Nat → Heap → Dd → Heap × Dd
  | 0, h, d => (h, d)
  | k + 1, h, d => let r := (h.use d).result L; addLevels L k r.1 r.2

/-- `generateRandomState`, `StateGenerator.cpp:29-160`.  `dd::simulate` (external) takes a reference to its argument, replaces it gate by gate
and returns a diagram with one reference. -/
def stimulus (L : Lib) (t : StateType) (ancillary : Nat) (h : Heap) : Heap × Dd :=
  match t with
  | .stabilizer =>
    let z := h.result L
    let r := steps L (L.gates z.1.calls) (z.1.incRef z.2) z.2
    let r := changePerm L r.1 r.2
    addLevels L ancillary (r.1.decRef r.2) r.2
  | _ => h.result L

/-- One simulation: how it is influenced from outside, and the type of its stimulus (`src/checker/dd/DDSimulationChecker.cpp:18-56`). -/
structure Sim (α : Type) where
  ctl : Ctl α
  type : StateType
  fuel : Nat

/-- The simulations performed with one checker, one after the other: `EquivalenceCheckingManager.cpp:437-465` calls
`setRandomInitialState` (`DDSimulationChecker.cpp:44-51`) and `run()`.  Also the number of simulations that were stopped. -/
def simulations (L : Lib) (partialEq : Bool) (ops1 ops2 : List α) (ancillary : Nat) : List (Sim α) → Heap → Heap × Nat
  | [], h => (h, 0)
  | s :: l, h =>
    let i := stimulus L s.type ancillary h
    let r := runSimulation L s.ctl partialEq ops1 ops2 s.fuel i.1 i.2
    let q := simulations L partialEq ops1 ops2 ancillary l r.1
    (q.1, q.2 + if r.2 then 0 else 1)

/-- Life of a simulation checker: the constructor builds the all-zero state (`DDSimulationChecker.cpp:18-25`), which nobody references. -/
def simulationChecker (L : Lib) (partialEq : Bool) (ops1 ops2 : List α) (ancillary : Nat) (l : List (Sim α)) : Heap × Nat :=
  simulations L partialEq ops1 ops2 ancillary l (Heap.result L {}).1

/-- State of the alternating checker: the shared functionality, the two cached operations of the lookahead scheme
(`DDAlternatingChecker.hpp:53`, `LookaheadApplicationScheme.hpp:84-95`). -/
structure Alt (α : Type) where
  h : Heap
  d : Dd
  l1 : List α
  l2 : List α
  op1 : Option Dd := none
  op2 : Option Dd := none
  polls : Nat

/-- Choices of the alternating checker that depend on the diagrams: whether identical gates are skipped, and which product is smaller (`src/checker/dd/DDAlternatingChecker.cpp:52-81`). -/
structure AltCtl (α : Type) extends Ctl α where
  lookahead : Bool
  skips : Nat → Bool
  first : Nat → Bool

/-- `LookaheadApplicationScheme.hpp:38-49`: the cached operation, or a new one that gets a reference. -/
def cache (L : Lib) (h : Heap) (op : Option Dd) : Heap × Dd :=
  match op with
  | some m => (h, m)
  | none => let r := h.result L; (r.1.incRef r.2, r.2)

/-- `LookaheadApplicationScheme::operator()`, `LookaheadApplicationScheme.hpp:34-81`. -/
def lookaheadStep (L : Lib) (c : AltCtl α) (s : Alt α) : Alt α :=
  let m1 := cache L s.h s.op1
  let m2 := cache L m1.1 s.op2
  let dd1 := m2.1.multiply L m1.2 s.d
  let dd2 := (dd1.1.use dd1.2).multiply L s.d m2.2
  let h := dd2.1.use dd2.2
  if c.first h.calls then
    let h := ((h.decRef m1.2).incRef dd1.2).decRef s.d
    { s with h := h.collect L, d := dd1.2, l1 := s.l1.tail, op1 := none, op2 := some m2.2 }
  else
    let h := ((h.decRef m2.2).incRef dd2.2).decRef s.d
    { s with h := h.collect L, d := dd2.2, l2 := s.l2.tail, op1 := some m1.2, op2 := none }

/-- `DDAlternatingChecker::execute`, `DDAlternatingChecker.cpp:52-81`, with a bound on the number of rounds. -/
def executeAlt (L : Lib) (c : AltCtl α) : Nat → Alt α → Alt α
  | 0, s => s
  | fuel + 1, s =>
    if s.l1.isEmpty || s.l2.isEmpty then s
    else if c.stop s.polls then { s with polls := s.polls + 1 }
    else
      let r1 := applySwaps L c.isSwap s.l1 s.h s.d
      let r2 := applySwaps L c.isSwap s.l2 r1.1 r1.2.1
      let s : Alt α := { s with h := r2.1, d := r2.2.1, l1 := r1.2.2, l2 := r2.2.2, polls := s.polls + 1 }
      if s.l1.isEmpty || s.l2.isEmpty then executeAlt L c fuel s
      else if c.stop s.polls then executeAlt L c fuel { s with polls := s.polls + 1 }
      else
        let n := s.polls + 1
        if c.lookahead then executeAlt L c fuel { lookaheadStep L c s with polls := n + 2 }
        else if c.skips s.h.calls then
          executeAlt L c fuel { s with h := s.h.use s.d, l1 := s.l1.tail, l2 := s.l2.tail, polls := n }
        else
          let a := c.scheme s.l1 s.l2
          let r1 := if c.stop n then (s.h, s.d, s.l1) else advance L c.isSwap a.1 s.l1 s.h s.d
          let r2 := if c.stop (n + 1) then (r1.1, r1.2.1, s.l2) else advance L c.isSwap a.2 s.l2 r1.1 r1.2.1
          executeAlt L c fuel { s with h := r2.1, d := r2.2.1, l1 := r1.2.2, l2 := r2.2.2, polls := n + 2 }

/-- `DDAlternatingChecker::finish`, `DDAlternatingChecker.cpp:83-88`. -/
def finishAlt (L : Lib) (c : AltCtl α) (s : Alt α) : Alt α :=
  let r1 := finish L s.l1 s.h s.d
  let r2 := if c.stop s.polls then r1 else finish L s.l2 r1.1 r1.2
  { s with h := r2.1, d := r2.2, polls := s.polls + 1 }

/-- `DDAlternatingChecker::postprocess`, `DDAlternatingChecker.cpp:90-95`. -/
def postprocessAlt (L : Lib) (c : AltCtl α) (s : Alt α) : Alt α :=
  let p1 := changePerm L s.h s.d
  let p2 := if c.stop s.polls then p1 else changePerm L p1.1 p1.2
  { s with h := p2.1, d := p2.2, polls := s.polls + 1 }

/-- The end of `run()`, `DDEquivalenceChecker.cpp:119-124`, and `DDAlternatingChecker::checkEquivalence`, `DDAlternatingChecker.cpp:99-122`. -/
def checkAlt (c : AltCtl α) (s : Alt α) : Alt α := { s with h := if c.stop s.polls then s.h else s.h.use s.d, polls := s.polls + 1 }

/-- `run()` of the alternating checker, `DDEquivalenceChecker.cpp:104-141` with `DDAlternatingChecker.cpp:21-122`, for circuits it can
handle; `op1`, `op2` are the operations that the lookahead scheme has cached before. -/
def runAlt (L : Lib) (c : AltCtl α) (ops1 ops2 : List α) (fuel : Nat) (h : Heap) (op1 op2 : Option Dd) : Alt α :=
  let i := reduceAncillae L (h.incRef .fixed) .fixed
  let s := executeAlt L c fuel { h := i.1, d := i.2, l1 := ops1, l2 := ops2, op1 := op1, op2 := op2, polls := 0 }
  checkAlt c (postprocessAlt L c (finishAlt L c s))

/-- `run()` called several times on one alternating checker (`src/checker/dd/DDEquivalenceChecker.cpp:104-141`). -/
def runsAlt (L : Lib) (ops1 ops2 : List α) : List (AltCtl α × Nat) → Heap → Option Dd → Option Dd → Heap
  | [], h, _, _ => h
  | (c, fuel) :: l, h, op1, op2 =>
    let s := runAlt L c ops1 ops2 fuel h op1 op2
    runsAlt L ops1 ops2 l s.h s.op1 s.op2

end
end QCEC.Mem
