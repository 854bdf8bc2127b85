import Verif.Model.Config
import Verif.Model.Profile
/-!
# Decision-diagram based checkers: task managers, application schemes, checker control flow

Models `include/checker/dd/TaskManager.hpp`, `include/checker/dd/applicationscheme/*.hpp`,
`src/checker/dd/DDEquivalenceChecker.cpp`, `include/checker/dd/DDConstructionChecker.hpp`,
`src/checker/dd/DDSimulationChecker.cpp` and `src/checker/dd/DDAlternatingChecker.cpp`.

The model is parametric in the decision-diagram package (`Backend`): operations `α`, tracked permutations `π`, output
permutations `ρ` (which may be partial), operation matrices
`M` and represented objects `D` (state vectors or matrices).  Reference counting and garbage collection of the package have
no effect on represented values; they are modelled in `Model/Memory.lean`.
-/
namespace QCEC.DD
open QCEC

/-- `enum class Direction`, `TaskManager.hpp:20`. -/
inductive Dir
  | left | right
  deriving DecidableEq, Repr

/-- The decision-diagram package as used by the checkers (external code of mqt-core, see DESIGN.md):
* `getDD op p`, `getInv op p` – `dd::getDD`, `dd::getInverseDD`: matrix of an operation (of its inverse) with qubits mapped
  through the tracked permutation, which the call may update (SWAPs);
* `mulL m d` = `multiply(m, d)`, `mulR d m` = `multiply(d, m)`;
* `changePerm regular d from to` – `dd::changePermutation`: new object and new tracked permutation;
* `reduceAncillae`, `reduceGarbage` – the reductions, with the flag vector and the `regular` flag (called in `include/checker/dd/TaskManager.hpp:55-60,70-86,112-137`). -/
structure Backend (α π ρ M D : Type) where
  isSwap : α → Bool
  getDD : α → π → M × π
  getInv : α → π → M × π
  mulL : M → D → D
  mulR : D → M → D
  changePerm : Bool → D → π → ρ → D × π
  reduceAncillae : List Bool → Bool → D → D
  reduceGarbage : List Bool → Bool → D → D

/-- The parts of `qc::QuantumComputation` (external) that the DD checkers read (read in `include/checker/dd/TaskManager.hpp:26-37` and `src/checker/dd/DDAlternatingChecker.cpp:21-50,97-121`). -/
structure Circuit (α π ρ : Type) where
  ops : List α
  initialLayout : π
  outputPermutation : ρ
  ancillary : List Bool := []
  garbage : List Bool := []

/-- Position of a task manager: remaining operations `[iterator, end)` and tracked permutation;
`TaskManager.hpp:147-153`. -/
structure Cur (α π : Type) where
  rest : List α
  perm : π

section
variable {α π ρ M D : Type}

/-- `static_cast<bool>(direction)`, `TaskManager.hpp:20,114,121,135`. -/
def Dir.regular : Dir → Bool
  | .left => true
  | .right => false

/-- Constructor and `reset`, `TaskManager.hpp:26-37`. -/
def Cur.start (qc : Circuit α π ρ) : Cur α π := { rest := qc.ops, perm := qc.initialLayout }

/-- `finished`, `TaskManager.hpp:39`. -/
def Cur.finished (c : Cur α π) : Bool := c.rest.isEmpty

/-- Effect of one operation: `applyGate`, `TaskManager.hpp:70-86`, without the iterator increment.  For state vectors the
direction is always `left` (`TaskManager.hpp:72-74`; the simulation checker never flips a direction). -/
def Backend.applyOp (b : Backend α π ρ M D) (dir : Dir) (op : α) (p : π) (d : D) : π × D :=
  match dir with
  | .left => let (m, p') := b.getDD op p; (p', b.mulL m d)
  | .right => let (m, p') := b.getInv op p; (p', b.mulR d m)

/-- `applyGate`, `TaskManager.hpp:70-86`.  Dereferencing the end iterator would be undefined behaviour; every caller checks
`finished` first, so the `[]` branch is never taken (it is the identity here). -/
def applyGate (b : Backend α π ρ M D) (dir : Dir) (c : Cur α π) (d : D) : Cur α π × D :=
  match c.rest with
  | [] => (c, d)
  | op :: r => let (p, d') := b.applyOp dir op c.perm d; ({ rest := r, perm := p }, d')

/-- Loop of `applySwapOperations`, by recursion on the remaining operations (`include/checker/dd/TaskManager.hpp:88-92`). -/
def applySwapsAux (b : Backend α π ρ M D) (dir : Dir) : List α → π → D → Cur α π × D
  | [], p, d => ({ rest := [], perm := p }, d)
  | op :: r, p, d =>
    if b.isSwap op then let (p', d') := b.applyOp dir op p d; applySwapsAux b dir r p' d'
    else ({ rest := op :: r, perm := p }, d)

/-- `applySwapOperations`, `TaskManager.hpp:88-92`. -/
def applySwaps (b : Backend α π ρ M D) (dir : Dir) (c : Cur α π) (d : D) : Cur α π × D :=
  applySwapsAux b dir c.rest c.perm d

/-- `advance`, `TaskManager.hpp:95-100`. -/
def advance (b : Backend α π ρ M D) (dir : Dir) : Nat → Cur α π → D → Cur α π × D
  | 0, c, d => (c, d)
  | k + 1, c, d =>
    if c.finished then (c, d)
    else
      let (c, d) := applyGate b dir c d
      let (c, d) := applySwaps b dir c d
      advance b dir k c d

theorem applySwapsAux_length (b : Backend α π ρ M D) (dir : Dir) (l : List α) (p : π) (d : D) :
    (applySwapsAux b dir l p d).1.rest.length ≤ l.length := by
  induction l generalizing p d with
  | nil => simp [applySwapsAux]
  | cons op r ih =>
    unfold applySwapsAux
    split
    · exact Nat.le_succ_of_le (ih _ _)
    · simp

theorem advance_one_lt (b : Backend α π ρ M D) (dir : Dir) (c : Cur α π) (d : D) (h : c.finished = false) :
    (advance b dir 1 c d).1.rest.length < c.rest.length := by
  unfold advance
  simp only [h, Bool.false_eq_true, if_false]
  unfold Cur.finished at h
  cases hr : c.rest with
  | nil => simp [hr] at h
  | cons op r =>
    simp only [applyGate, hr, advance, applySwaps]
    have := applySwapsAux_length b dir r (b.applyOp dir op c.perm d).1 (b.applyOp dir op c.perm d).2
    simp; omega

/-- `finish`, `TaskManager.hpp:105-109`. -/
def finishTask (b : Backend α π ρ M D) (dir : Dir) (c : Cur α π) (d : D) : Cur α π × D :=
  if h : c.finished = false then
    let r := advance b dir 1 c d
    finishTask b dir r.1 r.2
  else (c, d)
  termination_by c.rest.length
  decreasing_by exact advance_one_lt b dir c d h

/-! ## Application schemes -/

/-- What the application schemes read of an operation: type, number of controls, number of used qubits (read in `include/checker/dd/applicationscheme/GateCostApplicationScheme.hpp:69-83,93-96`). -/
structure OpInfo where
  type : OpType
  ncontrols : Nat
  nused : Nat
  deriving DecidableEq, Repr

/-- An application scheme as a function of the two positions (`ApplicationScheme.hpp:88-105`); `none` marks undefined
behaviour (division by zero, dereferencing an end iterator). -/
abbrev Scheme (α π : Type) := Cur α π → Cur α π → Option (Nat × Nat)

/-- `SequentialApplicationScheme.hpp:15-33`. -/
def sequentialScheme (qc1 qc2 : Circuit α π ρ) : Scheme α π := fun _ _ => some (qc1.ops.length, qc2.ops.length)

/-- `OneToOneApplicationScheme.hpp:15-24`. -/
def oneToOneScheme : Scheme α π := fun _ _ => some (1, 1)

/-- `gateRatio`, `ProportionalApplicationScheme.hpp:46-48`. -/
def gateRatio (size1 size2 : Nat) : Nat :=
  max ((max size1 size2 + min size1 size2 / 2) / min size1 size2) 1

/-- `ProportionalApplicationScheme.hpp:27-53`. -/
def proportionalScheme (info : α → OpInfo) (fusion : Bool) : Scheme α π := fun c1 c2 =>
  let size1 := c1.rest.length
  let size2 := c2.rest.length
  match c1.rest with
  | [] => none
  | op :: _ =>
    if fusion ∧ (info op).nused = 1 then some (1, 1)
    else if min size1 size2 = 0 then none
    else if size1 ≥ size2 then some (gateRatio size1 size2, 1)
    else some (1, gateRatio size1 size2)

/-- `GateCostApplicationScheme::operator()`, `GateCostApplicationScheme.hpp:64-84`. -/
def gateCostScheme (info : α → OpInfo) (fusion : Bool) (table : CostTable) : Scheme α π := fun c1 _ =>
  if table.isEmpty then some (1, 1)
  else match c1.rest with
    | [] => none
    | op :: _ =>
      if fusion ∧ (info op).nused = 1 then some (1, 1)
      else some (1, (table.find ((info op).type, (info op).ncontrols)).getD 1)

/-- Key of an operation in the cost table; `GateCostApplicationScheme.hpp:72-73,91-93`. -/
def costKeyOf (info : α → OpInfo) (op : α) : CostKey := ((info op).type, (info op).ncontrols)

/-- Outcome of `initializeApplicationScheme`, `DDEquivalenceChecker.cpp:225-269`. -/
inductive SchemeInit (α π : Type)
  | counts (s : Scheme α π)
  | lookahead
  | throws (what : String)

/-- `initializeApplicationScheme`, `DDEquivalenceChecker.cpp:225-269`; `matrix` is `DDType == MatrixDD`, `file` the content
of the profile file (if it can be opened), `opOf` mqt-core's gate-name table. -/
def initScheme (info : α → OpInfo) (opOf : String → Option OpType) (file : Option (List Char)) (cfg : Configuration)
    (matrix : Bool) (qc1 qc2 : Circuit α π ρ) (t : SchemeType) : SchemeInit α π :=
  match t with
  | .sequential => .counts (sequentialScheme qc1 qc2)
  | .oneToOne => .counts oneToOneScheme
  | .lookahead =>
    if matrix then .lookahead
    else .throws "Lookahead application scheme can only be used for matrices."
  | .gateCost =>
    if cfg.application.profile ≠ "" then
      match populateFromFile opOf file with
      | .ok table => .counts (gateCostScheme info cfg.optimizations.fuseSingleQubitGates table)
      | .error e => .throws e
    else
      .counts (gateCostScheme info cfg.optimizations.fuseSingleQubitGates
        (costFunctionTable cfg.application.costFunction (qc1.ops.map (costKeyOf info)) (qc2.ops.map (costKeyOf info))))
  | .proportional => .counts (proportionalScheme info cfg.optimizations.fuseSingleQubitGates)

/-! ## Control flow of the construction and simulation checkers -/

/-- Result of a computation that may run out of fuel (= does not terminate within the given number of loop iterations) or
exhibit undefined behaviour (for the loops of `src/checker/dd/DDEquivalenceChecker.cpp:155-175` and `src/checker/dd/DDAlternatingChecker.cpp:52-81`). -/
inductive Res (σ : Type)
  | outOfFuel
  | ub
  | ok (s : σ)

/-- State of the two task managers plus the number of `isDone()` polls made so far (`include/checker/dd/DDEquivalenceChecker.hpp:40-47`). -/
structure Two (α π D : Type) where
  c1 : Cur α π
  d1 : D
  c2 : Cur α π
  d2 : D
  polls : Nat

/-- `DDEquivalenceChecker::execute`, `DDEquivalenceChecker.cpp:155-175`.  `stop i` is what the `i`-th call of `isDone()`
returns.  Both tasks are applied from the left. -/
def executeLoop (b : Backend α π ρ M D) (sch : Scheme α π) (stop : Nat → Bool) :
    Nat → Two α π D → Res (Two α π D)
  | 0, _ => .outOfFuel
  | fuel + 1, s =>
    if s.c1.finished || s.c2.finished then .ok s
    else if stop s.polls then .ok { s with polls := s.polls + 1 }
    else
      let r1 := applySwaps b .left s.c1 s.d1
      let r2 := applySwaps b .left s.c2 s.d2
      let s : Two α π D := { c1 := r1.1, d1 := r1.2, c2 := r2.1, d2 := r2.2, polls := s.polls + 1 }
      if s.c1.finished || s.c2.finished then executeLoop b sch stop fuel s
      else if stop s.polls then executeLoop b sch stop fuel { s with polls := s.polls + 1 }
      else
        match sch s.c1 s.c2 with
        | none => .ub
        | some (a1, a2) =>
          let n := s.polls + 1
          let r1 := if stop n then (s.c1, s.d1) else advance b .left a1 s.c1 s.d1
          let r2 := if stop (n + 1) then (s.c2, s.d2) else advance b .left a2 s.c2 s.d2
          executeLoop b sch stop fuel { c1 := r1.1, d1 := r1.2, c2 := r2.1, d2 := r2.2, polls := n + 2 }

/-- `DDEquivalenceChecker::finish`, `DDEquivalenceChecker.cpp:177-186`. -/
def finishBoth (b : Backend α π ρ M D) (stop : Nat → Bool) (s : Two α π D) : Two α π D :=
  let r1 := if stop s.polls then (s.c1, s.d1) else finishTask b .left s.c1 s.d1
  let r2 := if stop (s.polls + 1) then (s.c2, s.d2) else finishTask b .left s.c2 s.d2
  { c1 := r1.1, d1 := r1.2, c2 := r2.1, d2 := r2.2, polls := s.polls + 2 }

/-- `postprocessTask`, `DDEquivalenceChecker.cpp:188-209`; returns position, object and number of polls. -/
def postprocessTask (b : Backend α π ρ M D) (partialEq : Bool) (stop : Nat → Bool) (qc : Circuit α π ρ) (dir : Dir)
    (c : Cur α π) (d : D) (n : Nat) : Cur α π × D × Nat :=
  let r := b.changePerm dir.regular d c.perm qc.outputPermutation
  let c := { c with perm := r.2 }
  if stop n then (c, r.1, n + 1)
  else
    let d := b.reduceAncillae qc.ancillary dir.regular r.1
    if stop (n + 1) then (c, d, n + 2)
    else if partialEq then (c, b.reduceGarbage qc.garbage dir.regular d, n + 2)
    else (c, d, n + 2)

/-- `postprocess`, `DDEquivalenceChecker.cpp:211-219`. -/
def postprocessBoth (b : Backend α π ρ M D) (partialEq : Bool) (stop : Nat → Bool) (qc1 qc2 : Circuit α π ρ)
    (s : Two α π D) : Two α π D :=
  let r1 := if stop s.polls then (s.c1, s.d1, s.polls + 1)
    else postprocessTask b partialEq stop qc1 .left s.c1 s.d1 (s.polls + 1)
  let n := r1.2.2
  let r2 := if stop n then (s.c2, s.d2, n + 1)
    else postprocessTask b partialEq stop qc2 .left s.c2 s.d2 (n + 1)
  { c1 := r1.1, d1 := r1.2.1, c2 := r2.1, d2 := r2.2.1, polls := r2.2.2 }

/-- `DDEquivalenceChecker::run`, `DDEquivalenceChecker.cpp:104-141`, for the construction and simulation checkers.
`init1`, `init2` are the initial objects set by `initializeTask` (`DDConstructionChecker.hpp:40-47`: the identity with
`reduceAncillae` applied; `DDSimulationChecker.cpp:29-34`: the stimulus); `verdict` is `checkEquivalence`;
`prev` is the checker's stored `equivalence` before the run.  The result is the returned criterion and the final state. -/
def runTwo (b : Backend α π ρ M D) (sch : Scheme α π) (partialEq : Bool) (verdict : D → D → Criterion)
    (stop : Nat → Bool) (prev : Criterion) (qc1 qc2 : Circuit α π ρ) (init1 init2 : D) (fuel : Nat) :
    Res (Criterion × Two α π D) :=
  match executeLoop b sch stop fuel { c1 := .start qc1, d1 := init1, c2 := .start qc2, d2 := init2, polls := 0 } with
  | .outOfFuel => .outOfFuel
  | .ub => .ub
  | .ok s =>
    let s := finishBoth b stop s
    let s := postprocessBoth b partialEq stop qc1 qc2 s
    if stop s.polls then .ok (prev, s)
    else .ok (verdict s.d1 s.d2, s)

/-- Initial object of the construction checker for a circuit; `DDConstructionChecker.hpp:40-47`. -/
def constructionInit (b : Backend α π ρ M D) (ident : D) (qc : Circuit α π ρ) : D :=
  b.reduceAncillae qc.ancillary Dir.left.regular ident

/-! ## Control flow of the alternating checker -/

/-- State of the alternating check: two positions, one shared `functionality`, lookahead caches, poll counter;
`DDAlternatingChecker.hpp:53`, `LookaheadApplicationScheme.hpp:84-93`. -/
structure Alt (α π M D : Type) where
  c1 : Cur α π
  c2 : Cur α π
  d : D
  cached1 : Option M := none
  cached2 : Option M := none
  polls : Nat

/-- Strategy of the alternating checker (chosen in `src/checker/dd/DDEquivalenceChecker.cpp:225-269`). -/
inductive AltScheme (α π D : Type)
  | counts (s : Scheme α π)
  | lookahead (size : D → Nat)

/-- `cache1`/`cache2`, `LookaheadApplicationScheme.hpp:38-49`: the cached matrix if there is one (the permutation is not
touched), otherwise a fresh one (which may update the permutation). -/
def cachedOr (cached : Option M) (perm : π) (fresh : M × π) : M × π :=
  match cached with
  | some m => (m, perm)
  | none => fresh

/-- `LookaheadApplicationScheme::operator()`, `LookaheadApplicationScheme.hpp:34-81`.  The caller guarantees that both tasks
have operations left (`none` = undefined behaviour otherwise). -/
def lookaheadStep (b : Backend α π ρ M D) (size : D → Nat) (s : Alt α π M D) : Option (Alt α π M D) :=
  match s.c1.rest, s.c2.rest with
  | op1 :: r1, op2 :: r2 =>
    -- cache the current operations; `getDD`/`getInverseDD` may update the tracked permutations
    let mp1 := cachedOr s.cached1 s.c1.perm (b.getDD op1 s.c1.perm)
    let mp2 := cachedOr s.cached2 s.c2.perm (b.getInv op2 s.c2.perm)
    let dd1 := b.mulL mp1.1 s.d
    let dd2 := b.mulR s.d mp2.1
    if size dd1 ≤ size dd2 then
      some { s with c1 := { rest := r1, perm := mp1.2 }, c2 := { s.c2 with perm := mp2.2 }, d := dd1,
                    cached1 := none, cached2 := some mp2.1 }
    else
      some { s with c1 := { s.c1 with perm := mp1.2 }, c2 := { rest := r2, perm := mp2.2 }, d := dd2,
                    cached1 := some mp1.1, cached2 := none }
  | _, _ => none

/-- `gatesAreIdentical`, `DDAlternatingChecker.cpp:124-133`; `opEq` is mqt-core's `Operation::equals` (without
permutations). -/
def gatesAreIdentical (opEq : α → α → Bool) (c1 c2 : Cur α π) : Bool :=
  match c1.rest, c2.rest with
  | op1 :: _, op2 :: _ => opEq op1 op2
  | _, _ => false

/-- `DDAlternatingChecker::execute`, `DDAlternatingChecker.cpp:52-81`; `isId` is `functionality.isIdentity()`. -/
def altLoop (b : Backend α π ρ M D) (isId : D → Bool) (opEq : α → α → Bool) (sch : AltScheme α π D)
    (stop : Nat → Bool) : Nat → Alt α π M D → Res (Alt α π M D)
  | 0, _ => .outOfFuel
  | fuel + 1, s =>
    if s.c1.finished || s.c2.finished then .ok s
    else if stop s.polls then .ok { s with polls := s.polls + 1 }
    else
      let r1 := applySwaps b .left s.c1 s.d
      let r2 := applySwaps b .right s.c2 r1.2
      let s : Alt α π M D := { s with c1 := r1.1, c2 := r2.1, d := r2.2, polls := s.polls + 1 }
      if s.c1.finished || s.c2.finished then altLoop b isId opEq sch stop fuel s
      else if stop s.polls then altLoop b isId opEq sch stop fuel { s with polls := s.polls + 1 }
      else
        let n := s.polls + 1
        match sch with
        | .counts f =>
          if isId s.d && gatesAreIdentical opEq s.c1 s.c2 then
            -- identical gates cancel: advance both iterators without applying anything
            altLoop b isId opEq (.counts f) stop fuel
              { s with c1 := { s.c1 with rest := s.c1.rest.tail }, c2 := { s.c2 with rest := s.c2.rest.tail }, polls := n }
          else match f s.c1 s.c2 with
            | none => .ub
            | some (a1, a2) =>
              let r1 := if stop n then (s.c1, s.d) else advance b .left a1 s.c1 s.d
              let r2 := if stop (n + 1) then (s.c2, r1.2) else advance b .right a2 s.c2 r1.2
              altLoop b isId opEq (.counts f) stop fuel { s with c1 := r1.1, c2 := r2.1, d := r2.2, polls := n + 2 }
        | .lookahead size =>
          match lookaheadStep b size s with
          | none => .ub
          -- the scheme returns `{0, 0}`: the two `advance` calls do nothing, but `isDone()` is still polled twice
          | some s' => altLoop b isId opEq (.lookahead size) stop fuel { s' with polls := n + 2 }

/-- `DDAlternatingChecker::finish`, `DDAlternatingChecker.cpp:83-88`. -/
def altFinish (b : Backend α π ρ M D) (stop : Nat → Bool) (s : Alt α π M D) : Alt α π M D :=
  let r1 := finishTask b .left s.c1 s.d
  let r2 := if stop s.polls then (s.c2, r1.2) else finishTask b .right s.c2 r1.2
  { s with c1 := r1.1, c2 := r2.1, d := r2.2, polls := s.polls + 1 }

/-- `DDAlternatingChecker::postprocess`, `DDAlternatingChecker.cpp:90-97`. -/
def altPostprocess (b : Backend α π ρ M D) (stop : Nat → Bool) (qc1 qc2 : Circuit α π ρ) (s : Alt α π M D) : Alt α π M D :=
  let r1 := b.changePerm Dir.left.regular s.d s.c1.perm qc1.outputPermutation
  let r2 := if stop s.polls then (r1.1, s.c2.perm)
    else b.changePerm Dir.right.regular r1.1 s.c2.perm qc2.outputPermutation
  { s with c1 := { s.c1 with perm := r1.2 }, c2 := { s.c2 with perm := r2.2 }, d := r2.1, polls := s.polls + 1 }

/-- The flags of the ancillas reduced by the alternating checker: ancillary in both circuits;
`DDAlternatingChecker.cpp:37-41`. -/
def altAncillary (nqubits : Nat) (anc1 anc2 : List Bool) : List Bool :=
  (List.range nqubits).map fun q => anc1.getD q false && anc2.getD q false

/-- Initial object of the alternating checker; `DDAlternatingChecker.cpp:21-50` (the exception for pairs it cannot handle is
modelled in `Verif/Model/Prepare.lean`). -/
def altInit (b : Backend α π ρ M D) (ident : D) (nqubits : Nat) (qc1 qc2 : Circuit α π ρ) : D :=
  b.reduceAncillae (altAncillary nqubits qc1.ancillary qc2.ancillary) true ident

/-- `DDEquivalenceChecker::run` with the overrides of the alternating checker; `init` is the object produced by
`DDAlternatingChecker::initialize` (`DDAlternatingChecker.cpp:21-50`; the exception for pairs it cannot handle is modelled
in `Verif/Model/Prepare.lean`), `verdict` is `checkEquivalence` (`DDAlternatingChecker.cpp:99-122`). -/
def runAlt (b : Backend α π ρ M D) (isId : D → Bool) (opEq : α → α → Bool) (sch : AltScheme α π D)
    (verdict : D → Criterion) (stop : Nat → Bool) (prev : Criterion) (qc1 qc2 : Circuit α π ρ) (init : D) (fuel : Nat) :
    Res (Criterion × Alt α π M D) :=
  match altLoop b isId opEq sch stop fuel { c1 := .start qc1, c2 := .start qc2, d := init, polls := 0 } with
  | .outOfFuel => .outOfFuel
  | .ub => .ub
  | .ok s =>
    let s := altFinish b stop s
    let s := altPostprocess b stop qc1 qc2 s
    if stop s.polls then .ok (prev, s)
    else .ok (verdict s.d, s)

/-! ## Comparison of two decision diagrams -/

/-- `DDEquivalenceChecker::equals` for matrices, `DDEquivalenceChecker.cpp:27-79`, in terms of the package's primitive
tests: `ptrEq` (`e.p == f.p`), `wEq` (`e.w.approximatelyEquals(f.w)`), `close` (`isCloseToIdentity`) and
`mulDagger e f` (`multiply(e, conjugateTranspose(f))`). -/
def equalsMatrix (ptrEq wEq : D → D → Bool) (close : D → Bool) (mulDagger : D → D → D) (e f : D) : Criterion :=
  if ptrEq e f then
    if wEq e f then .equivalent else .equivalentUpToGlobalPhase
  else
    let isClose := if close e || close f then close e && close f else close (mulDagger e f)
    if isClose then
      if wEq e f then .equivalent else .equivalentUpToGlobalPhase
    else .notEquivalent

/-- `DDEquivalenceChecker::equals` for vectors, `DDEquivalenceChecker.cpp:27-43,80-102`: `realClose` is
`|Re⟨e|f⟩ - 1| < threshold` and `fidClose` is `||⟨e|f⟩|² - 1| < threshold`. -/
def equalsVector (ptrEq wEq realClose fidClose : D → D → Bool) (e f : D) : Criterion :=
  if ptrEq e f then
    if wEq e f then .equivalent else .equivalentUpToPhase
  else if realClose e f then .equivalent
  else if fidClose e f then .equivalentUpToPhase
  else .notEquivalent

/-- `DDAlternatingChecker::checkEquivalence`, `DDAlternatingChecker.cpp:99-122`; `close` is `isCloseToIdentity` with or
without garbage according to the configuration, `wOne` is `functionality.w.approximatelyEquals(one)`. -/
def altVerdict (close wOne : D → Bool) (d : D) : Criterion :=
  if close d then
    if wOne d then .equivalent else .equivalentUpToGlobalPhase
  else .notEquivalent

/-- The garbage flags used by the alternating checker: garbage in both circuits; `DDAlternatingChecker.cpp:100-104`. -/
def altGarbage (nqubits : Nat) (g1 g2 : List Bool) : List Bool :=
  (List.range nqubits).map fun q => g1.getD q false && g2.getD q false

/-- The choice of the test in `DDAlternatingChecker::checkEquivalence`, `DDAlternatingChecker.cpp:99-122`: with partial equivalence
`isCloseToIdentity(functionality, threshold, garbage, false)` (`closeG`), otherwise `isCloseToIdentity(functionality, threshold)`
(`close`). -/
def altCheck (partialEq : Bool) (closeG : List Bool → D → Bool) (close wOne : D → Bool) (nqubits : Nat)
    (qc1 qc2 : Circuit α π ρ) (d : D) : Criterion :=
  altVerdict (if partialEq then closeG (altGarbage nqubits qc1.garbage qc2.garbage) else close) wOne d

end
end QCEC.DD
