/-!
# Enumerations and their string conversions

Models `include/EquivalenceCriterion.hpp`, `include/checker/dd/applicationscheme/ApplicationScheme.hpp`
and `include/checker/dd/simulation/StateType.hpp`.
-/

namespace QCEC

/-- `include/EquivalenceCriterion.hpp:13-21` (`enum class EquivalenceCriterion`). -/
inductive Criterion
  | notEquivalent
  | equivalent
  | noInformation
  | probablyEquivalent
  | equivalentUpToGlobalPhase
  | equivalentUpToPhase
  | probablyNotEquivalent
  deriving DecidableEq, Repr, Inhabited

namespace Criterion

/-- All enumerators, in declaration order; `include/EquivalenceCriterion.hpp:13-21`. -/
def all : List Criterion :=
  [notEquivalent, equivalent, noInformation, probablyEquivalent,
   equivalentUpToGlobalPhase, equivalentUpToPhase, probablyNotEquivalent]

/-- Underlying `std::uint8_t` value of an enumerator; `include/EquivalenceCriterion.hpp:13-21`. -/
def value : Criterion → Nat
  | notEquivalent => 0
  | equivalent => 1
  | noInformation => 2
  | probablyEquivalent => 3
  | equivalentUpToGlobalPhase => 4
  | equivalentUpToPhase => 5
  | probablyNotEquivalent => 6

/-- `toString`, `include/EquivalenceCriterion.hpp:23-40`. -/
def toStr : Criterion → String
  | notEquivalent => "not_equivalent"
  | equivalent => "equivalent"
  | probablyEquivalent => "probably_equivalent"
  | equivalentUpToGlobalPhase => "equivalent_up_to_global_phase"
  | equivalentUpToPhase => "equivalent_up_to_phase"
  | probablyNotEquivalent => "probably_not_equivalent"
  | noInformation => "no_information"

/-- `fromString`, `include/EquivalenceCriterion.hpp:42-67`.  The `std::cerr` warning of the fall-through
branch is not modelled. -/
def fromStr (s : String) : Criterion :=
  if s = "not_equivalent" ∨ s = "0" then notEquivalent
  else if s = "equivalent" ∨ s = "1" then equivalent
  else if s = "probably_equivalent" ∨ s = "2" then probablyEquivalent
  else if s = "equivalent_up_to_global_phase" ∨ s = "3" then equivalentUpToGlobalPhase
  else if s = "equivalent_up_to_phase" ∨ s = "4" then equivalentUpToPhase
  else if s = "no_information" ∨ s = "5" then noInformation
  else if s = "probably_not_equivalent" ∨ s = "6" then probablyNotEquivalent
  else noInformation

end Criterion

/-- `include/checker/dd/applicationscheme/ApplicationScheme.hpp:18-24`. -/
inductive SchemeType
  | sequential | oneToOne | lookahead | gateCost | proportional
  deriving DecidableEq, Repr, Inhabited

namespace SchemeType

/-- All enumerators; `ApplicationScheme.hpp:18-24`. -/
def all : List SchemeType := [sequential, oneToOne, lookahead, gateCost, proportional]

/-- Underlying value; `ApplicationScheme.hpp:18-24`. -/
def value : SchemeType → Nat
  | sequential => 0 | oneToOne => 1 | lookahead => 2 | gateCost => 3 | proportional => 4

/-- `toString`, `ApplicationScheme.hpp:26-40`. -/
def toStr : SchemeType → String
  | sequential => "sequential"
  | oneToOne => "one_to_one"
  | lookahead => "lookahead"
  | gateCost => "gate_cost"
  | proportional => "proportional"

/-- `applicationSchemeFromString`, `ApplicationScheme.hpp:42-66` (warning on `std::cerr` not modelled). -/
def fromStr (s : String) : SchemeType :=
  if s = "sequential" ∨ s = "0" ∨ s = "reference" then sequential
  else if s = "one_to_one" ∨ s = "1" ∨ s = "naive" then oneToOne
  else if s = "lookahead" ∨ s = "2" then lookahead
  else if s = "gate_cost" ∨ s = "3" ∨ s = "compilation_flow" then gateCost
  else if s = "proportional" ∨ s = "4" then proportional
  else proportional

end SchemeType

/-- `include/checker/dd/simulation/StateType.hpp:13-17`. -/
inductive StateType
  | computationalBasis | random1QBasis | stabilizer
  deriving DecidableEq, Repr, Inhabited

namespace StateType

/-- All enumerators; `StateType.hpp:13-17`. -/
def all : List StateType := [computationalBasis, random1QBasis, stabilizer]

/-- Underlying value; `StateType.hpp:13-17`. -/
def value : StateType → Nat
  | computationalBasis => 0 | random1QBasis => 1 | stabilizer => 2

/-- `toString`, `StateType.hpp:19-28`. -/
def toStr : StateType → String
  | random1QBasis => "random_1Q_basis"
  | stabilizer => "stabilizer"
  | computationalBasis => "computational_basis"

/-- `stateTypeFromString`, `StateType.hpp:30-45` (warning on `std::cerr` not modelled). -/
def fromStr (s : String) : StateType :=
  if s = "computational_basis" ∨ s = "0" ∨ s = "classical" then computationalBasis
  else if s = "random_1Q_basis" ∨ s = "1" ∨ s = "local_quantum" then random1QBasis
  else if s = "stabilizer" ∨ s = "2" ∨ s = "global_quantum" then stabilizer
  else computationalBasis

end StateType

/-- C-locale `std::isspace`, the separators used by `in >> token` (used by `operator>>` in `include/EquivalenceCriterion.hpp:69-81` and its likes). -/
def isSpaceC (c : Char) : Bool :=
  c = ' ' || c = '\t' || c = '\n' || c = '\x0b' || c = '\x0c' || c = '\r'

/-- `std::istream >> std::string`: skip leading white space, take the maximal run of non-space characters;
returns the token and the unread rest (used by `operator>>` in `include/EquivalenceCriterion.hpp:69-81` and its likes). -/
def readToken (input : List Char) : List Char × List Char :=
  let t := input.dropWhile isSpaceC
  (t.takeWhile (fun c => !isSpaceC c), t.dropWhile (fun c => !isSpaceC c))

/-- State of an input stream as far as `operator>>` is concerned: unread characters and the failbit (for `operator>>` in `include/EquivalenceCriterion.hpp:69-81` and its likes). -/
structure IStream where
  rest : List Char
  fail : Bool := false
  deriving DecidableEq, Repr

/-- `operator>>` (identical text for the three enumerations):
`include/EquivalenceCriterion.hpp:69-81`, `ApplicationScheme.hpp:68-80`, `StateType.hpp:47-59`.
`old` is the variable's previous value; on an empty token the failbit is set and the variable is unchanged.  If the stream has failed before, `in >> token` reads
nothing, so that the token stays empty. -/
def readEnum {α : Type} (fromStr : String → α) (is : IStream) (old : α) : α × IStream :=
  let (tok, rest) := if is.fail then ([], is.rest) else readToken is.rest
  if tok = [] then (old, { rest := rest, fail := true })
  else (fromStr (String.ofList tok), { rest := rest, fail := is.fail })

end QCEC
