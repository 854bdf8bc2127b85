import Verif.Model.Enums
import Verif.Model.Cost
/-!
# Gate-cost lookup tables and profile files

Models the table handling of `include/checker/dd/applicationscheme/GateCostApplicationScheme.hpp:40-130` and the writer
of `src/mqt/qcec/compilation_flow_profiles.py:275-305`.
-/
namespace QCEC

/-- `GateCostLookupTable` (`std::unordered_map`), `GateCostApplicationScheme.hpp:34-35`; only look-ups are observable. -/
abbrev CostTable := List (CostKey × Nat)

/-- `unordered_map::find` (`include/checker/dd/applicationscheme/GateCostApplicationScheme.hpp:79,97`). -/
def CostTable.find (t : CostTable) (k : CostKey) : Option Nat := (t.find? (fun e => e.1 == k)).map (·.2)

/-- `unordered_map::emplace`: no effect if the key is present (`include/checker/dd/applicationscheme/GateCostApplicationScheme.hpp:100,128`). -/
def CostTable.emplace (t : CostTable) (k : CostKey) (v : Nat) : CostTable :=
  match t.find k with
  | some _ => t
  | none => t ++ [(k, v)]

/-- `populateLookupTable(costFunction, qc)`, `GateCostApplicationScheme.hpp:88-101`; a circuit is given by the keys
(type, number of controls) of its operations. -/
def populateFromCircuit (f : CostKey → Nat) (t : CostTable) (ops : List CostKey) : CostTable :=
  ops.foldl (fun t k => match t.find k with
    | some _ => t
    | none => t.emplace k (f k)) t

/-- Constructor with a cost function, `GateCostApplicationScheme.hpp:43-51`. -/
def costFunctionTable (f : CostKey → Nat) (ops1 ops2 : List CostKey) : CostTable :=
  populateFromCircuit f (populateFromCircuit f [] ops1) ops2

/-- `std::getline` loop: the lines of a text (a final newline does not start another line) (`include/checker/dd/applicationscheme/GateCostApplicationScheme.hpp:122`). -/
def splitLines : List Char → List (List Char)
  | [] => []
  | c :: cs =>
    if c = '\n' then [] :: splitLines cs
    else match cs with
      | [] => [[c]]
      | d :: ds => match splitLines (d :: ds) with
        | [] => [[c]]          -- not reachable: `splitLines` of a non-empty text is non-empty
        | l :: ls => (c :: l) :: ls

/-- Value of a decimal digit (for `iss >> nControls >> cost`, `include/checker/dd/applicationscheme/GateCostApplicationScheme.hpp:127`). -/
def digitVal (c : Char) : Nat := c.toNat - 48

/-- ASCII decimal digit (for `iss >> nControls >> cost`, `include/checker/dd/applicationscheme/GateCostApplicationScheme.hpp:127`). -/
def isDigitC (c : Char) : Bool := decide (48 ≤ c.toNat) && decide (c.toNat ≤ 57)

/-- Value of a digit sequence, most significant digit first (for `iss >> nControls >> cost`, `include/checker/dd/applicationscheme/GateCostApplicationScheme.hpp:127`). -/
def digitsVal (l : List Char) : Nat := l.foldl (fun a c => 10 * a + digitVal c) 0

/-- Optional sign in front of a number as accepted by `std::num_get` (for `iss >> nControls >> cost`, `include/checker/dd/applicationscheme/GateCostApplicationScheme.hpp:127`). -/
def readSign : List Char → Bool × List Char
  | '-' :: r => (true, r)
  | '+' :: r => (false, r)
  | r => (false, r)

/-- `std::istream >> std::size_t` (decimal): skip white space, optional sign, maximal run of digits.
`none` = failbit (no digits, or value not representable); `-n` is stored as `2^64 - n` as `strtoull` does (for `iss >> nControls >> cost`, `include/checker/dd/applicationscheme/GateCostApplicationScheme.hpp:127`). -/
def readSize (input : List Char) : Option (Nat × List Char) :=
  let t := input.dropWhile isSpaceC
  let (neg, t) := readSign t
  let ds := t.takeWhile isDigitC
  let rest := t.dropWhile isDigitC
  if ds = [] then none
  else if digitsVal ds < szMod then some (if neg then (szMod - digitsVal ds) % szMod else digitsVal ds, rest)
  else none

/-- Outcome of reading one profile line (`include/checker/dd/applicationscheme/GateCostApplicationScheme.hpp:122-130`). -/
inductive LineResult
  | skip                              -- comment, empty or malformed line: no effect
  | entry (k : CostKey) (cost : Nat)
  | unknownGate (name : String)       -- mqt-core's `operator>>(OpType&)` throws `std::invalid_argument`
  deriving DecidableEq

/-- Body of the loop of `populateLookupTable(std::istream&)`, `GateCostApplicationScheme.hpp:118-127`.
`opOf` is mqt-core's `qc::opTypeFromString` (external); `none` means that it throws. -/
def parseProfileLine (opOf : String → Option OpType) (line : List Char) : LineResult :=
  if line = [] ∨ line.head? = some '#' then .skip
  else
    let (tok, r1) := readToken line
    if tok = [] then .skip
    else match opOf (String.ofList tok) with
      | none => .unknownGate (String.ofList tok)
      | some op => match readSize r1 with
        | none => .skip
        | some (nc, r2) => match readSize r2 with
          | none => .skip
          | some (cost, _) => .entry (op, nc) cost

/-- `populateLookupTable(std::istream&)`, `GateCostApplicationScheme.hpp:113-128`. -/
def populateFromLines (opOf : String → Option OpType) : CostTable → List (List Char) → Except String CostTable
  | t, [] => .ok t
  | t, l :: ls => match parseProfileLine opOf l with
    | .skip => populateFromLines opOf t ls
    | .entry k c => populateFromLines opOf (t.emplace k c) ls
    | .unknownGate n => .error n

/-- `populateLookupTable(filename)`, `GateCostApplicationScheme.hpp:106-112`; `none` = the file cannot be opened. -/
def populateFromFile (opOf : String → Option OpType) (file : Option (List Char)) : Except String CostTable :=
  match file with
  | none => .error "Error opening LUT file"
  | some txt => populateFromLines opOf [] (splitLines txt)

/-! ## Writer (Python) -/

/-- Python's `str` of a non-negative integer (used in `src/mqt/qcec/compilation_flow_profiles.py:305`). -/
def decDigits (n : Nat) : List Char :=
  if n < 10 then [Char.ofNat (48 + n)] else decDigits (n / 10) ++ [Char.ofNat (48 + n % 10)]
  termination_by n
  decreasing_by omega

/-- Profile data, a Python `dict` from (gate name, number of controls) to cost in insertion order (built in `src/mqt/qcec/compilation_flow_profiles.py:241-272`). -/
abbrev ProfileData := List ((String × Nat) × Nat)

/-- One line of `write_profile_data_to_file`, `compilation_flow_profiles.py:304-305`. -/
def profileLine (e : (String × Nat) × Nat) : List Char :=
  e.1.1.toList ++ [' '] ++ decDigits e.1.2 ++ [' '] ++ decDigits e.2 ++ ['\n']

/-- `write_profile_data_to_file`, `compilation_flow_profiles.py:300-305`; `header` is the text after `"# "`. -/
def writeProfile (header : List Char) (d : ProfileData) : List Char :=
  ['#', ' '] ++ header ++ ['\n'] ++ (d.map profileLine).flatten

/-- `dict.setdefault` (called in `src/mqt/qcec/compilation_flow_profiles.py:292`). -/
def ProfileData.setDefault (d : ProfileData) (k : String × Nat) (v : Nat) : ProfileData :=
  if d.any (fun e => e.1 == k) then d else d ++ [(k, v)]

/-- `add_special_case_data`, `compilation_flow_profiles.py:275-292` (the test `g is underlying_gate` is read as string
equality; CPython interns the literals involved). -/
def addSpecialCases (d : ProfileData) (gates : List String := ["z", "s", "sdg", "t", "tdg"])
    (underlying : String := "p") : ProfileData :=
  d.foldl (fun acc e => if e.1.1 = underlying then
      gates.foldl (fun a g => a.setDefault (g, e.1.2) e.2) acc else acc) d

end QCEC
