/-!
# Gate types and the default gate-cost function

Models `src/checker/dd/applicationscheme/GateCostApplicationScheme.cpp`.
-/
namespace QCEC

/-- Operation types of mqt-core (`ir/operations/OpType.hpp`, external) as far as
`GateCostApplicationScheme.cpp:13-103` and `TaskManager.hpp:86-90` distinguish them; `other n` stands for all
remaining enumerators. -/
inductive OpType
  | I | H | X | Y | Z | S | Sdg | T | Tdg | P | U2 | U | SX | SXdg | V | Vdg | RX | RY | RZ
  | compound | measure | reset | barrier | classicControlled
  | SWAP | iSWAP | Peres | Peresdg
  | other (n : Nat)
  deriving DecidableEq, Repr, Inhabited

/-- `GateCostLookupTableKeyType`, `GateCostApplicationScheme.hpp:35`. -/
abbrev CostKey := OpType × Nat

/-- Modulus of `std::size_t` (64-bit platform) (the type of the results in `src/checker/dd/applicationscheme/GateCostApplicationScheme.cpp:13-103`). -/
def szMod : Nat := 2 ^ 64

/-- `std::size_t` addition (wraps around) (used in `src/checker/dd/applicationscheme/GateCostApplicationScheme.cpp:13-103`). -/
def szAdd (a b : Nat) : Nat := (a + b) % szMod
/-- `std::size_t` multiplication (wraps around) (used in `src/checker/dd/applicationscheme/GateCostApplicationScheme.cpp:13-103`). -/
def szMul (a b : Nat) : Nat := (a * b) % szMod
/-- `std::size_t` subtraction (wraps around); operands below `szMod` (used in `src/checker/dd/applicationscheme/GateCostApplicationScheme.cpp:13-103`). -/
def szSub (a b : Nat) : Nat := (a + szMod - b % szMod) % szMod

/-- The gates listed in the first switch, `GateCostApplicationScheme.cpp:18-45`. -/
def OpType.isBaseGate : OpType → Bool
  | .I | .H | .X | .Y | .Z | .S | .Sdg | .T | .Tdg | .P | .U2 | .U | .SX | .SXdg | .V | .Vdg
  | .RX | .RY | .RZ | .compound | .measure | .reset | .barrier | .classicControlled => true
  | _ => false

/-- One unfolding of `legacyCostFunction`, `GateCostApplicationScheme.cpp:13-103`, with 64-bit wrap-around
arithmetic explicit; `rec` stands for the recursive calls. -/
def legacyCostBody (rec : CostKey → Nat) (k : CostKey) : Nat :=
  if k.2 = 0 ∧ k.1.isBaseGate = true then 1
  else if k.1 = .X ∧ k.2 = 1 then 1
  else match k.1 with
    | .X =>
      szAdd (szAdd (szMul (szMul 2 (szSub k.2 2))
          (szAdd (szAdd (szMul 2 (rec (.P, 0))) (szMul 2 (rec (.U2, 0))))
            (szMul 3 (rec (.X, 1)))))
          (szMul 6 (rec (.X, 1))))
        (szMul 8 (rec (.U, 0)))
    | .U | .U2 | .V | .Vdg | .RX | .RY | .H | .SX | .SXdg =>
      szAdd (szMul 2 (rec (.X, k.2))) (szMul 4 (rec (.U, 0)))
    | .P | .S | .Sdg | .T | .Tdg | .RZ =>
      szAdd (szMul 2 (rec (.X, k.2))) (szMul 3 (rec (.P, 0)))
    | .Y | .Z =>
      szAdd (rec (.X, k.2)) (szMul 2 (rec (.U, 0)))
    | .SWAP =>
      szAdd (rec (.X, k.2)) (szMul 2 (rec (.X, 1)))
    | .iSWAP =>
      szAdd (szAdd (szMul 2 (rec (.X, szAdd k.2 1))) (szMul 2 (rec (.S, k.2))))
        (szMul 2 (rec (.H, k.2)))
    | .Peres | .Peresdg =>
      szAdd (rec (.X, szAdd k.2 1)) (rec (.X, k.2))
    | _ => 1

/-- `legacyCostFunction`, `GateCostApplicationScheme.cpp:13-103`.  The recursion has depth at most four
(`iSWAP` → `H` → `X` → `P`), so it is written as four unfoldings; `legacyCost_eq` in `Verif/Props/Cost.lean` proves that this
is a solution of the recursive equation of the C++ code. -/
def legacyCost : CostKey → Nat :=
  legacyCostBody (legacyCostBody (legacyCostBody (legacyCostBody (fun _ => 0))))

end QCEC
