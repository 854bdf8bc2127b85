import Verif.Model.ProfileGen
/-!
# What a generated profile must contain

The one-gate circuits whose costs are measured, written out.
-/
namespace QCEC.Spec.ProfileGen
open QCEC.ProfileGen QCEC.Py

/-- A circuit of `width` qubits with one gate on all of them, in order. -/
def onAll (width : Nat) (method : String) (params : Nat) : GateCall := { width, method, params, operands := List.range width, ancillas := [], mode := none }

/-- Gate, number of controls, and the circuit that is measured for it. -/
def small : List ((String × Nat) × GateCall) :=
  [(("x", 0), onAll 1 "x" 0), (("y", 0), onAll 1 "y" 0), (("z", 0), onAll 1 "z" 0), (("h", 0), onAll 1 "h" 0), (("s", 0), onAll 1 "s" 0),
   (("sdg", 0), onAll 1 "sdg" 0), (("t", 0), onAll 1 "t" 0), (("tdg", 0), onAll 1 "tdg" 0), (("sx", 0), onAll 1 "sx" 0), (("sxdg", 0), onAll 1 "sxdg" 0),
   (("p", 0), onAll 1 "p" 1), (("rx", 0), onAll 1 "rx" 1), (("ry", 0), onAll 1 "ry" 1), (("rz", 0), onAll 1 "rz" 1), (("u", 0), onAll 1 "u" 3),
   (("swap", 0), onAll 2 "swap" 0), (("iswap", 0), onAll 2 "iswap" 0), (("dcx", 0), onAll 2 "dcx" 0), (("ecr", 0), onAll 2 "ecr" 0),
   (("rxx", 0), onAll 2 "rxx" 1), (("ryy", 0), onAll 2 "ryy" 1), (("rzz", 0), onAll 2 "rzz" 1), (("rzx", 0), onAll 2 "rzx" 1),
   (("x", 1), onAll 2 "cx" 0), (("y", 1), onAll 2 "cy" 0), (("z", 1), onAll 2 "cz" 0), (("h", 1), onAll 2 "ch" 0), (("sx", 1), onAll 2 "csx" 0),
   (("p", 1), onAll 2 "cp" 1), (("rx", 1), onAll 2 "crx" 1), (("ry", 1), onAll 2 "cry" 1), (("rz", 1), onAll 2 "crz" 1), (("u", 1), onAll 2 "cu" 4),
   (("swap", 1), onAll 3 "cswap" 0)]

/-- The names of all gates in a profile. -/
def names : List String :=
  ["x", "y", "z", "h", "s", "sdg", "t", "tdg", "sx", "sxdg", "p", "rx", "ry", "rz", "u", "swap", "iswap", "dcx", "ecr", "rxx", "ryy", "rzz", "rzx"]

/-- The gates whose cost with more controls is that of the phase gate. -/
def phaseGates : List String := ["z", "s", "sdg", "t", "tdg"]

/-- How many additional qubits a multi-controlled X gate with `c` controls may use. -/
def ancillas : AncillaMode → Nat → Nat
  | .noAncilla, _ => 0
  | .recursion, c => if c < 5 then 0 else 1
  | .vChain, c => c - 2

/-- The phase gate with `c ≥ 2` controls: controls 0 … c-1, target c. -/
def mcp (c : Nat) : GateCall := onAll (c + 1) "mcp" 1

/-- The X gate with `c ≥ 2` controls: controls 0 … c-1, target c, additional qubits from c+1 on. -/
def mcx (mode : AncillaMode) (c : Nat) : GateCall :=
  { width := c + 1 + ancillas mode c, method := "mcx", params := 0, operands := List.range (c + 1), ancillas := List.range' (c + 1) (ancillas mode c), mode := some mode }

/-- The circuit measured for the phase gate with `c` controls, or for the X gate. -/
def measured (mode : AncillaMode) : String → Nat → GateCall
  | "p", 0 => onAll 1 "p" 1
  | "p", 1 => onAll 2 "cp" 1
  | "p", c => mcp c
  | _, 0 => onAll 1 "x" 0
  | _, 1 => onAll 2 "cx" 0
  | _, c => mcx mode c

/-- How the reader understands a written integer: modulo 2^64, or not at all if its absolute value does not fit. -/
def asSize (t : Int) : Option Nat := if t.natAbs < 2 ^ 64 then some (t % 2 ^ 64).toNat else none

end QCEC.Spec.ProfileGen
