import Verif.Props.Prepare
import Verif.Model.DD
/-!
# Concrete circuits for the properties of construction

Circuits on which the theorems of `Verif/Props/Prepare.lean` say something, and circuits that show limits of the code.
Operations are lists of the physical qubits they touch.
-/
namespace QCEC.Props.PrepareWitness
open QCEC QCEC.Prep QCEC.Spec QCEC.Props

def acts (o : List Nat) (q : Nat) : Bool := o.contains q

/-- A finite check for `CircOk`. -/
def okCheck (c : Circ (List Nat)) : Bool :=
  decide ((c.initialLayout.map Prod.fst).Pairwise (· < ·)) && decide (c.initialLayout.map Prod.snd).Nodup &&
  (c.initialLayout.map Prod.snd).all (fun q => decide (q < c.nqubits)) &&
  (List.range c.nqubits).all (fun q => decide (q ∈ c.initialLayout.map Prod.snd)) &&
  decide ((c.outputPermutation.map Prod.fst).Pairwise (· < ·)) && decide (c.outputPermutation.map Prod.snd).Nodup &&
  c.outputPermutation.all (fun e => decide (e.2 < c.nqubits) && !c.isGarbage e.2) &&
  decide (c.ancillary.length = c.nqubits) && decide (c.garbage.length = c.nqubits) &&
  decide (c.ancillary.count true = c.nancillae)

theorem ok_of_check {c : Circ (List Nat)} (h : okCheck c = true) : CircOk c := by
  simp only [okCheck, Bool.and_eq_true, decide_eq_true_eq, List.all_eq_true, List.mem_range] at h
  obtain ⟨⟨⟨⟨⟨⟨⟨⟨⟨h1, h2⟩, h3⟩, h4⟩, h5⟩, h6⟩, h7⟩, h8⟩, h9⟩, h10⟩ := h
  refine ⟨h1, h2, ?_, h5, h6, ?_, ?_, h8, h9, h10⟩
  · intro q
    constructor
    · rintro ⟨p, hp⟩
      exact h3 q (List.mem_map.2 ⟨_, hp, rfl⟩)
    · intro hq
      obtain ⟨e, he, rfl⟩ := List.mem_map.1 (h4 q hq)
      exact ⟨e.1, he⟩
  · intro p q hp
    exact (h7 _ hp).1
  · intro p q hp
    simpa using (h7 _ hp).2

/-! ## C34, C35: a compiled circuit and its original -/

/-- Five qubits on a larger device: physical qubits 1 and 6 are not used; physical 4 is used but not read out. -/
def compiled : Circ (List Nat) where
  ndata := 5
  nancillae := 0
  initialLayout := [(0, 1), (1, 3), (3, 0), (4, 2), (6, 4)]
  outputPermutation := [(0, 0), (3, 1)]
  ancillary := [false, false, false, false, false]
  garbage := [false, false, true, true, true]
  ops := [[0, 3], [3, 4], [0]]

def original : Circ (List Nat) where
  ndata := 2
  nancillae := 0
  initialLayout := [(0, 0), (1, 1)]
  outputPermutation := [(0, 0), (1, 1)]
  ancillary := [false, false]
  garbage := [false, false]
  ops := [[0, 1]]

example : CircOk compiled ∧ CircOk original := ⟨ok_of_check (by decide), ok_of_check (by decide)⟩

/-- The parts of a circuit that change. -/
structure View where
  ndata : Nat
  nancillae : Nat
  initial : List (Nat × Nat)
  output : List (Nat × Nat)
  ancillary : List Bool
  garbage : List Bool
  deriving DecidableEq

def view (c : Circ (List Nat)) : View := ⟨c.ndata, c.nancillae, c.initialLayout, c.outputPermutation, c.ancillary, c.garbage⟩

def viewPair (r : Option (Circ (List Nat) × Circ (List Nat))) : Option (View × View) := r.map fun r => (view r.1, view r.2)

/-- Both idle qubits go. -/
example : viewPair (stripIdleQubits acts compiled original) = some
    (⟨3, 0, [(0, 1), (3, 0), (4, 2)], [(0, 0), (3, 1)], [false, false, false], [false, false, true]⟩,
     ⟨2, 0, [(0, 0), (1, 1)], [(0, 0), (1, 1)], [false, false], [false, false]⟩) := by decide

/-- The compiled circuit keeps one qubit more, which becomes an ancillary; the original is padded. -/
example : viewPair ((stripIdleQubits acts compiled original).bind fun r => setupAncillaries r.1 r.2) = some
    (⟨2, 1, [(0, 1), (3, 0), (4, 2)], [(0, 0), (3, 1)], [false, false, true], [false, false, true]⟩,
     ⟨2, 1, [(0, 0), (1, 1), (2, 2)], [(0, 0), (1, 1)], [false, false, true], [false, false, true]⟩) := by decide

def base : Configuration := Configuration.default 8 0

/-- The prepared pair, as the constructor delivers it. -/
theorem construct_made : ∃ m, prepare acts base (compiled, original) = .made m ∧
    m.cfg.execution.runAlternatingChecker = true ∧ canHandle acts m.qc1 m.qc2 = true ∧ m.cfg.simulation.maxSims = 4 := by
  refine ⟨_, rfl, ?_, ?_, ?_⟩ <;> decide +kernel

/-! ## C32: ancillary qubits used in both circuits -/

/-- An ancillary qubit that takes part in the computation. -/
def withAncilla : Circ (List Nat) where
  ndata := 1
  nancillae := 1
  initialLayout := [(0, 0), (1, 1)]
  outputPermutation := [(0, 0)]
  ancillary := [false, true]
  garbage := [false, true]
  ops := [[0, 1]]

example : CircOk withAncilla := ok_of_check (by decide)

/-- The alternating checker is replaced by the construction checker. -/
theorem fallback_happens : ∃ m, prepare acts base (withAncilla, withAncilla) = .made m ∧
    base.execution.runAlternatingChecker = true ∧ base.execution.runConstructionChecker = false ∧
    m.cfg.execution.runAlternatingChecker = false ∧ m.cfg.execution.runConstructionChecker = true := by
  refine ⟨_, rfl, ?_, ?_, ?_, ?_⟩ <;> decide +kernel

/-- **C32, limit.** The test happens in the constructor only: `setAlternatingChecker(true)` after construction enables a checker that
throws on these circuits. -/
theorem setter_reenables_throwing_checker : ∃ m, prepare acts base (withAncilla, withAncilla) = .made m ∧
    (m.cfg.setAlternatingChecker true).execution.runAlternatingChecker = true ∧
    initializeAlternating acts m.qc1 m.qc2 =
      .error "Alternating checker must not be used for circuits that both have non-idle ancillary qubits." := by
  refine ⟨_, rfl, ?_, ?_⟩ <;> decide +kernel

/-- **C32, limit.** The fallback does not look at the application scheme of the checker it enables: with the lookahead scheme configured
for the construction checker (which was not enabled), its constructor throws – although the configured alternating checker would have
been replaced precisely to avoid an exception. -/
theorem fallback_may_throw : ∃ m, prepare acts { base with application := { constructionScheme := .lookahead } } (withAncilla, withAncilla) = .made m ∧
    m.cfg.execution.runConstructionChecker = true ∧ base.execution.runConstructionChecker = false ∧
    constructionCtor m.cfg = .error "Lookahead application scheme must not be used with DD construction checker." := by
  refine ⟨_, rfl, ?_, ?_, ?_⟩
  · decide +kernel
  · decide +kernel
  · rfl

/-! ## C35, limits -/

/-- Two qubits on physical 0 and 2 (physical 1 was stripped). -/
def gap : Circ (List Nat) where
  ndata := 2
  nancillae := 0
  initialLayout := [(0, 0), (2, 1)]
  outputPermutation := [(0, 0), (2, 1)]
  ancillary := [false, false]
  garbage := [false, false]
  ops := [[0, 2]]

def three : Circ (List Nat) where
  ndata := 3
  nancillae := 0
  initialLayout := [(0, 0), (1, 1), (2, 2)]
  outputPermutation := [(0, 0), (1, 1), (2, 2)]
  ancillary := [false, false, false]
  garbage := [false, false, false]
  ops := [[0, 1], [2]]

example : CircOk gap ∧ CircOk three := ⟨ok_of_check (by decide), ok_of_check (by decide)⟩

/-- **C35, limit.** The padding gives the new logical qubit the physical qubit of the same number even if that one is in use: in the
prepared circuit three qubits are declared but logical qubit 2 is on no physical qubit. -/
theorem padding_without_physical_qubit : ∃ r1 r2, setupAncillaries gap three = some (r1, r2) ∧ r1.nqubits = 3 ∧
    r1.initialLayout = [(0, 0), (2, 1)] ∧ ∀ p, (p, 2) ∉ r1.initialLayout := by
  have h : ∃ r1 r2, setupAncillaries gap three = some (r1, r2) ∧ r1.nqubits = 3 ∧ r1.initialLayout = [(0, 0), (2, 1)] :=
    ⟨_, _, rfl, by decide, by decide⟩
  obtain ⟨r1, r2, h1, h2, h3⟩ := h
  refine ⟨r1, r2, h1, h2, h3, ?_⟩
  intro p
  rw [h3]
  simp

/-- A qubit that moves: logical 1 starts on physical 1 and is read out from physical 0; nothing is read from physical 1. -/
def moves : Circ (List Nat) where
  ndata := 2
  nancillae := 0
  initialLayout := [(0, 0), (1, 1)]
  outputPermutation := [(0, 1)]
  ancillary := [false, false]
  garbage := [true, false]
  ops := [[0, 1]]

def single : Circ (List Nat) where
  ndata := 1
  nancillae := 0
  initialLayout := [(0, 0)]
  outputPermutation := [(0, 0)]
  ancillary := [false]
  garbage := [false]
  ops := [[0]]

example : CircOk moves ∧ CircOk single := ⟨ok_of_check (by decide), ok_of_check (by decide)⟩

/-- **C35, limit.** A surplus qubit that is read out from another physical qubit than the one it starts on is marked garbage although it
is an output. -/
theorem surplus_output_marked_garbage : ∃ r1 r2, setupAncillaries moves single = some (r1, r2) ∧
    (0, 1) ∈ r1.outputPermutation ∧ r1.isGarbage 1 = true ∧ moves.isGarbage 1 = false := by
  refine ⟨_, _, rfl, ?_, ?_, ?_⟩ <;> decide

/-! ## C37, C51: circuits with parameters -/

/-- Passes that leave a trace: each one appends an operation. -/
def tracing : Passes (Circ (List Nat)) where
  apply p c := { c with ops := c.ops ++ [[match p with | .swapReconstruction => 1 | .singleQubitGateFusion => 0 | _ => 0]] }
  empty c := c.ops.isEmpty
  dynamic _ := false
  variableFree _ := false

/-- **C37/C51, limit.** For circuits with parameters no pass runs at construction, but the options stay set; the optimization methods
then do nothing, so the passes cannot be run on such circuits at all while the options are on. -/
theorem symbolic_optimisation_unreachable (acts : List Nat → Nat → Bool) (P : Passes (Circ (List Nat))) (cfg : Configuration)
    (qc1 qc2 : Circ (List Nat)) (hv : P.variableFree qc1 = false) (m : OptMethod) (hm : m.flag cfg.optimizations = true) :
    construct acts P cfg qc1 qc2 = prepare acts cfg (qc1, qc2) ∧
    ∀ k, prepare acts cfg (qc1, qc2) = .made k → optimize P m (k.cfg.optimizations, k.qc1, k.qc2) = (k.cfg.optimizations, k.qc1, k.qc2) := by
  refine ⟨symbolic_circuits_not_optimised (Or.inl hv), ?_⟩
  intro k hk
  obtain ⟨_, _, _, _, h3⟩ := prepare_made hk
  obtain ⟨n, h4, _⟩ := cap_keeps h3
  have : k.cfg.optimizations = cfg.optimizations := by
    rw [h4]
    unfold fallback
    split <;> rfl
  rw [optimize, if_pos]
  show m.flag k.cfg.optimizations = true
  rw [this]
  exact hm

/-- Two calls, in this order, of methods that were off at construction. -/
example : (([OptMethod.reconstructSWAPs, .fuseSingleQubitGates, .reconstructSWAPs].foldl (fun s m => optimize tracing m s)
    (({ reconstructSWAPs := false, fuseSingleQubitGates := false } : Optimizations), single, single)).2.1.ops) = [[0], [1], [0]] := by decide

end QCEC.Props.PrepareWitness
