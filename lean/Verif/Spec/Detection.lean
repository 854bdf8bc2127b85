import Verif.Spec.Exhaustive
import Verif.Spec.FirstDistinct
/-!
# Specification: random simulations

What a user expects of simulations with random classical inputs: a difference in many inputs is rarely missed.  The random source is
idealised: the numbers it delivers are independent and uniformly distributed.
-/
namespace QCEC.Spec
open QCEC QCEC.DD QCEC.Sem QCEC.Gen QCEC.Mgr QCEC.Props MeasureTheory

variable {m n : Nat}

theorem drawn_lt (R : Rng) (m k : Nat) (w : R.σ) : drawn R ((1 <<< m) - 1) k w < 2 ^ m := by
  have h1 := R.uniform_le ((1 <<< m) - 1) (after R ((1 <<< m) - 1) k w)
  have h2 : 1 <<< m = 2 ^ m := Nat.one_shiftLeft m
  have h3 := Nat.two_pow_pos m
  unfold drawn
  omega

/-- The `k`-th number that the source, in state `w`, delivers for a distribution on `0, …, 2^m-1`. -/
def number (R : Rng) (m k : Nat) (w : R.σ) : Fin (2 ^ m) := ⟨drawn R ((1 <<< m) - 1) k w, drawn_lt R m k w⟩

/-- If the state is chosen according to `μ`, the numbers delivered are independent and uniformly distributed. -/
def IdealSource (R : Rng) [MeasurableSpace R.σ] (μ : Measure R.σ) (m : Nat) : Prop := IndependentUniform (fun k w => number R m k w) μ

/-- The circuits do not agree on the classical input `b`, whose ancillary qubits are zero. -/
def Disagree (S : Setting m n) (b : Basis n) : Prop :=
  AncillaFree m b ∧ ¬ Agrees S.V.threshold (output S.qc1 S.ω1 (basisState b)) (output S.qc2 S.ω2 (basisState b))

/-- On how many of the `2^m` classical inputs the circuits do not agree. -/
noncomputable def disagreements (S : Setting m n) : Nat := {b : Basis n | Disagree S b}.ncard

/-- A sequential run with `K` simulations and without timeout of a manager (new or after `reset`), whose stimuli come from the generator
`g`.  Other checkers may be configured. -/
structure RunWith (S : Setting m n) (K : Nat) (R : Rng) (g : Generator R) (env : Env) (s s' : State) : Prop where
  mode : mode env s.cfg = .sequential
  started : s.results.startedSimulations = 0
  performed : s.results.performedSimulations = 0
  sims : s.cfg.simulation.maxSims = K
  notime : ¬ s.cfg.execution.timeout > 0
  returned : ∃ fuel, run env fuel s = some (.returned s')
  stimuli : SimulatesFrom S env s'.results.performedSimulations R g

/-- Only simulations are configured. -/
def OnlySimulations (s : State) : Prop := Enabled s.cfg .simulation ∧ ∀ k, Enabled s.cfg k → k = .simulation

end QCEC.Spec
