import Verif.Spec.EndToEnd
/-!
# Specification: comparing two circuits on all classical inputs

What a user expects who asks for as many simulations as there are classical inputs.  Nothing here is about how the manager or the checker
work, except for `Simulates`, which says which stimuli the simulations of a run were made with.
-/
namespace QCEC.Spec
open QCEC QCEC.DD QCEC.Sem QCEC.Gen QCEC.Mgr QCEC.Props

variable {m n : Nat}

/-- The classical input `b`. -/
noncomputable def basisState (b : Basis n) : Basis n → ℂ := fun z => if z = b then 1 else 0

/-- The ancillary qubits `m .. n-1` of the input are zero. -/
def AncillaFree (m : Nat) (b : Basis n) : Prop := ∀ q : Fin n, m ≤ q.val → b q = false

/-- Two states agree as far as the threshold goes: the real part of their inner product or their fidelity is close to one. -/
def Agrees (thr : ℝ) (e f : Basis n → ℂ) : Prop := |(Spec.inner e f).re - 1| < thr ∨ |‖Spec.inner e f‖ ^ 2 - 1| < thr

/-- The circuits agree on every classical input whose ancillary qubits are zero. -/
def AllInputsAgree (S : Setting m n) : Prop :=
  ∀ b : Basis n, AncillaFree m b → Agrees S.V.threshold (output S.qc1 S.ω1 (basisState b)) (output S.qc2 S.ω2 (basisState b))

/-- The circuit maps classical inputs to classical outputs. -/
def Reversible (qc : QC n) (ω : Equiv.Perm (Fin n)) : Prop := ∀ b : Basis n, ∃ b' : Basis n, output qc ω (basisState b) = basisState b'

/-- The first `K` simulations of the run: the simulation checker requests `K` stimuli from the generator `g`, the `k`-th one is the input of
the `k`-th simulation, which nobody interrupts and whose answer is the `k`-th answer. -/
def SimulatesFrom (S : Setting m n) (env : Env) (K : Nat) (R : Rng) (g : Generator R) : Prop :=
  ∃ (g' : Generator R) (sts : List Stim),
    History g (List.replicate K (.request (checkerReq n m S.stateType))) sts g' ∧
    ∀ (k : Nat) (st : Stim), sts[k]? = some st → ∃ (x : Basis n → ℂ) (prev c : Criterion) (fuel : Nat) (s : _),
      Denotes S.cliff st x ∧ S.qc1.ops.length + S.qc2.ops.length + 2 ≤ fuel ∧
      runTwo (exactVector n S.garbV) S.schS false (equalsVector S.V.ptrEq S.V.wEq S.V.realClose S.V.fidClose) (fun _ => false) prev
        S.qc1 S.qc2 x x fuel = .ok (c, s) ∧ env.sim k = some c

/-- The same with the generator in any state and with any random source. -/
def Simulates (S : Setting m n) (env : Env) (K : Nat) : Prop := ∃ (R : Rng) (g : Generator R), SimulatesFrom S env K R g

end QCEC.Spec
