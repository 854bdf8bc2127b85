import Verif.Props.Sequential
import Verif.Lemmas.Verdict
/-!
# C08: the shortcut for circuits without operations

`run` reports `Equivalent` as soon as both circuits are empty (`EquivalenceCheckingManager.cpp:322-326`) and never looks at the
layouts and output permutations.
-/
namespace QCEC.Props
open QCEC QCEC.Mgr QCEC.Spec QCEC.Sem QCEC.DD

variable {n : Nat}

/-- What `run` asks about the two circuits (`qc1.empty() && qc2.empty()`). -/
def emptyEnv (qc1 qc2 : QC n) (env : Env) : Env := { env with bothEmpty := qc1.ops.isEmpty && qc2.ops.isEmpty }

/-- For two empty circuits `run` returns `Equivalent` without consulting any checker. -/
theorem empty_verdict (qc1 qc2 : QC n) (h1 : qc1.ops = []) (h2 : qc2.ops = []) (env : Env) (fuel : Nat) (s : State)
    (ha : s.cfg.anythingToExecute = true) :
    ∃ s', run (emptyEnv qc1 qc2 env) fuel s = some (.returned s') ∧ s'.results.equivalence = .equivalent ∧ s'.log = [] ∧ s'.done = true ∧ s'.cfg = s.cfg ∧
      s'.checkers = s.checkers := by
  have hm : mode (emptyEnv qc1 qc2 env) s.begin.cfg = .empty := by
    unfold mode
    have : s.begin.cfg.anythingToExecute = true := ha
    rw [this]
    simp [emptyEnv, h1, h2]
  unfold run
  simp only [hm]
  exact ⟨_, rfl, rfl, rfl, rfl, rfl, rfl⟩

theorem output_empty (qc : QC n) (h : qc.ops = []) (ω : Equiv.Perm (Fin n)) (v : Basis n → ℂ) (x : Basis n) :
    output qc ω v x = v (fun q => x (ω (qc.initialLayout.symm q))) := by
  simp [output, readOut, execute, load, h]

/-- When empty circuits are equivalent: exactly if every logical input qubit is read out under the same label. -/
theorem empty_same_iff (qc1 qc2 : QC n) (h1 : qc1.ops = []) (h2 : qc2.ops = []) (ω1 ω2 : Equiv.Perm (Fin n)) :
    (SameUpToPhase [] qc1 ω1 qc2 ω2 ↔ ∀ q, ω1 (qc1.initialLayout.symm q) = ω2 (qc2.initialLayout.symm q)) ∧
    (Same [] qc1 ω1 qc2 ω2 ↔ ∀ q, ω1 (qc1.initialLayout.symm q) = ω2 (qc2.initialLayout.symm q)) := by
  have hz : ∀ v : Basis n → ℂ, AncillasZero [] v := by intro v x _ q hq; simp at hq
  have key : ∀ c, SameUpTo c [] qc1 ω1 qc2 ω2 → ∀ q, ω1 (qc1.initialLayout.symm q) = ω2 (qc2.initialLayout.symm q) := by
    intro c hc q
    by_contra hne
    have := congrFun (hc (fun y => if y q then 1 else 0) (hz _)) (fun p => decide (p = ω1 (qc1.initialLayout.symm q)))
    simp only [Pi.smul_apply, output_empty _ h1, output_empty _ h2] at this
    simp [Ne.symm hne] at this
  have back : (∀ q, ω1 (qc1.initialLayout.symm q) = ω2 (qc2.initialLayout.symm q)) → Same [] qc1 ω1 qc2 ω2 := by
    intro h v _
    funext x
    simp only [Pi.smul_apply, output_empty _ h1, output_empty _ h2, h, one_smul]
  refine ⟨⟨?_, fun h => ⟨1, by simp, back h⟩⟩, ⟨key 1, back⟩⟩
  rintro ⟨c, _, hc⟩
  exact key c hc

/-- **C08** (partial): the shortcut's verdict is right if the circuits agree in how logical inputs are connected to logical
outputs – in particular for equal layouts and output permutations.  Missing: all other pairs, for which it is wrong
(`empty_same_iff`, `empty_shortcut_wrong`). -/
theorem empty_verdict_right_partial (qc1 qc2 : QC n) (h1 : qc1.ops = []) (h2 : qc2.ops = []) (ω1 ω2 : Equiv.Perm (Fin n))
    (hl : ∀ q, ω1 (qc1.initialLayout.symm q) = ω2 (qc2.initialLayout.symm q)) (env : Env) (fuel : Nat) (s : State)
    (ha : s.cfg.anythingToExecute = true) :
    ∃ s', run (emptyEnv qc1 qc2 env) fuel s = some (.returned s') ∧ s'.results.equivalence = .equivalent ∧
      Same [] qc1 ω1 qc2 ω2 := by
  obtain ⟨s', hr, hv, _⟩ := empty_verdict qc1 qc2 h1 h2 env fuel s ha
  exact ⟨s', hr, hv, (empty_same_iff qc1 qc2 h1 h2 ω1 ω2).2.mpr hl⟩

/-- Two empty two-qubit circuits, the second with exchanged outputs. -/
def straight : QC 2 := ⟨[], 1, [(0, 0), (1, 1)], [false, false], [false, false]⟩
/-- See `straight`. -/
def crossed : QC 2 := ⟨[], 1, [(0, 1), (1, 0)], [false, false], [false, false]⟩

theorem straight_wf : WellFormed straight 1 :=
  .of_total (by simp [straight]) ⟨by decide, by decide⟩ (by intro q; fin_cases q <;> simp [straight]) (by
    intro t ht; simp [straight] at ht; rcases ht with rfl | rfl <;> rfl)

theorem crossed_wf : WellFormed crossed (Equiv.swap 0 1) :=
  .of_total (by simp [crossed]) ⟨by decide, by decide⟩ (by intro q; fin_cases q <;> simp [crossed]) (by
    intro t ht; simp [crossed] at ht; rcases ht with rfl | rfl <;> rfl)

/-- **C08 is false of the code**: two empty circuits that differ by a SWAP of the outputs are reported `Equivalent`. -/
theorem empty_shortcut_wrong (env : Env) (fuel : Nat) (s : State) (ha : s.cfg.anythingToExecute = true) :
    WellFormed straight 1 ∧ WellFormed crossed (Equiv.swap 0 1) ∧
    (∃ s', run (emptyEnv straight crossed env) fuel s = some (.returned s') ∧ s'.results.equivalence = .equivalent) ∧
    ¬ SameUpToPhase [] straight 1 crossed (Equiv.swap 0 1) := by
  obtain ⟨s', hr, hv, _⟩ := empty_verdict straight crossed rfl rfl env fuel s ha
  refine ⟨straight_wf, crossed_wf, ⟨s', hr, hv⟩, ?_⟩
  rw [(empty_same_iff straight crossed rfl rfl 1 (Equiv.swap 0 1)).1]
  intro h
  have h0 : (0 : Fin 2) = 1 := h 0
  exact absurd h0 (by decide)

end QCEC.Props
