import Verif.Props.DDWitness
import Verif.Props.PrepareWitness
/-!
# C36: `canHandle` and the output permutation
-/
namespace QCEC.Props
open QCEC QCEC.DD QCEC.Sem QCEC.Spec QCEC.Prep Matrix

/-- A rotation on physical qubit 1; the two qubits are read out exchanged. -/
noncomputable def rotMoved : QC 2 where
  ops := [.simple (.gate (gate1 mR 1))]
  initialLayout := 1
  outputPermutation := [(0, 1), (1, 0)]
  ancillary := [true, true]

/-- The same rotation on physical qubit 0. -/
noncomputable def rotStill : QC 2 where
  ops := [.simple (.gate (gate1 mR 0))]
  initialLayout := 1
  outputPermutation := idOut2
  ancillary := [true, true]

theorem mR_valid' {n : Nat} (p : Fin n) : (gate1 mR p).Valid :=
  gate1_valid mR p (by intro a b; cases a <;> cases b <;> simp [mR] <;> norm_num)

theorem rotMoved_wf : WellFormed rotMoved (Equiv.swap 0 1) := by
  refine .of_total ?_ ⟨by simp [rotMoved], by simp [rotMoved]⟩ ?_ ?_
  · intro o ho
    simp only [rotMoved, List.mem_cons, List.not_mem_nil, or_false] at ho
    subst ho
    exact mR_valid' 1
  · intro q
    fin_cases q
    · exact ⟨(0, 1), by simp [rotMoved], rfl⟩
    · exact ⟨(1, 0), by simp [rotMoved], rfl⟩
  · intro t ht
    simp only [rotMoved, List.mem_cons, List.not_mem_nil, or_false] at ht
    rcases ht with rfl | rfl <;> rfl

theorem rotStill_wf : WellFormed rotStill 1 := by
  refine .of_total ?_ idOut2_valid idOut2_total idOut2_ext
  intro o ho
  simp only [rotStill, List.mem_cons, List.not_mem_nil, or_false] at ho
  subst ho
  exact mR_valid' 0

theorem rotMoved_func (x y : Basis 2) : funcOf rotMoved (Equiv.swap 0 1) x y = if x 1 = y 0 then mR (x 0) (y 1) else 0 := by
  show (1 * (gate1 mR (1 : Fin 2)).mat) (x ∘ (Equiv.swap 0 1 : Equiv.Perm (Fin 2))) (y ∘ (1 : Equiv.Perm (Fin 2))) = _
  rw [Matrix.one_mul, gate1_mat]
  have : (∀ q : Fin 2, q ≠ 1 → (x ∘ (Equiv.swap 0 1 : Equiv.Perm (Fin 2))) q = (y ∘ (1 : Equiv.Perm (Fin 2))) q) ↔ x 1 = y 0 := by
    constructor
    · intro h; simpa using h 0 (by decide)
    · intro h q hq
      fin_cases q
      · simpa using h
      · exact absurd rfl hq
  simp only [this]
  rfl

theorem rotStill_func (x y : Basis 2) : funcOf rotStill 1 x y = if x 1 = y 1 then mR (x 0) (y 0) else 0 := by
  show (1 * (gate1 mR (0 : Fin 2)).mat) (x ∘ (1 : Equiv.Perm (Fin 2))) (y ∘ (1 : Equiv.Perm (Fin 2))) = _
  rw [Matrix.one_mul, gate1_mat]
  have : (∀ q : Fin 2, q ≠ 0 → (x ∘ (1 : Equiv.Perm (Fin 2))) q = (y ∘ (1 : Equiv.Perm (Fin 2))) q) ↔ x 1 = y 1 := by
    constructor
    · intro h; simpa using h 1 (by decide)
    · intro h q hq
      fin_cases q
      · exact absurd rfl hq
      · simpa using h
  simp only [this]
  rfl

theorem proj2 (y : Basis 2) : (∀ q : Fin 2, ([true, true] : List Bool).getD q.val false = true → y q = false) ↔ y = fun _ => false := by
  constructor
  · intro h
    funext q
    exact h q (by fin_cases q <;> rfl)
  · rintro rfl q _
    rfl

/-- The two circuits as the preparation code sees them. -/
def movedCirc : Circ (List Nat) :=
  { ndata := 0
    nancillae := 2
    initialLayout := [(0, 0), (1, 1)]
    outputPermutation := [(0, 1), (1, 0)]
    ancillary := [true, true]
    garbage := [false, false]
    ops := [[1]] }
def stillCirc : Circ (List Nat) :=
  { ndata := 0
    nancillae := 2
    initialLayout := [(0, 0), (1, 1)]
    outputPermutation := [(0, 0), (1, 1)]
    ancillary := [true, true]
    garbage := [false, false]
    ops := [[0]] }

/-- **C36/C07, limit.** `canHandle` looks at the initial layouts only.  Two circuits rotate one of two ancillary qubits; the first
rotates physical qubit 1, which is read out as logical qubit 0.  They are equivalent, each ancillary is idle in one of the circuits so
the alternating checker accepts the pair, and answers `NotEquivalent`; the construction checker answers `Equivalent` – for every exact
package. -/
theorem canHandle_ignores_output (garb) (T : ExactTests 2) :
    Same [true, true] rotMoved (Equiv.swap 0 1) rotStill 1 ∧
    canHandle PrepareWitness.acts movedCirc stillCirc = true ∧
    (∃ s, runAlt (exactMatrix 2 garb) T.isId exactOpEq (.counts oneToOneScheme) (altVerdict T.close T.wOne) (fun _ => false)
      .noInformation rotMoved rotStill (altInit (exactMatrix 2 garb) 1 2 rotMoved rotStill)
      (rotMoved.ops.length + rotStill.ops.length + 2) = .ok (.notEquivalent, s)) ∧
    (∃ s, runTwo (exactMatrix 2 garb) oneToOneScheme false (equalsMatrix T.ptrEq T.wEq T.close fun e f => e * fᴴ)
      (fun _ => false) .noInformation rotMoved rotStill
      (constructionInit (exactMatrix 2 garb) 1 rotMoved) (constructionInit (exactMatrix 2 garb) 1 rotStill)
      (rotMoved.ops.length + rotStill.ops.length + 2) = .ok (.equivalent, s)) := by
  have hcfg : Configured rotMoved rotStill oneToOneScheme :=
    ⟨fun _ => ⟨.RY, 0, 1⟩, fun _ => none, none, Configuration.default 8 0, true, .oneToOne, rfl⟩
  have hfun : ∀ x, funcOf rotMoved (Equiv.swap 0 1) x (fun _ => false) = funcOf rotStill 1 x (fun _ => false) := by
    intro x
    rw [rotMoved_func, rotStill_func]
  have hsame : Same [true, true] rotMoved (Equiv.swap 0 1) rotStill 1 := by
    intro v hv
    rw [one_smul, output_eq, output_eq]
    funext x
    rw [Matrix.mulVec, Matrix.mulVec, dotProduct, dotProduct]
    refine Finset.sum_congr rfl fun y _ => ?_
    by_cases hy : v y = 0
    · rw [hy, mul_zero, mul_zero]
    · have := (proj2 y).1 (hv y hy)
      rw [this, hfun]
  refine ⟨hsame, by decide, ?_, ?_⟩
  · obtain ⟨v, s, hr, h | h⟩ := alternating_outcome garb rotMoved rotStill (Equiv.swap 0 1) 1 rotMoved_wf rotStill_wf T exactOpEq
      (.counts oneToOneScheme) (fun _ => .static exactOpEq_sound rfl (by simp [rotMoved, NoSwap]) (by simp [rotStill, NoSwap]))
      (.counts _ ⟨hcfg⟩) (altVerdict T.close T.wOne) (fun _ => false) (fun _ _ _ h => h) .noInformation _ (Nat.le_refl _)
    · exact absurd h.1 (by simp)
    · obtain ⟨_, hd, hv⟩ := h
      refine ⟨s, ?_⟩
      rw [hr]
      have hi : altInit (exactMatrix 2 garb) 1 2 rotMoved rotStill = ancProj [true, true] := by
        simp [altInit, exactMatrix, reduceAncillae]
        rfl
      have hc : T.close s.d = false := by
        refine not_close_of_offdiag T _ (fun _ => false) (fun q => decide (q = 0)) ?_ ?_
        · intro h; have := congrFun h 0; simp at this
        · rw [hd, hi, Matrix.mul_apply, Finset.sum_eq_single (fun _ => false)]
          · rw [ancProj, Matrix.mul_diagonal, if_pos ((proj2 _).2 rfl), mul_one, rotMoved_func, Matrix.conjTranspose_apply,
              rotStill_func]
            simp [mR]
          · intro y _ hy
            rw [ancProj, Matrix.mul_diagonal, if_neg (fun h => hy ((proj2 y).1 h)), mul_zero, zero_mul]
          · intro h; exact absurd (Finset.mem_univ _) h
      rw [hv]
      have : altVerdict T.close T.wOne s.d = .notEquivalent := by
        unfold altVerdict
        simp [hc]
      rw [this]
  · obtain ⟨v, s, hr, hv⟩ := construction_verdict_correct garb rotMoved rotStill (Equiv.swap 0 1) 1 rotMoved_wf rotStill_wf T
      oneToOneScheme hcfg .noInformation (fun _ => rfl)
    have : v = .equivalent := hv.equivalent.mpr hsame
    subst this
    exact ⟨s, hr⟩

end QCEC.Props
