import Verif.Props.PartialEquivalence
import Verif.Props.DDWitness
/-!
# C62: concrete circuits – the hypotheses are satisfiable, and the counterexamples to the documented definition
-/
namespace QCEC.Props
open QCEC QCEC.DD QCEC.Sem QCEC.Spec Matrix

open Classical in
/-- The assumed garbage-aware identity test exists, for every number of qubits. -/
noncomputable def idealGarbageTest (n : Nat) : GarbageTest n where
  closeG g d := decide (∀ x y, d x y ≠ 0 → ∀ q : Fin n, g.getD q.val false = false → x q = y q)
  closeG_iff g d := by simp

theorem gate1_mulVec {n : Nat} (m : Bool → Bool → ℂ) (p : Fin n) (w : Basis n → ℂ) (x : Basis n) :
    ((gate1 m p).mat.mulVec w) x = m (x p) false * w (Function.update x p false) + m (x p) true * w (Function.update x p true) := by
  have hne : Function.update x p false ≠ Function.update x p true := by
    intro h
    have := congrFun h p
    simp at this
  have agree : ∀ b q, q ≠ p → x q = Function.update x p b q := by
    intro b q hq
    rw [Function.update_of_ne hq]
  rw [Matrix.mulVec, dotProduct, Finset.sum_eq_add (Function.update x p false) (Function.update x p true) hne]
  · rw [gate1_mat, gate1_mat, if_pos (agree false), if_pos (agree true), Function.update_self, Function.update_self]
  · rintro y _ ⟨h1, h2⟩
    rw [gate1_mat, if_neg, zero_mul]
    intro h
    have : y = Function.update x p (y p) := by
      funext q
      by_cases e : q = p
      · subst e; rw [Function.update_self]
      · rw [Function.update_of_ne e]; exact (h q e).symm
    rcases hb : y p with _ | _
    · rw [hb] at this; exact h1 this
    · rw [hb] at this; exact h2 this
  · intro h; exact absurd (Finset.mem_univ _) h
  · intro h; exact absurd (Finset.mem_univ _) h

/-! ## The construction checker only looks at basis states -/

/-- Matrix of the Z gate. -/
noncomputable def mZ : Bool → Bool → ℂ
  | false, false => 1
  | true, true => -1
  | _, _ => 0

/-- A Z gate followed by the rotation. -/
noncomputable def zRot : QC 1 where
  ops := [.simple (.gate (gate1 mZ 0)), .simple (.gate (gate1 mR 0))]
  initialLayout := 1
  outputPermutation := [(0, 0)]

theorem mZ_valid : (gate1 mZ (0 : Fin 1)).Valid :=
  gate1_valid mZ 0 (by intro a b; cases a <;> cases b <;> simp [mZ])

theorem zRot_wf : WellFormed zRot 1 := by
  refine .of_total ?_ ⟨by simp [zRot], by simp [zRot]⟩ ?_ ?_
  · intro o ho
    simp only [zRot, List.mem_cons, List.not_mem_nil, or_false] at ho
    rcases ho with rfl | rfl
    · exact mZ_valid
    · exact mR_valid
  · intro q; exact ⟨(0, 0), by simp [zRot], by rw [Subsingleton.elim q 0]⟩
  · intro t ht
    simp only [zRot, List.mem_cons, List.not_mem_nil, or_false] at ht
    subst ht; rfl

/-- The basis state of one qubit. -/
def bit (b : Bool) : Basis 1 := fun _ => b

theorem basis1 (x : Basis 1) : x = bit (x 0) := by
  funext q
  rw [Subsingleton.elim q 0]
  rfl

theorem update1 (x : Basis 1) (b : Bool) : Function.update x 0 b = bit b := by
  funext q
  rw [Subsingleton.elim q 0, Function.update_self]
  rfl

theorem rot_output (v : Basis 1 → ℂ) (b : Bool) :
    output (rot []) 1 v (bit b) = mR b false * v (bit false) + mR b true * v (bit true) := by
  simp only [output, readOut, execute, rot, Op.phys, SOp.phys, load, gate1_mulVec, update1]
  rfl

theorem zRot_output (v : Basis 1 → ℂ) (b : Bool) :
    output zRot 1 v (bit b) = mR b false * v (bit false) - mR b true * v (bit true) := by
  simp only [output, readOut, execute, zRot, Op.phys, SOp.phys, load, gate1_mulVec, update1]
  simp only [bit, mZ, one_mul, zero_mul, add_zero, zero_add]
  have e : ∀ v' : Basis 1 → ℂ, v' (bit true) = v' (bit true) := fun _ => rfl
  show mR b false * v (bit false) + mR b true * (-1 * v (bit true)) = _
  ring

theorem prob1 (v : Basis 1 → ℂ) (k : Basis 1) : prob [] v k = ‖v k‖ ^ 2 := by
  unfold prob
  rw [Finset.sum_eq_single k]
  · rw [if_pos fun _ _ => rfl]
  · intro x _ hx
    rw [if_neg]
    intro h
    exact hx (funext fun q => h q (by simp))
  · simp

theorem reported1 (v : Basis 1 → ℂ) (k : Basis 1) : reported [] v k = ‖v k‖ ^ 2 := by
  unfold reported
  rw [if_pos (by intro q hq; simp at hq), prob1]

theorem rot_basis : BasisEquivalent [] [] [] (rot []) 1 zRot 1 := by
  intro y _ k
  rw [reported1, reported1, basis1 k, rot_output, zRot_output, basis1 y]
  cases y 0 <;> cases k 0 <;> simp [ket, bit, mR, funext_iff]

theorem rot_not_partial : ¬ PartiallyEquivalent [] [] (rot []) 1 zRot 1 := by
  intro h
  have := h (fun _ => 1) (by intro x _ q hq; simp at hq) (bit true)
  rw [prob1, prob1, rot_output, zRot_output] at this
  simp only [mR, mul_one] at this
  norm_num at this

theorem rot_cancel : CancelSafe exactOpEq (rot []) zRot := by
  refine .static exactOpEq_sound rfl ?_ ?_
  · intro o ho
    simp only [rot, List.mem_cons, List.not_mem_nil, or_false] at ho
    subst ho; trivial
  · intro o ho
    simp only [zRot, List.mem_cons, List.not_mem_nil, or_false] at ho
    rcases ho with rfl | rfl <;> trivial

/-- **C62 fails for the construction checker** (no garbage or ancillary qubits needed): a rotation with and without a preceding Z gate
have the same outcome probabilities on both basis states but not on all input states.  With partial equivalence switched on, the
construction checker reports `Equivalent`, the alternating checker `NotEquivalent` – for the same pair and the same option. -/
theorem construction_partial_unsound (T : ExactTests 1) (G : GarbageTest 1) :
    (∃ s, runTwo (exactMatrix 1 reduceGarbageMat) oneToOneScheme true (equalsMatrix T.ptrEq T.wEq T.close fun e f => e * fᴴ)
        (fun _ => false) .noInformation (rot []) zRot (constructionInit (exactMatrix 1 reduceGarbageMat) 1 (rot []))
        (constructionInit (exactMatrix 1 reduceGarbageMat) 1 zRot) 5 = .ok (.equivalent, s)) ∧
    (∃ s, runAlt (exactMatrix 1 reduceGarbageMat) T.isId exactOpEq (.counts oneToOneScheme)
        (altCheck true G.closeG T.close T.wOne 1 (rot []) zRot) (fun _ => false) .noInformation (rot []) zRot
        (altInit (exactMatrix 1 reduceGarbageMat) 1 1 (rot []) zRot) 5 = .ok (.notEquivalent, s)) ∧
    WellFormed (rot []) 1 ∧ WellFormed zRot 1 ∧ ¬ PartiallyEquivalent [] [] (rot []) 1 zRot 1 := by
  refine ⟨?_, ?_, rot_wf [], zRot_wf, rot_not_partial⟩
  · obtain ⟨v, s, hr, hv, _⟩ := construction_partial_exact (rot []) zRot 1 1 (rot_wf []) zRot_wf T oneToOneScheme
      (oneToOneConfigured _ _) .noInformation (fun _ => rfl)
    have : v = .equivalent := hv.mpr rot_basis
    subst this
    exact ⟨s, hr⟩
  · obtain ⟨v, s, hr, hv, h3⟩ := alternating_partial_exact_partial reduceGarbageMat (rot []) zRot 1 1 (rot_wf []) zRot_wf T G exactOpEq
      (.counts oneToOneScheme) (fun _ => rot_cancel.skipSafe) (.counts _ ⟨oneToOneConfigured _ _⟩) .noInformation
      (Or.inl fun q hq => by simp [rot] at hq)
    have : v = .notEquivalent := by
      by_contra hne
      apply rot_not_partial
      have hp := hv.mp hne
      intro w hw k
      have ha : AncillasZero (altAncillary 1 (rot []).ancillary zRot.ancillary) w := by
        intro x _ q hq
        rw [altAncillary_flag] at hq
        simp [rot, zRot] at hq
      have := hp w ha k
      unfold prob at this ⊢
      have e : ∀ q : Fin 1, (altGarbage 1 (rot []).garbage zRot.garbage).getD q.val false = ([] : List Bool).getD q.val false := by
        intro q
        rw [altGarbage_flag]
        simp [rot, zRot]
      simpa only [e] using this
    subst this
    exact ⟨s, hr⟩

/-! ## The alternating checker and ancillary qubits that are idle in different circuits -/

/-- Rotate qubit `a`, then flip qubit 0 if `a` is set.  Qubits 1 and 2 are ancillary and garbage. -/
noncomputable def spread (a : Fin 3) : QC 3 where
  ops := [.simple (.gate (gate1 mR a)), .simple (.gate { gX 0 with controls := [(a, true)] })]
  initialLayout := 1
  outputPermutation := [(0, 0)]
  ancillary := [false, true, true]
  garbage := [false, true, true]

/-- A controlled X gate on qubit 0. -/
noncomputable def cx (a : Fin 3) : Gate 3 := { gX 0 with controls := [(a, true)] }

theorem cx_valid (a : Fin 3) (ha : a ≠ 0) : (cx a).Valid := by
  obtain ⟨h1, _, h3⟩ := gX_valid (0 : Fin 3)
  refine ⟨h1, ?_, h3⟩
  intro c hc i
  simp only [cx, List.mem_cons, List.not_mem_nil, or_false] at hc
  subst hc
  exact fun h => ha h.symm

theorem spread_wf (a : Fin 3) (ha : a ≠ 0) : WellFormed (spread a) 1 := by
  refine ⟨?_, ⟨by simp [spread], by simp [spread]⟩, ?_⟩
  · intro o ho
    simp only [spread, List.mem_cons, List.not_mem_nil, or_false] at ho
    rcases ho with rfl | rfl
    · exact gate1_valid mR a (by intro a b; cases a <;> cases b <;> simp [mR] <;> norm_num)
    · exact cx_valid a ha
  · rfl

theorem cx_mat (a : Fin 3) (x y : Basis 3) :
    (cx a).mat x y = if y a = true then (gX (0 : Fin 3)).mat x y else if x = y then 1 else 0 := by
  have h0 : (gX (0 : Fin 3)).mat x y =
      if ∀ q, (∀ i, (gX (0 : Fin 3)).targets i ≠ q) → x q = y q then (gX (0 : Fin 3)).u (x ∘ (gX (0 : Fin 3)).targets) (y ∘ (gX (0 : Fin 3)).targets)
      else 0 := by
    unfold Gate.mat
    rw [if_pos (by intro c hc; exact absurd hc (by simp [gX, gate1]))]
  rw [h0]
  by_cases h : y a = true
  · rw [if_pos h]
    unfold Gate.mat
    rw [if_pos (by intro c hc; simp only [cx, List.mem_cons, List.not_mem_nil, or_false] at hc; subst hc; exact h)]
    rfl
  · rw [if_neg h]
    unfold Gate.mat
    rw [if_neg (by intro h'; exact h (h' (a, true) (by simp [cx])))]

theorem cx_mulVec (a : Fin 3) (ha : a ≠ 0) (w : Basis 3 → ℂ) (x : Basis 3) :
    ((cx a).mat.mulVec w) x = w (if x a = true then Function.update x 0 (!x 0) else x) := by
  have off : ∀ y : Basis 3, x a ≠ y a → (gX (0 : Fin 3)).mat x y = 0 := by
    intro y hy
    unfold gX
    rw [gate1_mat, if_neg]
    intro h
    exact hy (h a ha)
  by_cases hx : x a = true
  · rw [if_pos hx]
    refine Eq.trans ?_ (gX_mulVec (0 : Fin 3) w x)
    unfold Matrix.mulVec dotProduct
    refine Finset.sum_congr rfl fun y _ => ?_
    show (cx a).mat x y * w y = (gX (0 : Fin 3)).mat x y * w y
    rw [cx_mat]
    split
    · rfl
    · rename_i hy
      rw [off y (by rw [hx]; exact fun h => hy h.symm), if_neg]
      rintro rfl
      exact hy hx
  · rw [if_neg hx]
    unfold Matrix.mulVec dotProduct
    rw [Finset.sum_eq_single x]
    · show (cx a).mat x x * w x = w x
      rw [cx_mat, if_neg hx, if_pos rfl, one_mul]
    · intro y _ hy
      show (cx a).mat x y * w y = 0
      rw [cx_mat]
      split
      · rename_i h
        rw [off y (by rw [h]; exact hx), zero_mul]
      · rw [if_neg (Ne.symm hy), zero_mul]
    · intro h; exact absurd (Finset.mem_univ _) h

/-- The basis state before the controlled X gate. -/
def unflip (a : Fin 3) (x : Basis 3) : Basis 3 := if x a = true then Function.update x 0 (!x 0) else x

theorem spread_output (a : Fin 3) (ha : a ≠ 0) (v : Basis 3 → ℂ) (x : Basis 3) :
    output (spread a) 1 v x = mR (x a) false * v (Function.update (unflip a x) a false) +
      mR (x a) true * v (Function.update (unflip a x) a true) := by
  have hx : unflip a x a = x a := by
    unfold unflip
    split
    · rw [Function.update_of_ne ha]
    · rfl
  have : output (spread a) 1 v x = ((cx a).mat.mulVec ((gate1 mR a).mat.mulVec v)) x := rfl
  rw [this, cx_mulVec a ha, gate1_mulVec]
  show mR (unflip a x a) false * _ + mR (unflip a x a) true * _ = _
  rw [hx]
  rfl

theorem spread_zero (a : Fin 3) (ha : a ≠ 0) (v : Basis 3 → ℂ) (hv : AncillasZero [false, true, true] v) (x : Basis 3) :
    output (spread a) 1 v x = mR (x a) false * v (Function.update (unflip a x) a false) := by
  rw [spread_output a ha]
  have : v (Function.update (unflip a x) a true) = 0 := by
    by_contra h
    have fl : ∀ a : Fin 3, a ≠ 0 → [false, true, true].getD a.val false = true := by decide
    have := hv _ h a (fl a ha)
    rw [Function.update_self] at this
    exact absurd this (by simp)
  rw [this, mul_zero, add_zero]

theorem spread_swap (v : Basis 3 → ℂ) (hv : AncillasZero [false, true, true] v) (x : Basis 3) :
    output (spread 2) 1 v x = output (spread 1) 1 v (x ∘ Equiv.swap 1 2) := by
  rw [spread_zero 2 (by decide) v hv, spread_zero 1 (by decide) v hv]
  have e : (x ∘ Equiv.swap (1 : Fin 3) 2) 1 = x 2 := by simp
  rw [e]
  congr 1
  by_cases h : x 1 = true
  · have z : ∀ y : Basis 3, (y 1 = true ∨ y 2 = true) → v y = 0 := by
      intro y hy
      by_contra hn
      rcases hy with hy | hy
      · have := hv y hn 1 (by decide); rw [hy] at this; exact absurd this (by simp)
      · have := hv y hn 2 (by decide); rw [hy] at this; exact absurd this (by simp)
    rw [z, z]
    · right
      revert h; revert x; decide
    · left
      revert h; revert x; decide
  · congr 1
    revert h; revert x; decide

theorem spread_partial : PartiallyEquivalent [false, true, true] [false, true, true] (spread 2) 1 (spread 1) 1 := by
  intro v hv k
  unfold prob
  refine Fintype.sum_equiv (pre (Equiv.swap (1 : Fin 3) 2)) _ _ fun x => ?_
  rw [spread_swap v hv]
  have e : (∀ q : Fin 3, [false, true, true].getD q.val false = false → x q = k q) ↔
      ∀ q : Fin 3, [false, true, true].getD q.val false = false → (pre (Equiv.swap (1 : Fin 3) 2)) x q = k q := by
    have hp : ∀ q, (pre (Equiv.swap (1 : Fin 3) 2)) x q = x (Equiv.swap 1 2 q) := fun _ => rfl
    simp only [hp]
    revert x; revert k; decide
  simp only [e]
  rfl

theorem func_ket {n : Nat} (qc : QC n) (ω : Equiv.Perm (Fin n)) (x y : Basis n) : funcOf qc ω x y = output qc ω (ket y) x := by
  rw [output_eq]
  unfold Matrix.mulVec dotProduct ket
  rw [Finset.sum_eq_single y] <;> simp +contextual

theorem spread_idle (a b : Fin 3) (ha : b ≠ 0) (hab : a ≠ b) : Idle (spread a) 1 b := by
  refine ⟨b, rfl, rfl, ?_⟩
  intro o ho
  simp only [spread, List.mem_cons, List.not_mem_nil, or_false] at ho
  rcases ho with rfl | rfl
  · intro i; exact hab
  · intro i; exact Ne.symm ha

/-- **C62 fails for the alternating checker** if common ancillary qubits are idle in different circuits: each of the qubits 1 and 2 is
ancillary and garbage in both circuits and idle in one of them (so the checker accepts the pair), the circuits are partially equivalent
– they only use different ancillary qubits –, yet the checker reports `NotEquivalent`. -/
theorem alternating_partial_incomplete (garb) (T : ExactTests 3) (G : GarbageTest 3) :
    (∃ s, runAlt (exactMatrix 3 garb) T.isId exactOpEq (.counts oneToOneScheme)
        (altCheck true G.closeG T.close T.wOne 3 (spread 2) (spread 1)) (fun _ => false) .noInformation (spread 2) (spread 1)
        (altInit (exactMatrix 3 garb) 1 3 (spread 2) (spread 1)) 6 = .ok (.notEquivalent, s)) ∧
    WellFormed (spread 2) 1 ∧ WellFormed (spread 1) 1 ∧ Idle (spread 2) 1 1 ∧ Idle (spread 1) 1 2 ∧
    PartiallyEquivalent [false, true, true] [false, true, true] (spread 2) 1 (spread 1) 1 := by
  have hw2 := spread_wf 2 (by decide)
  have hw1 := spread_wf 1 (by decide)
  refine ⟨?_, hw2, hw1, spread_idle 2 1 (by decide) (by decide), spread_idle 1 2 (by decide) (by decide), spread_partial⟩
  have hc : CancelSafe exactOpEq (spread 2) (spread 1) := by
    refine .static exactOpEq_sound rfl ?_ ?_ <;>
    · intro o ho
      simp only [spread, List.mem_cons, List.not_mem_nil, or_false] at ho
      rcases ho with rfl | rfl <;> trivial
  obtain ⟨v, s, hr, h | h⟩ := alternating_outcome garb (spread 2) (spread 1) 1 1 hw2 hw1 T exactOpEq
    (.counts oneToOneScheme) (fun _ => hc.skipSafe) (.counts _ ⟨oneToOneConfigured _ _⟩)
    (altCheck true G.closeG T.close T.wOne 3 (spread 2) (spread 1)) (fun _ => false) (fun _ _ _ h => h) .noInformation _ (Nat.le_refl _)
  · exact absurd h.1 (by simp)
  · obtain ⟨_, hd, hv⟩ := h
    have : v = .notEquivalent := by
      by_contra hne
      rw [hv] at hne
      replace hne := (altCheck_partial G T (spread 2) (spread 1) s.d).mp hne
      rw [← block_iff] at hne
      have hi : altInit (exactMatrix 3 garb) 1 3 (spread 2) (spread 1) = ancProj [false, true, true] := by
        simp [altInit, exactMatrix, reduceAncillae, spread, altAncillary]
        rfl
      have entry : s.d (fun q => decide (q = 0) || decide (q = 2)) (fun _ => false) ≠ 0 := by
        rw [hd, hi, Matrix.mul_apply, Finset.sum_eq_single (fun _ => false)]
        · unfold ancProj
          rw [Matrix.mul_diagonal, Matrix.conjTranspose_apply, func_ket, func_ket, spread_output 2 (by decide), spread_output 1 (by decide)]
          have e1 : Function.update (unflip 2 fun q : Fin 3 => decide (q = 0) || decide (q = 2)) 2 false = fun _ => false := by decide
          have e2 : Function.update (unflip 2 fun q : Fin 3 => decide (q = 0) || decide (q = 2)) 2 true ≠ fun _ => false := by decide
          have e3 : Function.update (unflip 1 fun _ : Fin 3 => false) 1 false = fun _ => false := by decide
          have e4 : Function.update (unflip 1 fun _ : Fin 3 => false) 1 true ≠ fun _ => false := by decide
          simp [ket, e1, e2, e3, e4, mR]
        · intro z _ hz
          unfold ancProj
          rw [Matrix.mul_diagonal, Matrix.conjTranspose_apply]
          by_cases hP : ∀ q : Fin 3, [false, true, true].getD q.val false = true → z q = false
          · rw [func_ket (spread 1), spread_output 1 (by decide)]
            have e3 : Function.update (unflip 1 fun _ : Fin 3 => false) 1 false = fun _ => false := by decide
            have e4 : Function.update (unflip 1 fun _ : Fin 3 => false) 1 true ≠ z := by
              intro h
              have h1 := hP 1 (by decide)
              rw [← h, Function.update_self] at h1
              exact absurd h1 (by simp)
            rw [e3]
            unfold ket
            rw [if_neg (Ne.symm hz), if_neg e4]
            simp
          · rw [if_neg hP, mul_zero, zero_mul]
        · intro h; exact absurd (Finset.mem_univ _) h
      have := hne _ _ entry 0 (by rw [altGarbage_flag]; rfl)
      exact absurd this (by simp)
    subst this
    exact ⟨s, hr⟩

/-! ## The hypotheses of the positive theorems are met -/

/-- Construction accepts the two circuits that use different ancillary qubits. -/
example : ∃ s, runTwo (exactMatrix 3 reduceGarbageMat) oneToOneScheme true
    (equalsMatrix (idealTests 3).ptrEq (idealTests 3).wEq (idealTests 3).close fun e f => e * fᴴ) (fun _ => false) .noInformation
    (spread 2) (spread 1) (constructionInit (exactMatrix 3 reduceGarbageMat) 1 (spread 2))
    (constructionInit (exactMatrix 3 reduceGarbageMat) 1 (spread 1)) 6 = .ok (.equivalent, s) :=
  construction_partial_never_refutes (spread 2) (spread 1) 1 1 (spread_wf 2 (by decide)) (spread_wf 1 (by decide)) (idealTests 3)
    oneToOneScheme (oneToOneConfigured _ _) .noInformation (fun _ => rfl) rfl spread_partial

/-- So does every simulation whose stimulus has its ancillary qubits in `|0⟩`. -/
example (x : Basis 3 → ℂ) (hx : Normalised x) (ha : AncillasZero [false, true, true] x) :
    ∃ v s, runTwo (exactVector 3 reduceGarbageVec) oneToOneScheme true
      (equalsVector (idealVectorTests 3 (1 / 10)).ptrEq (idealVectorTests 3 (1 / 10)).wEq (idealVectorTests 3 (1 / 10)).realClose
        (idealVectorTests 3 (1 / 10)).fidClose) (fun _ => false) .noInformation (spread 2) (spread 1) x x 6 = .ok (v, s) ∧
      v ≠ .notEquivalent :=
  simulation_partial_never_refutes (spread 2) (spread 1) 1 1 (spread_wf 2 (by decide)) (spread_wf 1 (by decide))
    (idealVectorTests 3 (1 / 10)) (by norm_num [idealVectorTests]) oneToOneScheme (oneToOneConfigured _ _) .noInformation x hx
    [false, true, true] ha rfl spread_partial

/-- The alternating checker accepts a circuit against itself, whatever is garbage. -/
example (garb) : ∃ v s, runAlt (exactMatrix 3 garb) (idealTests 3).isId exactOpEq (.counts oneToOneScheme)
    (altCheck true (idealGarbageTest 3).closeG (idealTests 3).close (idealTests 3).wOne 3 (spread 2) { spread 2 with ancillary := [] })
    (fun _ => false) .noInformation (spread 2) { spread 2 with ancillary := [] }
    (altInit (exactMatrix 3 garb) 1 3 (spread 2) { spread 2 with ancillary := [] }) 6 = .ok (v, s) ∧ v ≠ .notEquivalent := by
  have hw := spread_wf 2 (by decide)
  have hw' : WellFormed { spread 2 with ancillary := [] } 1 := ⟨hw.ops, hw.out, hw.labels⟩
  have ns : ∀ o ∈ (spread 2).ops, NoSwap o := by
    intro o ho
    simp only [spread, List.mem_cons, List.not_mem_nil, or_false] at ho
    rcases ho with rfl | rfl <;> trivial
  obtain ⟨v, s, hr, hv, _⟩ := alternating_partial_exact_partial garb (spread 2) { spread 2 with ancillary := [] } 1 1 hw hw'
    (idealTests 3) (idealGarbageTest 3) exactOpEq (.counts oneToOneScheme) (fun _ => .static exactOpEq_sound rfl ns ns)
    (.counts _ ⟨oneToOneConfigured _ _⟩) .noInformation (Or.inr fun q _ hq => by simp at hq)
  exact ⟨v, s, hr, hv.mpr fun v _ k => rfl⟩

end QCEC.Props
