import Verif.Props.DDSem
import Verif.Lemmas.CancelSafe
/-!
# C02, C04, C05, C07: concrete circuits – the hypotheses are satisfiable, and the counterexamples to the full properties
-/
namespace QCEC.Props
open QCEC QCEC.DD QCEC.Sem QCEC.Spec Matrix

/-! ## The assumed tests exist -/

open Classical in
/-- Exact tests on matrices, for every number of qubits. -/
noncomputable def idealTests (n : Nat) : ExactTests n where
  ptrEq e f := decide (∃ c : ℂ, c ≠ 0 ∧ e = c • f)
  wEq e f := decide (e = f)
  close e := decide (∃ (c : ℂ) (S : Finset (Basis n)), c ≠ 0 ∧ S.Nonempty ∧ e = c • indic S)
  wOne e := decide (∃ S : Finset (Basis n), S.Nonempty ∧ e = indic S)
  isId e := decide (∃ c : ℂ, e = c • (1 : Mat n))
  ptrEq_iff e f _ _ := by simp
  wEq_iff e f _ _ _ := by simp
  close_sound e h := by
    rw [decide_eq_true_iff] at h
    exact h
  close_complete c anc hc := by
    obtain ⟨S, hS, h⟩ := ancProj_indic (n := n) anc
    rw [decide_eq_true_iff]
    exact ⟨c, S, hc, hS, by rw [h]⟩
  wOne_iff c S hc hS _ := by
    rw [decide_eq_true_iff]
    constructor
    · rintro ⟨R, _, h⟩
      obtain ⟨x, hx⟩ := hS
      have := congrFun (congrFun h x) x
      simp only [Matrix.smul_apply, indic, Matrix.diagonal_apply_eq, if_pos hx, smul_eq_mul, mul_one] at this
      by_cases hR : x ∈ R
      · rwa [if_pos hR] at this
      · rw [if_neg hR] at this; exact absurd this hc
    · rintro rfl
      exact ⟨S, hS, by rw [one_smul]; rfl⟩
  isId_sound d h := by simpa using h

open Classical in
/-- Exact tests on vectors, for every number of qubits and every threshold. -/
noncomputable def idealVectorTests (n : Nat) (thr : ℝ) : VectorTests n where
  threshold := thr
  ptrEq e f := decide (∃ c : ℂ, c ≠ 0 ∧ e = c • f)
  wEq e f := decide (e = f)
  realClose e f := decide (|(inner e f).re - 1| < thr)
  fidClose e f := decide (|(inner e f).re * (inner e f).re + (inner e f).im * (inner e f).im - 1| < thr)
  ptrEq_sound e f h := by simpa using h
  wEq_sound e f _ h := by simpa using h
  realClose_iff e f := by simp
  fidClose_iff e f := by simp

/-! ## Concrete circuits -/

/-- An uncontrolled single-qubit gate with the given 2×2 matrix. -/
noncomputable def gate1 {n : Nat} (m : Bool → Bool → ℂ) (p : Fin n) : Gate n where
  k := 1
  u x y := m (x 0) (y 0)
  targets _ := p
  controls := []

theorem gate1_mat {n : Nat} (m : Bool → Bool → ℂ) (p : Fin n) (x y : Basis n) :
    (gate1 m p).mat x y = if ∀ q, q ≠ p → x q = y q then m (x p) (y p) else 0 := by
  unfold Gate.mat
  rw [if_pos (by intro c hc; exact absurd hc (by simp [gate1]))]
  by_cases h : ∀ q, q ≠ p → x q = y q
  · rw [if_pos h, if_pos]
    · rfl
    · intro q hq
      exact h q (Ne.symm (hq (0 : Fin 1)))
  · rw [if_neg h, if_neg]
    intro h'
    exact h fun q hq => h' q fun _ => Ne.symm hq

theorem gate1_valid {n : Nat} (m : Bool → Bool → ℂ) (p : Fin n)
    (hm : ∀ a b, m a false * star (m b false) + m a true * star (m b true) = if a = b then 1 else 0) : (gate1 m p).Valid := by
  refine ⟨?_, ?_, ?_⟩
  · intro i j _
    exact Subsingleton.elim (α := Fin 1) i j
  · intro c hc; exact absurd hc (by simp [gate1])
  · show (Matrix.of fun x y : Fin 1 → Bool => m (x 0) (y 0)) * (Matrix.of fun x y : Fin 1 → Bool => m (x 0) (y 0))ᴴ = 1
    funext x y
    rw [Matrix.mul_apply, Matrix.one_apply]
    simp only [Matrix.conjTranspose_apply, Matrix.of_apply]
    rw [Fintype.sum_equiv (Equiv.funUnique (Fin 1) Bool) (fun j => m (x 0) (j 0) * star (m (y 0) (j 0))) (fun c => m (x 0) c * star (m (y 0) c)) (fun z => rfl)]
    rw [Fintype.sum_bool, add_comm, hm]
    have hxy : x = y ↔ x 0 = y 0 := ⟨fun h => by rw [h], fun h => by funext i; rw [Subsingleton.elim i 0]; exact h⟩
    by_cases h : x 0 = y 0
    · rw [if_pos h, if_pos (hxy.mpr h)]
    · rw [if_neg h, if_neg (fun e => h (hxy.mp e))]

/-- Matrix of the X gate. -/
noncomputable def mX : Bool → Bool → ℂ := fun a b => if a = b then 0 else 1

/-- An uncontrolled X gate. -/
noncomputable def gX {n : Nat} (p : Fin n) : Gate n := gate1 mX p

theorem gX_valid {n : Nat} (p : Fin n) : (gX p).Valid :=
  gate1_valid mX p (by intro a b; cases a <;> cases b <;> simp [mX])

theorem gX_mulVec {n : Nat} (p : Fin n) (w : Basis n → ℂ) (x : Basis n) :
    ((gX p).mat.mulVec w) x = w (Function.update x p (!x p)) := by
  have key : ∀ y, (gX p).mat x y = if y = Function.update x p (!x p) then 1 else 0 := by
    intro y
    unfold gX
    rw [gate1_mat]
    by_cases h : y = Function.update x p (!x p)
    · rw [if_pos h, if_pos]
      · rw [h]; simp [mX]
      · intro q hq
        rw [h, Function.update_of_ne hq]
    · rw [if_neg h]
      split
      · rename_i hq
        unfold mX
        split
        · rfl
        · rename_i hp
          exfalso; apply h
          funext q
          by_cases e : q = p
          · subst e
            rw [Function.update_self]
            revert hp; cases x q <;> cases y q <;> simp
          · rw [Function.update_of_ne e]; exact (hq q e).symm
      · rfl
  rw [Matrix.mulVec, dotProduct, Finset.sum_eq_single (Function.update x p (!x p))]
  · rw [key, if_pos rfl, one_mul]
  · intro y _ hy; rw [key, if_neg hy, zero_mul]
  · intro h; exact absurd (Finset.mem_univ _) h

theorem swapMat_mulVec {n : Nat} (a b : Fin n) (w : Basis n → ℂ) (x : Basis n) :
    ((swapMat a b).mulVec w) x = w (x ∘ Equiv.swap a b) := by
  have inv : ∀ z : Basis n, (z ∘ Equiv.swap a b) ∘ Equiv.swap a b = z := by
    intro z; funext q; simp [Function.comp]
  rw [Matrix.mulVec, dotProduct, Finset.sum_eq_single (x ∘ Equiv.swap a b)]
  · unfold swapMat
    rw [if_pos (inv x).symm, one_mul]
  · intro y _ hy
    unfold swapMat
    rw [if_neg, zero_mul]
    intro h; apply hy; rw [h, inv]
  · intro h; exact absurd (Finset.mem_univ _) h

/-- The labelling that reads every qubit out under its own index. -/
def idOut2 : List (Fin 2 × Fin 2) := [(0, 0), (1, 1)]

/-- `SWAP(0,1); X(0); SWAP(0,1)`, i.e. an X gate on qubit 1. -/
noncomputable def swapXswap : QC 2 where
  ops := [.simple (.swap 0 1), .simple (.gate (gX 0)), .simple (.swap 0 1)]
  initialLayout := 1
  outputPermutation := idOut2

/-- `X(0)`. -/
noncomputable def justX : QC 2 where
  ops := [.simple (.gate (gX 0))]
  initialLayout := 1
  outputPermutation := idOut2

/-- `X(0)` followed by a compound operation that contains a SWAP. -/
noncomputable def xThenSwap : QC 2 where
  ops := [.simple (.gate (gX 0)), .compound [.swap 0 1]]
  initialLayout := 1
  outputPermutation := idOut2

theorem idOut2_valid : OutValid idOut2 := by
  unfold idOut2
  refine ⟨?_, ?_⟩ <;> decide

theorem idOut2_total : Sem.Total idOut2 := by
  unfold idOut2 Sem.Total
  decide

theorem idOut2_ext : Extends 1 idOut2 := by
  unfold idOut2 Extends
  decide

theorem swapXswap_wf : WellFormed swapXswap 1 := by
  refine .of_total ?_ idOut2_valid idOut2_total idOut2_ext
  intro o ho
  simp only [swapXswap, List.mem_cons, List.not_mem_nil, or_false] at ho
  rcases ho with rfl | rfl | rfl
  · trivial
  · exact gX_valid 0
  · trivial

theorem justX_wf : WellFormed justX 1 := by
  refine .of_total ?_ idOut2_valid idOut2_total idOut2_ext
  intro o ho
  simp only [justX, List.mem_cons, List.not_mem_nil, or_false] at ho
  subst ho
  exact gX_valid 0

theorem xThenSwap_wf : WellFormed xThenSwap 1 := by
  refine .of_total ?_ idOut2_valid idOut2_total idOut2_ext
  intro o ho
  simp only [xThenSwap, List.mem_cons, List.not_mem_nil, or_false] at ho
  rcases ho with rfl | rfl
  · exact gX_valid 0
  · intro s hs
    simp only [List.mem_cons, List.not_mem_nil, or_false] at hs
    subst hs
    trivial


/-- The basis state `|00⟩`. -/
noncomputable def ket00 : Basis 2 → ℂ := fun x => if x = fun _ => false then 1 else 0

theorem swapXswap_ne_justX : ¬ SameUpToPhase [] swapXswap 1 justX 1 := by
  rintro ⟨c, _, h⟩
  have h1 := congrFun (h ket00 (fun x _ q hq => by simp at hq)) (fun q => decide (q = 1))
  simp only [output, readOut, execute, swapXswap, justX, Op.phys, SOp.phys, swapMat_mulVec, gX_mulVec, load, ket00,
    Pi.smul_apply, smul_eq_mul, Function.comp_def] at h1
  rw [if_pos (by decide), if_neg (by decide), mul_zero] at h1
  exact one_ne_zero h1

theorem xThenSwap_ne_justX : ¬ SameUpToPhase [] xThenSwap 1 justX 1 := by
  rintro ⟨c, _, h⟩
  have h1 := congrFun (h ket00 (fun x _ q hq => by simp at hq)) (fun q => decide (q = 1))
  simp only [output, readOut, execute, xThenSwap, justX, Op.phys, SOp.phys, physList, Matrix.one_mul, swapMat_mulVec, gX_mulVec, load, ket00,
    Pi.smul_apply, smul_eq_mul, Function.comp_def] at h1
  rw [if_pos (by decide), if_neg (by decide), mul_zero] at h1
  exact one_ne_zero h1


/-! ## Counterexample: cancelling identical gates ignores the tracked permutations -/

/-- Mathematical equality of operations as the gate comparison. -/
noncomputable def exactOpEq {n : Nat} (a b : Op n) : Bool := @decide (a = b) (Classical.propDecidable _)

theorem exactOpEq_sound {n : Nat} (a b : Op n) (h : exactOpEq a b = true) : a = b := by
  unfold exactOpEq at h
  exact @of_decide_eq_true _ (Classical.propDecidable _) h

theorem verdict_one {n : Nat} (T : ExactTests n) : altVerdict T.close T.wOne (1 : Mat n) = .equivalent := by
  have hc := T.close_complete 1 [] one_ne_zero
  rw [ancProj_nil, one_smul] at hc
  obtain ⟨S, hS, hP⟩ := ancProj_indic (n := n) []
  rw [ancProj_nil] at hP
  have hw := (T.wOne_iff 1 S one_ne_zero hS (by rw [one_smul]; change T.close (indic S) = true; rw [← hP]; exact hc)).mpr rfl
  rw [one_smul] at hw
  change T.wOne (indic S) = true at hw
  rw [← hP] at hw
  unfold altVerdict
  rw [hc, hw]
  rfl

/-- **C02/C04 fail for arbitrary circuits**: `SWAP(0,1); X(0); SWAP(0,1)` and `X(0)` are not equivalent, yet the alternating check
(one-to-one scheme, any package whose identity test recognises the identity) reports `Equivalent`. -/
theorem identity_skip_wrong (garb) (T : ExactTests 2) (hid : T.isId 1 = true) :
    (∃ s, runAlt (exactMatrix 2 garb) T.isId exactOpEq (.counts oneToOneScheme) (altVerdict T.close T.wOne) (fun _ => false)
      .noInformation swapXswap justX (altInit (exactMatrix 2 garb) 1 2 swapXswap justX)
      (swapXswap.ops.length + justX.ops.length + 2) = .ok (.equivalent, s)) ∧
    WellFormed swapXswap 1 ∧ WellFormed justX 1 ∧ ¬ SameUpToPhase [] swapXswap 1 justX 1 := by
  refine ⟨?_, swapXswap_wf, justX_wf, swapXswap_ne_justX⟩
  have hi : altInit (exactMatrix 2 garb) 1 2 swapXswap justX = 1 := by
    have : altAncillary 2 swapXswap.ancillary justX.ancillary = [false, false] := rfl
    unfold altInit
    rw [this]
    simp only [exactMatrix, reduceAncillae, if_true, Matrix.one_mul]
    rw [← ancProj_nil]
    apply ancProj_congr
    intro q; fin_cases q <;> rfl
  have heq : exactOpEq (.simple (.gate (gX 0)) : Op 2) (.simple (.gate (gX 0))) = true := by
    unfold exactOpEq
    exact @decide_eq_true _ (Classical.propDecidable _) rfl
  have hv := verdict_one T
  rw [hi]
  have hsw : (exactMatrix 2 garb).isSwap (.simple (.swap 0 1)) = true := rfl
  have hx : (exactMatrix 2 garb).isSwap (.simple (.gate (gX 0))) = false := rfl
  have ap : ∀ σ : Equiv.Perm (Fin 2), (exactMatrix 2 garb).applyOp .left (.simple (.swap 0 1)) σ 1 = (σ * Equiv.swap 0 1, 1) := by
    intro σ
    show (σ * Equiv.swap 0 1, (1 : Mat 2) * 1) = _
    rw [Matrix.one_mul]
  have a1 : applySwaps (exactMatrix 2 garb) .left (Cur.start swapXswap) 1 =
      (⟨[.simple (.gate (gX 0)), .simple (.swap 0 1)], 1 * Equiv.swap 0 1⟩, 1) := by
    show applySwapsAux (exactMatrix 2 garb) .left [.simple (.swap 0 1), .simple (.gate (gX 0)), .simple (.swap 0 1)] 1 1 = _
    rw [applySwapsAux, if_pos hsw, ap]
    show applySwapsAux (exactMatrix 2 garb) .left [.simple (.gate (gX 0)), .simple (.swap 0 1)] (1 * Equiv.swap 0 1) 1 = _
    rw [applySwapsAux, hx]
    rfl
  have a2 : applySwaps (exactMatrix 2 garb) .right (Cur.start justX) 1 = (⟨[.simple (.gate (gX 0))], 1⟩, 1) := by
    show applySwapsAux (exactMatrix 2 garb) .right [.simple (.gate (gX 0))] 1 1 = _
    rw [applySwapsAux, hx]
    rfl
  have h1 : altLoop (exactMatrix 2 garb) T.isId exactOpEq (.counts oneToOneScheme) (fun _ => false) 6
      { c1 := .start swapXswap, c2 := .start justX, d := 1, polls := 0 } =
      .ok { c1 := ⟨[.simple (.swap 0 1)], 1 * Equiv.swap 0 1⟩, c2 := ⟨[], 1⟩, d := 1, polls := 2 } := by
    rw [altLoop]
    simp only [a1, a2]
    rw [if_neg (by simp [Cur.start, Cur.finished, swapXswap, justX]), if_neg (by simp), if_neg (by simp [Cur.finished]),
      if_neg (by simp), if_pos (by rw [hid]; exact heq)]
    rfl
  have h2 : altFinish (exactMatrix 2 garb) (fun _ => false)
      { c1 := ⟨[.simple (.swap 0 1)], 1 * Equiv.swap 0 1⟩, c2 := ⟨[], 1⟩, d := 1, polls := 2 } =
      { c1 := ⟨[], 1⟩, c2 := ⟨[], 1⟩, d := 1, polls := 3 } := by
    unfold altFinish
    have e : finishTask (exactMatrix 2 garb) .left ⟨[.simple (.swap 0 1)], 1 * Equiv.swap 0 1⟩ 1 = (⟨[], 1⟩, 1) := by
      rw [finishTask, dif_pos (by simp [Cur.finished])]
      have : advance (exactMatrix 2 garb) .left 1 ⟨[.simple (.swap 0 1)], 1 * Equiv.swap 0 1⟩ 1 = (⟨[], 1⟩, 1) := by
        rw [advance, if_neg (by simp [Cur.finished])]
        simp only [applyGate, ap, applySwaps, applySwapsAux, advance]
        rw [one_mul, Equiv.swap_mul_self]
      rw [this, finishTask, dif_neg (by simp [Cur.finished])]
    simp only [e]
    rw [finishTask, dif_neg (by simp [Cur.finished])]
    rfl
  have h3 : altPostprocess (exactMatrix 2 garb) (fun _ => false) swapXswap justX
      { c1 := ⟨[], 1⟩, c2 := ⟨[], 1⟩, d := 1, polls := 3 } = { c1 := ⟨[], 1⟩, c2 := ⟨[], 1⟩, d := 1, polls := 4 } := by
    have e : ∀ reg d, (exactMatrix 2 garb).changePerm reg d 1 idOut2 = (d, 1) := by
      intro reg d
      simp [exactMatrix, changePerm, idOut2, changePermStep]
    unfold altPostprocess
    simp only [swapXswap, justX, e]
    rfl
  refine ⟨{ c1 := ⟨[], 1⟩, c2 := ⟨[], 1⟩, d := 1, polls := 4 }, ?_⟩
  unfold runAlt
  rw [show swapXswap.ops.length + justX.ops.length + 2 = 6 from rfl, h1]
  simp only [h2, h3, hv]
  rfl

/-! ## Counterexample: lookahead and compound operations with SWAPs -/

open Classical in
/-- A size measure on operators: the identity is smaller than everything else. -/
noncomputable def toySize (d : Mat 2) : Nat := if d = 1 then 0 else 1

theorem gX_ne_one : ((gX 0 : Gate 2).mat) ≠ 1 := by
  intro h
  have h1 := congrFun (congrFun h (fun _ => false)) (fun _ => false)
  unfold gX at h1
  rw [gate1_mat] at h1
  simp [mX] at h1

theorem map_one_perm {n : Nat} (g : Gate n) : g.map 1 = g := by
  simp [Gate.map]

/-- **C02/C04 fail for lookahead with compound operations**: `X(0); {SWAP(0,1)}` (a compound operation) and `X(0)` are not
equivalent, yet the alternating check with the lookahead scheme reports `Equivalent`: the permutation of the compound operation is
updated when its matrix is cached and once more when it is finally applied. -/
theorem lookahead_compound_wrong (garb) (T : ExactTests 2) :
    (∃ s, runAlt (exactMatrix 2 garb) T.isId exactOpEq (.lookahead toySize) (altVerdict T.close T.wOne) (fun _ => false)
      .noInformation xThenSwap justX (altInit (exactMatrix 2 garb) 1 2 xThenSwap justX)
      (xThenSwap.ops.length + justX.ops.length + 2) = .ok (.equivalent, s)) ∧
    WellFormed xThenSwap 1 ∧ WellFormed justX 1 ∧ ¬ SameUpToPhase [] xThenSwap 1 justX 1 := by
  refine ⟨?_, xThenSwap_wf, justX_wf, xThenSwap_ne_justX⟩
  have hi : altInit (exactMatrix 2 garb) 1 2 xThenSwap justX = 1 := by
    have : altAncillary 2 xThenSwap.ancillary justX.ancillary = [false, false] := rfl
    unfold altInit
    rw [this]
    simp only [exactMatrix, reduceAncillae, if_true, Matrix.one_mul]
    rw [← ancProj_nil]
    apply ancProj_congr
    intro q; fin_cases q <;> rfl
  have hv := verdict_one T
  rw [hi]
  let X : Mat 2 := (gX 0 : Gate 2).mat
  let C : Op 2 := .compound [.swap 0 1]
  let G : Op 2 := .simple (.gate (gX 0))
  have hXX : X * Xᴴ = 1 := (gX 0 : Gate 2).mat_unitary (gX_valid 0)
  have hX1 : X ≠ 1 := gX_ne_one
  have hXc : Xᴴ ≠ 1 := by
    intro h; apply hX1
    have := congrArg Matrix.conjTranspose h
    rwa [Matrix.conjTranspose_conjTranspose, Matrix.conjTranspose_one] at this
  have gG : (exactMatrix 2 garb).getDD G 1 = (X, 1) := by
    show (((gX 0 : Gate 2).map 1).mat, _) = _
    rw [map_one_perm]
  have gGi : (exactMatrix 2 garb).getInv G 1 = (Xᴴ, 1) := by
    show (((gX 0 : Gate 2).map 1).matᴴ, _) = _
    rw [map_one_perm]
  have gC : ∀ σ, (exactMatrix 2 garb).getDD C σ = (1, σ * Equiv.swap 0 1) := by
    intro σ
    show ((1 : Mat 2) * 1, _) = _
    rw [Matrix.one_mul]
    rfl
  have sw : ∀ (dir : Dir) (o : Op 2) (r : List (Op 2)) (σ : Equiv.Perm (Fin 2)) (d : Mat 2), o.isSwap = false →
      applySwaps (exactMatrix 2 garb) dir ⟨o :: r, σ⟩ d = (⟨o :: r, σ⟩, d) := by
    intro dir o r σ d ho
    show applySwapsAux (exactMatrix 2 garb) dir (o :: r) σ d = _
    rw [applySwapsAux, if_neg]
    show ¬ o.isSwap = true
    rw [ho]; simp
  have s1 : lookaheadStep (exactMatrix 2 garb) toySize { c1 := ⟨[G, C], 1⟩, c2 := ⟨[G], 1⟩, d := 1, polls := 1 } =
      some { c1 := ⟨[C], 1⟩, c2 := ⟨[G], 1⟩, d := X, cached1 := none, cached2 := some Xᴴ, polls := 1 } := by
    have e1 : (exactMatrix 2 garb).mulL X 1 = X := Matrix.mul_one X
    have e2 : (exactMatrix 2 garb).mulR 1 Xᴴ = Xᴴ := Matrix.one_mul Xᴴ
    simp only [lookaheadStep, cachedOr, gG, gGi, e1, e2]
    rw [if_pos (by simp [toySize, hX1, hXc])]
  have s2 : lookaheadStep (exactMatrix 2 garb) toySize
      { c1 := ⟨[C], 1⟩, c2 := ⟨[G], 1⟩, d := X, cached1 := none, cached2 := some Xᴴ, polls := 5 } =
      some { c1 := ⟨[C], Equiv.swap 0 1⟩, c2 := ⟨[], 1⟩, d := 1, cached1 := some 1, cached2 := none, polls := 5 } := by
    have e1 : (exactMatrix 2 garb).mulL 1 X = X := Matrix.one_mul X
    have e2 : (exactMatrix 2 garb).mulR X Xᴴ = 1 := hXX
    simp only [lookaheadStep, cachedOr, gC, e1, e2, one_mul]
    rw [if_neg (by simp [toySize, hX1])]
  have h1 : altLoop (exactMatrix 2 garb) T.isId exactOpEq (.lookahead toySize) (fun _ => false) 5
      { c1 := .start xThenSwap, c2 := .start justX, d := 1, polls := 0 } =
      .ok { c1 := ⟨[C], Equiv.swap 0 1⟩, c2 := ⟨[], 1⟩, d := 1, cached1 := some 1, cached2 := none, polls := 8 } := by
    show altLoop (exactMatrix 2 garb) T.isId exactOpEq (.lookahead toySize) (fun _ => false) 5
      { c1 := ⟨[G, C], 1⟩, c2 := ⟨[G], 1⟩, d := 1, polls := 0 } = _
    rw [altLoop]
    simp only [sw .left G [C] 1 1 rfl, sw .right G [] 1 1 rfl, s1]
    rw [if_neg (by simp [Cur.finished]), if_neg (by simp), if_neg (by simp [Cur.finished]), if_neg (by simp), altLoop]
    simp only [sw .left C [] 1 X rfl, sw .right G [] 1 X rfl]
    rw [if_neg (by simp [Cur.finished]), if_neg (by simp), if_neg (by simp [Cur.finished]), if_neg (by simp)]
    rw [s2]
    rfl
  have h2 : altFinish (exactMatrix 2 garb) (fun _ => false)
      { c1 := ⟨[C], Equiv.swap 0 1⟩, c2 := ⟨[], 1⟩, d := 1, cached1 := some 1, cached2 := none, polls := 8 } =
      { c1 := ⟨[], 1⟩, c2 := ⟨[], 1⟩, d := 1, cached1 := some 1, cached2 := none, polls := 9 } := by
    unfold altFinish
    have e : finishTask (exactMatrix 2 garb) .left ⟨[C], Equiv.swap 0 1⟩ 1 = (⟨[], 1⟩, 1) := by
      rw [finishTask, dif_pos (by simp [Cur.finished])]
      have : advance (exactMatrix 2 garb) .left 1 ⟨[C], Equiv.swap 0 1⟩ 1 = (⟨[], 1⟩, 1) := by
        rw [advance, if_neg (by simp [Cur.finished])]
        simp only [applyGate, Backend.applyOp, gC, applySwaps, applySwapsAux, advance]
        rw [Equiv.swap_mul_self, show (exactMatrix 2 garb).mulL 1 1 = 1 from Matrix.one_mul 1]
      rw [this, finishTask, dif_neg (by simp [Cur.finished])]
    simp only [e]
    rw [finishTask, dif_neg (by simp [Cur.finished])]
    rfl
  have h3 : altPostprocess (exactMatrix 2 garb) (fun _ => false) xThenSwap justX
      { c1 := ⟨[], 1⟩, c2 := ⟨[], 1⟩, d := 1, cached1 := some 1, cached2 := none, polls := 9 } =
      { c1 := ⟨[], 1⟩, c2 := ⟨[], 1⟩, d := 1, cached1 := some 1, cached2 := none, polls := 10 } := by
    have e : ∀ reg d, (exactMatrix 2 garb).changePerm reg d 1 idOut2 = (d, 1) := by
      intro reg d
      simp [exactMatrix, changePerm, idOut2, changePermStep]
    unfold altPostprocess
    simp only [xThenSwap, justX, e]
    rfl
  refine ⟨{ c1 := ⟨[], 1⟩, c2 := ⟨[], 1⟩, d := 1, cached1 := some 1, cached2 := none, polls := 10 }, ?_⟩
  unfold runAlt
  rw [show xThenSwap.ops.length + justX.ops.length + 2 = 5 from rfl, h1]
  simp only [h2, h3, hv]
  rfl

/-! ## Counterexample: different ancillary flags -/

/-- A real rotation. -/
noncomputable def mR : Bool → Bool → ℂ
  | false, false => 3 / 5
  | false, true => -(4 / 5)
  | true, false => 4 / 5
  | true, true => 3 / 5

/-- The one-qubit circuit with that rotation, its qubit being declared ancillary or not. -/
noncomputable def rot (anc : List Bool) : QC 1 where
  ops := [.simple (.gate (gate1 mR 0))]
  initialLayout := 1
  outputPermutation := [(0, 0)]
  ancillary := anc

theorem mR_valid : (gate1 mR (0 : Fin 1)).Valid :=
  gate1_valid mR 0 (by intro a b; cases a <;> cases b <;> simp [mR] <;> norm_num)

theorem rot_wf (anc : List Bool) : WellFormed (rot anc) 1 := by
  refine .of_total ?_ ⟨by simp [rot], by simp [rot]⟩ ?_ ?_
  · intro o ho
    simp only [rot, List.mem_cons, List.not_mem_nil, or_false] at ho
    subst ho
    exact mR_valid
  · intro q; exact ⟨(0, 0), by simp [rot], by rw [Subsingleton.elim q 0]⟩
  · intro t ht
    simp only [rot, List.mem_cons, List.not_mem_nil, or_false] at ht
    subst ht; rfl

theorem rot_func (anc : List Bool) (x y : Basis 1) : funcOf (rot anc) 1 x y = mR (x 0) (y 0) := by
  show (1 * (gate1 mR (0 : Fin 1)).mat) (x ∘ (1 : Equiv.Perm (Fin 1))) (y ∘ (1 : Equiv.Perm (Fin 1))) = _
  rw [Matrix.one_mul, gate1_mat, if_pos]
  · rfl
  · intro q hq; exact absurd (Subsingleton.elim q 0) hq

theorem not_close_of_offdiag {n : Nat} (T : ExactTests n) (A : Mat n) (x y : Basis n) (hxy : x ≠ y) (h : A x y ≠ 0) :
    T.close A = false := by
  by_contra hc
  obtain ⟨c, S, _, _, e⟩ := T.close_sound A (by simpa using hc)
  apply h
  rw [e, Matrix.smul_apply, Matrix.diagonal_apply_ne _ hxy, smul_zero]

/-- **C05/C07 fail if the circuits are declared with different ancillary qubits**: comparing a circuit with itself, once with its
qubit declared ancillary and once not, the construction check answers `NotEquivalent` whereas the alternating check answers
`Equivalent` – for every exact package. -/
theorem construction_flags_incomplete (garb) (T : ExactTests 1) :
    (∃ s, runTwo (exactMatrix 1 garb) oneToOneScheme false (equalsMatrix T.ptrEq T.wEq T.close fun e f => e * fᴴ)
      (fun _ => false) .noInformation (rot [true]) (rot [])
      (constructionInit (exactMatrix 1 garb) 1 (rot [true])) (constructionInit (exactMatrix 1 garb) 1 (rot []))
      ((rot [true]).ops.length + (rot []).ops.length + 2) = .ok (.notEquivalent, s)) ∧
    (∃ s, runAlt (exactMatrix 1 garb) T.isId exactOpEq (.counts oneToOneScheme) (altVerdict T.close T.wOne) (fun _ => false)
      .noInformation (rot [true]) (rot []) (altInit (exactMatrix 1 garb) 1 1 (rot [true]) (rot []))
      ((rot [true]).ops.length + (rot []).ops.length + 2) = .ok (.equivalent, s)) ∧
    Same [] (rot [true]) 1 (rot []) 1 := by
  have hsame : Same [] (rot [true]) 1 (rot []) 1 := fun v _ => by rw [one_smul]; rfl
  have hcfg : Configured (rot [true]) (rot []) oneToOneScheme :=
    ⟨fun _ => ⟨.RY, 0, 1⟩, fun _ => none, none, Configuration.default 8 0, true, .oneToOne, rfl⟩
  refine ⟨?_, ?_, hsame⟩
  · obtain ⟨s, h | h⟩ := runTwo_spec (exactMatrix 1 garb) oneToOneScheme false
      (equalsMatrix T.ptrEq T.wEq T.close fun e f => e * fᴴ) (fun _ => false) (fun _ _ _ h => h) .noInformation (rot [true])
      (rot []) hcfg.good (constructionInit (exactMatrix 1 garb) 1 (rot [true])) (constructionInit (exactMatrix 1 garb) 1 (rot []))
      _ (Nat.le_refl _)
    · exact absurd h.1 (by simp)
    · obtain ⟨_, hr, _, _, hd1, hd2⟩ := h
      refine ⟨s, ?_⟩
      rw [hr, construction_object garb (rot_wf [true]), construction_object garb (rot_wf [])]
      have hF : funcOf (rot [true]) 1 = funcOf (rot []) 1 := rfl
      have hP : (ancProj (rot []).ancillary : Mat 1) = 1 := ancProj_nil
      have hc0 : ∀ x y : Basis 1, (funcOf (rot [true]) 1 * ancProj (rot [true]).ancillary : Mat 1) x y =
          if y 0 = false then mR (x 0) (y 0) else 0 := by
        intro x y
        unfold ancProj
        rw [Matrix.mul_diagonal, rot_func]
        have : (∀ q : Fin 1, (rot [true]).ancillary.getD q.val false = true → y q = false) ↔ y 0 = false :=
          ⟨fun h => h 0 rfl, fun h q _ => by rw [Subsingleton.elim q 0]; exact h⟩
        simp only [this]
        split <;> simp
      rw [hP, Matrix.mul_one, ← hF]
      let x0 : Basis 1 := fun _ => false
      let x1 : Basis 1 := fun _ => true
      have hne : x0 ≠ x1 := by intro h; have := congrFun h 0; simp [x0, x1] at this
      have hcF : T.close (funcOf (rot [true]) 1) = false := by
        refine not_close_of_offdiag T _ x0 x1 hne ?_
        rw [rot_func]
        simp only [x0, x1, mR]
        norm_num
      have hcFP : T.close (funcOf (rot [true]) 1 * ancProj (rot [true]).ancillary) = false := by
        refine not_close_of_offdiag T _ x1 x0 (Ne.symm hne) ?_
        rw [hc0, if_pos rfl]
        simp only [x0, x1, mR]
        norm_num
      have hcM : T.close (funcOf (rot [true]) 1 * ancProj (rot [true]).ancillary * (funcOf (rot [true]) 1)ᴴ) = false := by
        refine not_close_of_offdiag T _ x0 x1 hne ?_
        rw [Matrix.mul_apply]
        rw [Fintype.sum_equiv (Equiv.funUnique (Fin 1) Bool) _ (fun c => (if c = false then mR false c else 0) * star (mR true c))
          (fun z => by
            rw [hc0, Matrix.conjTranspose_apply, rot_func]
            rfl)]
        rw [Fintype.sum_bool]
        simp [mR]
      have hp : T.ptrEq (funcOf (rot [true]) 1 * ancProj (rot [true]).ancillary) (funcOf (rot [true]) 1) = false := by
        by_contra hc
        have n1 := func_ancProj_ne_zero _ (funcOf_unitary (rot [true]) 1 (rot_wf [true]).ops) (rot [true]).ancillary
        have n2 : funcOf (rot [true]) 1 ≠ 0 := by
          intro h
          have := congrFun (congrFun h x0) x0
          rw [rot_func] at this
          simp [x0, mR] at this
        obtain ⟨c, hcne, e⟩ := (T.ptrEq_iff _ _ n1 n2).mp (by simpa using hc)
        have := congrFun (congrFun e x0) x1
        rw [hc0, Matrix.smul_apply, rot_func, if_neg (by simp [x1])] at this
        simp only [x0, x1, mR, smul_eq_mul] at this
        have h45 : (-(4 / 5) : ℂ) ≠ 0 := by norm_num
        exact (mul_ne_zero hcne h45) this.symm
      unfold equalsMatrix
      simp only [hp, hcF, hcFP, hcM]
      simp
  · obtain ⟨v, s, hr, hv⟩ := alternating_verdict_correct_partial garb (rot [true]) (rot []) 1 1 (rot_wf _) (rot_wf _) T
      exactOpEq (.counts oneToOneScheme) (fun _ => .static exactOpEq_sound rfl (by simp [rot, NoSwap]) (by simp [rot, NoSwap]))
      (.counts _ ⟨hcfg⟩) .noInformation (by intro q _ h; simp [rot] at h)
    refine ⟨s, ?_⟩
    rw [hr]
    have : v = .equivalent := hv.equivalent.mpr (fun x _ => hsame x (fun x _ q hq => by simp at hq))
    rw [this]

/-! ## The hypotheses of the positive theorems are met: `SWAP(0,1); X(0); SWAP(0,1)` against `X(1)` -/

/-- `X(1)`. -/
noncomputable def justX1 : QC 2 where
  ops := [.simple (.gate (gX 1))]
  initialLayout := 1
  outputPermutation := idOut2

theorem justX1_wf : WellFormed justX1 1 := by
  refine .of_total ?_ idOut2_valid idOut2_total idOut2_ext
  intro o ho
  simp only [justX1, List.mem_cons, List.not_mem_nil, or_false] at ho
  subst ho
  exact gX_valid 1

theorem swapXswap_same_justX1 : Same [] swapXswap 1 justX1 1 := by
  intro v _
  funext x
  simp only [output, readOut, execute, swapXswap, justX1, Op.phys, SOp.phys, swapMat_mulVec, gX_mulVec, load, one_smul]
  congr 1
  revert x
  decide

noncomputable def oneToOneConfigured {n : Nat} (qc1 qc2 : QC n) : Configured qc1 qc2 oneToOneScheme :=
  ⟨fun _ => ⟨.X, 0, 1⟩, fun _ => none, none, Configuration.default 8 0, true, .oneToOne, rfl⟩

/-- Construction answers `Equivalent` (hypotheses of `construction_verdict_correct` are met). -/
example (garb) : ∃ s, runTwo (exactMatrix 2 garb) oneToOneScheme false
    (equalsMatrix (idealTests 2).ptrEq (idealTests 2).wEq (idealTests 2).close fun e f => e * fᴴ) (fun _ => false) .noInformation
    swapXswap justX1 (constructionInit (exactMatrix 2 garb) 1 swapXswap) (constructionInit (exactMatrix 2 garb) 1 justX1) 6 =
    .ok (.equivalent, s) := by
  obtain ⟨v, s, hr, hv⟩ := construction_verdict_correct garb swapXswap justX1 1 1 swapXswap_wf justX1_wf (idealTests 2)
    oneToOneScheme (oneToOneConfigured _ _) .noInformation (fun _ => rfl)
  have : v = .equivalent := hv.equivalent.mpr swapXswap_same_justX1
  subst this
  exact ⟨s, hr⟩

/-- So does the alternating check, with lookahead (hypotheses of `alternating_verdict_correct_partial` are met). -/
example (garb) : ∃ s, runAlt (exactMatrix 2 garb) (idealTests 2).isId (fun _ _ => false) (.lookahead toySize)
    (altVerdict (idealTests 2).close (idealTests 2).wOne) (fun _ => false) .noInformation swapXswap justX1
    (altInit (exactMatrix 2 garb) 1 2 swapXswap justX1) 6 = .ok (.equivalent, s) := by
  obtain ⟨v, s, hr, hv⟩ := alternating_verdict_correct_partial garb swapXswap justX1 1 1 swapXswap_wf justX1_wf (idealTests 2)
    (fun _ _ => false) (.lookahead toySize) (by rintro ⟨⟩)
    (.lookahead toySize
      (by
        intro o ho hs
        simp only [swapXswap, List.mem_cons, List.not_mem_nil, or_false] at ho
        rcases ho with rfl | rfl | rfl
        · simp [Op.isSwap] at hs
        · trivial
        · simp [Op.isSwap] at hs)
      (by
        intro o ho hs
        simp only [justX1, List.mem_cons, List.not_mem_nil, or_false] at ho
        subst ho
        trivial)) .noInformation (by intro q h; simp [swapXswap] at h)
  have : v = .equivalent := by
    refine hv.equivalent.mpr fun x _ => swapXswap_same_justX1 x (fun y _ q hq => by simp at hq)
  subst this
  exact ⟨s, hr⟩

/-! ## When cancelling is safe -/

/-- The pair of `identity_skip_wrong` is not safe. -/
theorem skip_pair_not_safe : ¬ SkipSafe exactOpEq swapXswap justX := by
  intro h
  obtain ⟨⟨s, hr⟩, _, _, hne⟩ := identity_skip_wrong (fun _ _ d => d) (idealTests 2)
    (by simp only [idealTests, decide_eq_true_iff]; exact ⟨1, (one_smul _ _).symm⟩)
  obtain ⟨v, s', hr', hv⟩ := alternating_verdict_correct_partial (fun _ _ d => d) swapXswap justX 1 1 swapXswap_wf justX_wf (idealTests 2)
    exactOpEq (.counts oneToOneScheme) (fun _ => h) (.counts _ ⟨oneToOneConfigured _ _⟩) .noInformation
    (by intro q h; simp [swapXswap] at h)
  rw [hr] at hr'
  cases hr'
  have hs : SameUpToPhase _ swapXswap 1 justX 1 := same_imp_phase (hv.equivalent.1 rfl)
  obtain ⟨c, hc, hcv⟩ := hs
  refine hne ⟨c, hc, fun x _ => hcv x ?_⟩
  intro y _ q hq
  fin_cases q <;> simp [altAncillary, swapXswap, justX] at hq

/-- Circuits with SWAPs and common gates can be safe: a circuit against itself. -/
theorem swaps_can_be_safe : CancelSafe exactOpEq swapXswap swapXswap := by
  refine .of_labels exactOpEq_sound ?_
  have key : ∀ p o r, swapXswap.ops = p ++ o :: r → o.isSwap = false → p = [.simple (.swap 0 1)] ∧ NoSwap o := by
    intro p o r e ho
    simp only [swapXswap] at e
    rcases p with _ | ⟨a, _ | ⟨b, _ | ⟨c, p⟩⟩⟩
    · simp only [List.nil_append, List.cons.injEq] at e
      rw [← e.1] at ho; simp [Op.isSwap] at ho
    · simp only [List.cons_append, List.nil_append, List.cons.injEq] at e
      refine ⟨by rw [← e.1], ?_⟩
      rw [← e.2.1]; trivial
    · simp only [List.cons_append, List.nil_append, List.cons.injEq] at e
      rw [← e.2.2.1] at ho; simp [Op.isSwap] at ho
    · simp at e
  intro p1 o r1 p2 r2 e1 e2 ho
  obtain ⟨rfl, hn⟩ := key _ _ _ e1 ho
  obtain ⟨rfl, _⟩ := key _ _ _ e2 ho
  exact ⟨hn, fun _ _ => rfl⟩

/-- And a simulation run with stimulus `|00⟩` passes (hypotheses of `simulation_never_refutes_equivalent` are met). -/
example (garb) : ∃ v s, runTwo (exactVector 2 garb) oneToOneScheme false
    (equalsVector (idealVectorTests 2 (1 / 100)).ptrEq (idealVectorTests 2 (1 / 100)).wEq
      (idealVectorTests 2 (1 / 100)).realClose (idealVectorTests 2 (1 / 100)).fidClose) (fun _ => false) .noInformation
    swapXswap justX1 ket00 ket00 6 = .ok (v, s) ∧ v ≠ .notEquivalent :=
  simulation_never_refutes_equivalent garb swapXswap justX1 1 1 swapXswap_wf justX1_wf (idealVectorTests 2 (1 / 100))
    (by simp [idealVectorTests]) oneToOneScheme (oneToOneConfigured _ _) [] (same_imp_phase swapXswap_same_justX1)
    .noInformation ket00 (by simp [Normalised, inner, ket00]) (fun y _ q hq => by simp at hq)

end QCEC.Props
