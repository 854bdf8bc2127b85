import Verif.Spec.Functionality
/-!
# Specification: a decision-diagram package with rounding errors

The package computes with floating-point numbers and merges numbers that are closer than a tolerance, so what it represents is only close
to what exact arithmetic would give.  This file says what "close" means: `D` is the type of decision diagrams, `val d` is the vector
(matrix) that the diagram `d` represents, and every call of the package has a relative error of at most `ε`.

The permutations that the package tracks are integers and hence exact.
-/
namespace QCEC.Spec
open QCEC QCEC.DD QCEC.Sem Matrix

variable {n : Nat}

/-- Length (2-norm) of a vector. -/
noncomputable def nrm (v : Basis n → ℂ) : ℝ := Real.sqrt (∑ x, Complex.normSq (v x))

/-- The operator `A` stretches no vector by more than `c`. -/
def Stretch (c : ℝ) (A : Mat n) : Prop := ∀ v : Basis n → ℂ, nrm (A.mulVec v) ≤ c * nrm v

/-- Number of multiplications by which an operation is applied: one, and for a compound operation one more than it has parts. -/
def _root_.QCEC.Sem.Op.cost : Op n → Nat
  | .simple _ => 1
  | .compound l => l.length + 1

/-- Number of multiplications for a circuit: its operations and the SWAPs of the final relabelling. -/
def cost (qc : QC n) : Nat := (qc.ops.map Op.cost).sum + qc.outputPermutation.length

/-- Accumulated relative error of `k` multiplications with relative error `ε`, starting with a relative error `δ`. -/
noncomputable def accumulated (ε δ : ℝ) (k : Nat) : ℝ := (1 + ε) ^ k * (1 + δ) - 1

/-- Error of the overlap of the two simulated states: `η` for the inner product, the accumulated errors for its arguments. -/
noncomputable def overlapError (ε δ η : ℝ) (qc1 qc2 : QC n) : ℝ :=
  (1 + η) * ((1 + accumulated ε δ (cost qc1)) * (1 + accumulated ε δ (cost qc2))) - 1

/-- A package for state vectors with relative error `ε` per multiplication. -/
structure RoundedVector {M D : Type} (b : Backend (Op n) (Equiv.Perm (Fin n)) (List (Fin n × Fin n)) M D) (val : D → Basis n → ℂ)
    (ε : ℝ) : Prop where
  nonneg : 0 ≤ ε
  /-- the tracked permutation is exact -/
  tracked : ∀ o σ, (b.getDD o σ).2 = Moved σ o
  /-- applying an operation -/
  apply : ∀ (o : Op n) σ d, o.Valid →
    nrm (val (b.mulL (b.getDD o σ).1 d) - (o.getDD σ).1.mulVec (val d)) ≤ ((1 + ε) ^ o.cost - 1) * nrm (val d)
  /-- relabelling: one SWAP per entry of the output permutation -/
  relabel : ∀ r d σ tgt,
    nrm (val (b.changePerm r d σ tgt).1 - (changePerm (fun a b v => (swapMat a b).mulVec v) (val d) σ tgt).1)
      ≤ ((1 + ε) ^ tgt.length - 1) * nrm (val d)
  /-- `reduceAncillae` does nothing to state vectors -/
  ancillae : ∀ f r d, val (b.reduceAncillae f r d) = val d

/-- The tests on state vectors, computed with errors: the inner product has a relative error of at most `η`; diagrams with the same node
represent multiples of each other; if in addition the top weights are found equal, the vectors differ by at most `w`. -/
structure RoundedVectorTests {D : Type} (val : D → Basis n → ℂ) (η w : ℝ) where
  threshold : ℝ
  ptrEq : D → D → Bool
  wEq : D → D → Bool
  realClose : D → D → Bool
  fidClose : D → D → Bool
  overlap : D → D → ℂ
  overlap_error : ∀ e f, ‖overlap e f - inner (val e) (val f)‖ ≤ η * (nrm (val e) * nrm (val f))
  ptrEq_sound : ∀ e f, ptrEq e f = true → ∃ c : ℂ, val e = c • val f
  wEq_sound : ∀ e f, ptrEq e f = true → wEq e f = true → nrm (val e - val f) ≤ w
  realClose_iff : ∀ e f, realClose e f = true ↔ |(overlap e f).re - 1| < threshold
  fidClose_iff : ∀ e f, fidClose e f = true ↔
    |(overlap e f).re * (overlap e f).re + (overlap e f).im * (overlap e f).im - 1| < threshold

/-- A package for matrices with relative error `ε` per multiplication (relative to the largest stretch of the object). -/
structure RoundedMatrix {M D : Type} (b : Backend (Op n) (Equiv.Perm (Fin n)) (List (Fin n × Fin n)) M D) (val : D → Mat n)
    (ε : ℝ) : Prop where
  nonneg : 0 ≤ ε
  isSwap : b.isSwap = Op.isSwap
  tracked : ∀ o σ, (b.getDD o σ).2 = Moved σ o
  trackedInv : ∀ o σ, (b.getInv o σ).2 = Moved σ o
  /-- applying an operation from the left -/
  applyL : ∀ (o : Op n) σ d c, o.Valid → Stretch c (val d) →
    Stretch (((1 + ε) ^ o.cost - 1) * c) (val (b.mulL (b.getDD o σ).1 d) - (o.getDD σ).1 * val d)
  /-- applying an inverse from the right -/
  applyR : ∀ (o : Op n) σ d c, o.Valid → Stretch c (val d) →
    Stretch (((1 + ε) ^ o.cost - 1) * c) (val (b.mulR d (b.getInv o σ).1) - val d * (o.getInv σ).1)
  /-- relabelling -/
  relabelL : ∀ d σ tgt c, Stretch c (val d) → Stretch (((1 + ε) ^ tgt.length - 1) * c)
    (val (b.changePerm true d σ tgt).1 - (changePerm (fun a b m => swapMat a b * m) (val d) σ tgt).1)
  relabelR : ∀ d σ tgt c, Stretch c (val d) → Stretch (((1 + ε) ^ tgt.length - 1) * c)
    (val (b.changePerm false d σ tgt).1 - (changePerm (fun a b m => m * swapMat a b) (val d) σ tgt).1)
  /-- reducing ancillas sets entries to zero and renormalises -/
  ancillae : ∀ f r d c, Stretch c (val d) → Stretch (ε * c) (val (b.reduceAncillae f r d) - reduceAncillae f r (val d))

/-- The tests on matrices, computed with errors: what they accept is within `θ` of what they look for, and they accept everything within
`θ₀` of it.  `isId` is structural, hence exact. -/
structure RoundedMatrixTests {D : Type} (val : D → Mat n) (θ θ₀ : ℝ) where
  close : D → Bool
  wOne : D → Bool
  isId : D → Bool
  isId_sound : ∀ d, isId d = true → ∃ c : ℂ, val d = c • (1 : Mat n)
  close_sound : ∀ d, close d = true → ∃ c : ℂ, Stretch θ (val d - c • (1 : Mat n))
  wOne_sound : ∀ d, close d = true → wOne d = true → Stretch θ (val d - 1)
  close_complete : ∀ d (c : ℂ), ‖c‖ = 1 → Stretch θ₀ (val d - c • (1 : Mat n)) → close d = true
  wOne_complete : ∀ d, Stretch θ₀ (val d - 1) → wOne d = true

/-- What else `equals` uses on two matrices: diagrams with the same node represent multiples of each other; the product with the adjoint
has a relative error of at most `η`.  Nothing is assumed about the comparison of top weights. -/
structure RoundedPair {D : Type} (val : D → Mat n) (η : ℝ) where
  ptrEq : D → D → Bool
  wEq : D → D → Bool
  mulDagger : D → D → D
  ptrEq_sound : ∀ e f, ptrEq e f = true → ∃ c : ℂ, val e = c • val f
  mulDagger_error : ∀ e f c c', Stretch c (val e) → Stretch c' (val f) → Stretch (η * (c * c')) (val (mulDagger e f) - val e * (val f)ᴴ)

/-- The true outputs of the two circuits differ by at most `e` (relative to the input) after removing the factor `c`, for every input. -/
def OutputsWithin (e : ℝ) (c : ℂ) (qc1 : QC n) (ω1 : Equiv.Perm (Fin n)) (qc2 : QC n) (ω2 : Equiv.Perm (Fin n)) : Prop :=
  ∀ x : Basis n → ℂ, nrm (output qc1 ω1 x - c • output qc2 ω2 x) ≤ e * nrm x

/-- The true outputs of the two circuits differ by at most `e` (relative to the input) after removing the factor `c`, for every input in
which the flagged qubits are `|0⟩`. -/
def OutputsWithinOn (anc : List Bool) (e : ℝ) (c : ℂ) (qc1 : QC n) (ω1 : Equiv.Perm (Fin n)) (qc2 : QC n) (ω2 : Equiv.Perm (Fin n)) : Prop :=
  ∀ x : Basis n → ℂ, AncillasZero anc x → nrm (output qc1 ω1 x - c • output qc2 ω2 x) ≤ e * nrm x

/-- Up to a factor, the beginnings `p1`, `p2` of the circuits differ by at most `e` on all inputs in which the qubits that are ancillary in both circuits
are `|0⟩`. -/
def NearlyAgreeUpTo (e : ℝ) (qc1 qc2 : QC n) (p1 p2 : List (Op n)) : Prop :=
  ∃ c : ℂ, OutputsWithinOn ((List.range n).map fun q => qc1.ancillary.getD q false && qc2.ancillary.getD q false) e c
    { qc1 with ops := p1 } (p1.foldl Moved qc1.initialLayout) { qc2 with ops := p2 } (p2.foldl Moved qc2.initialLayout)

/-- As `SkipSafe`, for a package that is wrong by up to `e`: operations can be cancelled behind beginnings that nearly do the same, and not at all if a qubit
is ancillary in both circuits and the error is small. -/
def NearSafe (e : ℝ) (opEq : Op n → Op n → Bool) (qc1 qc2 : QC n) : Prop :=
  (e < 1 / 2 → NoSharedAncilla qc1 qc2) → ∀ p1 a r1 p2 b r2, qc1.ops = p1 ++ a :: r1 → qc2.ops = p2 ++ b :: r2 → NearlyAgreeUpTo e qc1 qc2 p1 p2 →
    opEq a b = true → a.isSwap = false → b.isSwap = false →
    Moved (p1.foldl Moved qc1.initialLayout) a = p1.foldl Moved qc1.initialLayout ∧
    Moved (p2.foldl Moved qc2.initialLayout) b = p2.foldl Moved qc2.initialLayout ∧
    logicalOp (p1.foldl Moved qc1.initialLayout) a = logicalOp (p2.foldl Moved qc2.initialLayout) b

theorem CancelSafe.nearSafe {opEq : Op n → Op n → Bool} {qc1 qc2 : QC n} (h : CancelSafe opEq qc1 qc2) (e : ℝ) : NearSafe e opEq qc1 qc2 :=
  fun _ p1 a r1 p2 b r2 e1 e2 _ => h p1 a r1 p2 b r2 e1 e2

end QCEC.Spec
