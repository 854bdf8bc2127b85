import Verif.Model.Sem
import Verif.Lemmas.Sem
/-!
# Specification: what it means for two circuits to be equivalent

Independent of the checkers.  A circuit with initial layout `ι` and output labelling `ω` (both map physical to logical qubits)
is run as follows: the logical input state `v` is loaded onto the physical qubits according to `ι`, every operation (SWAPs
included) acts on the physical qubits, and the physical qubits are read out according to `ω`.
-/
namespace QCEC.Spec
open QCEC QCEC.DD QCEC.Sem Matrix

variable {n : Nat}

/-- Load a logical state onto the physical qubits. -/
def load (ι : Equiv.Perm (Fin n)) (v : Basis n → ℂ) : Basis n → ℂ := fun z => v (fun q => z (ι.symm q))

/-- Execute operations one after the other on a physical state. -/
noncomputable def execute : List (Op n) → (Basis n → ℂ) → (Basis n → ℂ)
  | [], w => w
  | o :: r, w => execute r (o.phys.mulVec w)

/-- Read the physical state out onto logical qubits. -/
def readOut (ω : Equiv.Perm (Fin n)) (w : Basis n → ℂ) : Basis n → ℂ := fun x => w (fun q => x (ω q))

/-- Logical output state of a circuit. -/
noncomputable def output (qc : QC n) (ω : Equiv.Perm (Fin n)) (v : Basis n → ℂ) : Basis n → ℂ :=
  readOut ω (execute qc.ops (load qc.initialLayout v))

/-- Labels of the physical qubits after an elementary operation: an uncontrolled SWAP exchanges two of them. -/
def SMoved (σ : Equiv.Perm (Fin n)) : SOp n → Equiv.Perm (Fin n)
  | .swap a b => σ * Equiv.swap a b
  | _ => σ

/-- Labels of the physical qubits after an operation. -/
def Moved (σ : Equiv.Perm (Fin n)) : Op n → Equiv.Perm (Fin n)
  | .simple s => SMoved σ s
  | .compound l => l.foldl SMoved σ

/-- Output labels of the physical qubits: they start as the initial layout and follow the SWAPs of the circuit; then, for every entry
`(p, q)` of the output permutation, `p` gets the label `q` and in exchange the qubit labelled `q` gets the former label of `p`.  For
qubits that occur in the output permutation this is the entry there, see `WellFormed.ext`; the others (garbage) keep the label that the
SWAPs moved there, unless it is taken, see `WellFormed.unlabelled`. -/
noncomputable def finalLabels (qc : QC n) : Equiv.Perm (Fin n) :=
  permAfter (qc.ops.foldl Moved qc.initialLayout) qc.outputPermutation

/-- The circuit is well formed and `ω` is its output labelling. -/
structure WellFormed (qc : QC n) (ω : Equiv.Perm (Fin n)) : Prop where
  ops : ∀ o ∈ qc.ops, o.Valid
  out : OutValid qc.outputPermutation
  labels : ω = finalLabels qc

theorem WellFormed.ext {qc : QC n} {ω : Equiv.Perm (Fin n)} (h : WellFormed qc ω) : Extends ω qc.outputPermutation := by
  rw [h.labels]
  exact permAfter_extends _ _ h.out

/-- A qubit without entry in the output permutation keeps the label that the SWAPs moved there, unless that label is taken. -/
theorem WellFormed.unlabelled {qc : QC n} {ω : Equiv.Perm (Fin n)} (h : WellFormed qc ω) (p : Fin n)
    (h1 : ∀ t ∈ qc.outputPermutation, t.1 ≠ p)
    (h2 : ∀ t ∈ qc.outputPermutation, t.2 ≠ qc.ops.foldl Moved qc.initialLayout p) :
    ω p = qc.ops.foldl Moved qc.initialLayout p := by
  rw [h.labels]
  exact permAfter_keeps _ _ _ _ rfl h1 h2

/-- If every physical qubit has an output label, the labelling is the output permutation. -/
theorem WellFormed.of_total {qc : QC n} {ω : Equiv.Perm (Fin n)} (ops : ∀ o ∈ qc.ops, o.Valid) (out : OutValid qc.outputPermutation)
    (total : Total qc.outputPermutation) (ext : Extends ω qc.outputPermutation) : WellFormed qc ω :=
  ⟨ops, out, extends_unique _ _ _ total ext (permAfter_extends _ _ out)⟩

/-- All flagged qubits are `|0⟩` in the state. -/
def AncillasZero (anc : List Bool) (v : Basis n → ℂ) : Prop :=
  ∀ x : Basis n, v x ≠ 0 → ∀ q : Fin n, anc.getD q.val false = true → x q = false

/-- Both circuits produce the same output on every input whose ancillas are `|0⟩`, up to the factor `c`. -/
def SameUpTo (c : ℂ) (anc : List Bool) (qc1 : QC n) (ω1 : Equiv.Perm (Fin n)) (qc2 : QC n) (ω2 : Equiv.Perm (Fin n)) : Prop :=
  ∀ v : Basis n → ℂ, AncillasZero anc v → output qc1 ω1 v = c • output qc2 ω2 v

/-- Equivalence. -/
def Same (anc : List Bool) (qc1 : QC n) (ω1 : Equiv.Perm (Fin n)) (qc2 : QC n) (ω2 : Equiv.Perm (Fin n)) : Prop :=
  SameUpTo 1 anc qc1 ω1 qc2 ω2

/-- Equivalence up to a global phase. -/
def SameUpToPhase (anc : List Bool) (qc1 : QC n) (ω1 : Equiv.Perm (Fin n)) (qc2 : QC n) (ω2 : Equiv.Perm (Fin n)) : Prop :=
  ∃ c : ℂ, ‖c‖ = 1 ∧ SameUpTo c anc qc1 ω1 qc2 ω2

/-- The exact-arithmetic behaviour assumed of the tests the package offers on matrix decision diagrams:
* `ptrEq` – same node: the matrices are non-zero multiples of each other (canonicity);
* `wEq` – for the same node, equal top weights: the matrices are equal;
* `close` – `isCloseToIdentity`: only for multiples of a diagonal 0/1 matrix, and for every multiple of the identity in which
  some ancillary qubits are reduced;
* `wOne` – for such matrices, top weight one. -/
structure ExactTests (n : Nat) where
  ptrEq : Mat n → Mat n → Bool
  wEq : Mat n → Mat n → Bool
  close : Mat n → Bool
  wOne : Mat n → Bool
  isId : Mat n → Bool
  ptrEq_iff : ∀ e f, e ≠ 0 → f ≠ 0 → (ptrEq e f = true ↔ ∃ c : ℂ, c ≠ 0 ∧ e = c • f)
  wEq_iff : ∀ e f, e ≠ 0 → f ≠ 0 → ptrEq e f = true → (wEq e f = true ↔ e = f)
  close_sound : ∀ e, close e = true → ∃ (c : ℂ) (S : Finset (Basis n)), c ≠ 0 ∧ S.Nonempty ∧
    e = c • Matrix.diagonal fun x => if x ∈ S then 1 else 0
  close_complete : ∀ (c : ℂ) (anc : List Bool), c ≠ 0 → close (c • ancProj anc) = true
  wOne_iff : ∀ (c : ℂ) (S : Finset (Basis n)), c ≠ 0 → S.Nonempty →
    close (c • Matrix.diagonal fun x => if x ∈ S then 1 else 0) = true →
    (wOne (c • Matrix.diagonal fun x => if x ∈ S then 1 else 0) = true ↔ c = 1)
  isId_sound : ∀ d, isId d = true → ∃ c : ℂ, d = c • (1 : Mat n)

/-- No SWAP that `dd::getDD` would track. -/
def NoSwap : Op n → Prop
  | .simple (.swap _ _) => False
  | .simple _ => True
  | .compound l => ∀ s ∈ l, ∀ a b, s ≠ .swap a b

/-- What an operation does to the logical qubits while every physical qubit `p` carries the logical qubit `σ p`. -/
noncomputable def logicalOp (σ : Equiv.Perm (Fin n)) (o : Op n) : Mat n := fun x y => o.phys (x ∘ σ) (y ∘ σ)

/-- Every strategy except lookahead cancels identical gates, `DDAlternatingChecker.cpp:59-67`. -/
def _root_.QCEC.DD.AltScheme.Cancels {α π D : Type} : AltScheme α π D → Prop
  | .counts _ => True
  | .lookahead _ => False

/-- When cancelling operations that compare equal, without looking at the labels of the qubits, is harmless: wherever such operations occur
in the two circuits, they do the same to the logical qubits (given the labels the qubits have there) and do not change the labels.  (The
comparison is not asked about SWAPs.)  Sufficient conditions: `CancelSafe.disjoint`, `CancelSafe.static`, `CancelSafe.of_labels` in
`Verif/Lemmas/CancelSafe.lean`. -/
def CancelSafe (opEq : Op n → Op n → Bool) (qc1 qc2 : QC n) : Prop :=
  ∀ p1 a r1 p2 b r2, qc1.ops = p1 ++ a :: r1 → qc2.ops = p2 ++ b :: r2 → opEq a b = true → a.isSwap = false → b.isSwap = false →
    Moved (p1.foldl Moved qc1.initialLayout) a = p1.foldl Moved qc1.initialLayout ∧
    Moved (p2.foldl Moved qc2.initialLayout) b = p2.foldl Moved qc2.initialLayout ∧
    logicalOp (p1.foldl Moved qc1.initialLayout) a = logicalOp (p2.foldl Moved qc2.initialLayout) b

/-- The beginnings `p1`, `p2` of the circuits do the same on all inputs, up to a global phase. -/
def AgreeUpTo (qc1 qc2 : QC n) (p1 p2 : List (Op n)) : Prop :=
  SameUpToPhase [] { qc1 with ops := p1 } (p1.foldl Moved qc1.initialLayout) { qc2 with ops := p2 } (p2.foldl Moved qc2.initialLayout)

/-- No logical qubit is ancillary in both circuits. -/
def NoSharedAncilla (qc1 qc2 : QC n) : Prop :=
  ∀ q : Fin n, ¬ (qc1.ancillary.getD q.val false = true ∧ qc2.ancillary.getD q.val false = true)

/-- As `CancelSafe`, but only where operations can be cancelled: behind beginnings of the circuits that do the same, and not at all if a qubit is ancillary
in both circuits (then the operator is singular from the beginning and never the identity). -/
def SkipSafe (opEq : Op n → Op n → Bool) (qc1 qc2 : QC n) : Prop :=
  NoSharedAncilla qc1 qc2 → ∀ p1 a r1 p2 b r2, qc1.ops = p1 ++ a :: r1 → qc2.ops = p2 ++ b :: r2 → AgreeUpTo qc1 qc2 p1 p2 → opEq a b = true → a.isSwap = false →
    b.isSwap = false →
    Moved (p1.foldl Moved qc1.initialLayout) a = p1.foldl Moved qc1.initialLayout ∧
    Moved (p2.foldl Moved qc2.initialLayout) b = p2.foldl Moved qc2.initialLayout ∧
    logicalOp (p1.foldl Moved qc1.initialLayout) a = logicalOp (p2.foldl Moved qc2.initialLayout) b

theorem CancelSafe.skipSafe {opEq : Op n → Op n → Bool} {qc1 qc2 : QC n} (h : CancelSafe opEq qc1 qc2) : SkipSafe opEq qc1 qc2 :=
  fun _ p1 a r1 p2 b r2 e1 e2 _ => h p1 a r1 p2 b r2 e1 e2

/-- The operation does not act on physical qubit `p` (it may use it as a control). -/
def SAvoids (p : Fin n) : SOp n → Prop
  | .gate g => ∀ i, g.targets i ≠ p
  | .swap a b => a ≠ p ∧ b ≠ p
  | .barrier => True

/-- The operation does not act on physical qubit `p`. -/
def Avoids (p : Fin n) : Op n → Prop
  | .simple s => SAvoids p s
  | .compound l => ∀ s ∈ l, SAvoids p s

/-- Logical qubit `q` is carried by one physical qubit on which the circuit never acts. -/
def Idle (qc : QC n) (ω : Equiv.Perm (Fin n)) (q : Fin n) : Prop :=
  ∃ p, qc.initialLayout p = q ∧ ω p = q ∧ ∀ o ∈ qc.ops, Avoids p o

/-- Logical qubit `q` starts on one physical qubit on which the circuit never acts, wherever that is read out. -/
def LeftAlone (qc : QC n) (q : Fin n) : Prop := ∃ p, qc.initialLayout p = q ∧ ∀ o ∈ qc.ops, Avoids p o

theorem Idle.leftAlone {qc : QC n} {ω : Equiv.Perm (Fin n)} {q : Fin n} (h : Idle qc ω q) : LeftAlone qc q := by
  obtain ⟨p, a, _, b⟩ := h
  exact ⟨p, a, b⟩

/-- Logical qubit `q` is ancillary in both circuits. -/
def SharedAncilla (qc1 qc2 : QC n) (q : Fin n) : Prop :=
  qc1.ancillary.getD q.val false = true ∧ qc2.ancillary.getD q.val false = true

/-- Each qubit that is ancillary in both circuits is left alone by one of them.  This is what the alternating checker insists on (C36,
`src/checker/dd/DDAlternatingChecker.cpp:135-163`); it does not look where the qubit is read out. -/
def Accepted (qc1 qc2 : QC n) : Prop := ∀ q, SharedAncilla qc1 qc2 q → LeftAlone qc1 q ∨ LeftAlone qc2 q

/-- If the alternating checker accepts the circuits, it can also know them: each common ancillary qubit is left alone by one of the circuits, which reads it out
under its own name, or one of the circuits leaves all of them alone. -/
def Settled (qc1 : QC n) (ω1 : Equiv.Perm (Fin n)) (qc2 : QC n) (ω2 : Equiv.Perm (Fin n)) : Prop :=
  Accepted qc1 qc2 → (∀ q, SharedAncilla qc1 qc2 q → Idle qc1 ω1 q ∨ Idle qc2 ω2 q) ∨ (∀ q, SharedAncilla qc1 qc2 q → LeftAlone qc1 q) ∨
    ∀ q, SharedAncilla qc1 qc2 q → LeftAlone qc2 q

/-- What the three definitive verdicts must mean. -/
structure Correct (v : Criterion) (anc : List Bool) (qc1 : QC n) (ω1 : Equiv.Perm (Fin n)) (qc2 : QC n)
    (ω2 : Equiv.Perm (Fin n)) : Prop where
  equivalent : v = .equivalent ↔ Same anc qc1 ω1 qc2 ω2
  phase : v = .equivalentUpToGlobalPhase ↔ SameUpToPhase anc qc1 ω1 qc2 ω2 ∧ ¬ Same anc qc1 ω1 qc2 ω2
  notEquivalent : v = .notEquivalent ↔ ¬ SameUpToPhase anc qc1 ω1 qc2 ω2

/-- What a positive verdict must at least mean. -/
structure Sound (v : Criterion) (anc : List Bool) (qc1 : QC n) (ω1 : Equiv.Perm (Fin n)) (qc2 : QC n)
    (ω2 : Equiv.Perm (Fin n)) : Prop where
  equivalent : v = .equivalent → Same anc qc1 ω1 qc2 ω2
  phase : v = .equivalentUpToGlobalPhase → SameUpToPhase anc qc1 ω1 qc2 ω2 ∧ ¬ Same anc qc1 ω1 qc2 ω2

/-- Inner product `⟨e|f⟩`. -/
noncomputable def inner (e f : Basis n → ℂ) : ℂ := ∑ x, star (e x) * f x

/-- Normalised state. -/
def Normalised (v : Basis n → ℂ) : Prop := inner v v = 1

/-- The tests of `equals` on state vectors in exact arithmetic: `ptrEq`, `wEq` as for matrices; the two numerical tests with
the configured fidelity threshold. -/
structure VectorTests (n : Nat) where
  threshold : ℝ
  ptrEq : (Basis n → ℂ) → (Basis n → ℂ) → Bool
  wEq : (Basis n → ℂ) → (Basis n → ℂ) → Bool
  realClose : (Basis n → ℂ) → (Basis n → ℂ) → Bool
  fidClose : (Basis n → ℂ) → (Basis n → ℂ) → Bool
  ptrEq_sound : ∀ e f, ptrEq e f = true → ∃ c : ℂ, c ≠ 0 ∧ e = c • f
  wEq_sound : ∀ e f, ptrEq e f = true → wEq e f = true → e = f
  realClose_iff : ∀ e f, realClose e f = true ↔ |(inner e f).re - 1| < threshold
  fidClose_iff : ∀ e f, fidClose e f = true ↔ |(inner e f).re * (inner e f).re + (inner e f).im * (inner e f).im - 1| < threshold

end QCEC.Spec
