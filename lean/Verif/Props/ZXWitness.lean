import Verif.Props.ZXVerdict
import Verif.Props.HandleWitness
/-!
# C39: concrete cases and limits of the ZX checker
-/
namespace QCEC.Props
open QCEC QCEC.DD QCEC.Sem QCEC.Spec QCEC.Spec.ZX QCEC.ZX QCEC.Prep Matrix

/-- Bare wires from input `i` to output `σ i`. -/
def wiresGraph {m : Nat} (σ : Equiv.Perm (Fin m)) : Graph m where
  V := Empty
  E := Fin m
  ends i s := if s then .out (σ i) else .inp i
  hadamard _ := false
  phase v := v.elim

/-- What the test sees of bare wires. -/
def wiresMiter {m : Nat} (inL outL : Fin m → Nat) (σ : Equiv.Perm (Fin m)) : Miter where
  nEdges := m
  nQubits := m
  wire i := if h : i < m then ⟨false, inL ⟨i, h⟩, outL (σ ⟨i, h⟩)⟩ else ⟨false, 0, 0⟩
  phaseZero := true

theorem wires_tidy {m : Nat} (σ : Equiv.Perm (Fin m)) : (wiresGraph σ).Tidy := by
  refine ⟨fun i => ⟨i, false, rfl⟩, fun i => ⟨σ.symm i, true, ?_⟩, fun v => v.elim⟩
  show Vertex.out (σ (σ.symm i)) = _
  exact congrArg Vertex.out (Equiv.apply_symm_apply σ i)

theorem wires_seen {m : Nat} (inL outL : Fin m → Nat) (σ : Equiv.Perm (Fin m)) : Sees (wiresMiter inL outL σ) (wiresGraph σ) inL outL := by
  refine ⟨(Fintype.card_fin m).symm, rfl, ?_⟩
  intro i
  refine ⟨i, false, rfl, ?_, ?_, ?_, ?_⟩
  · simp [wiresMiter, wiresGraph]
  · simp [wiresMiter]
  · intro j h; cases h
  · intro j h
    have : σ i = j := Vertex.out.inj h
    subst this
    simp [wiresMiter]

theorem wires_matrix {m : Nat} (σ : Equiv.Perm (Fin m)) (y x : Basis m) :
    (wiresGraph σ).matrix y x = if ∀ i, x i = y (σ i) then 1 else 0 :=
  matrix_of_wires (wires_tidy σ) (Fintype.card_fin m) σ (fun i => ⟨i, false, rfl, rfl, rfl⟩) y x

theorem plugged_id {n : Nat} (qc : QC n) : plugged (Nat.le_refl n) qc id = wireMatrix qc := by
  have h : ∀ (e : Fin n → Fin n), (∀ i, e i = i) → ∀ x : Basis n, embed e x = x := by
    intro e he x
    have : e = id := funext he
    subst this
    funext w
    exact embed_apply (fun _ _ h => h) x w
  funext y x
  unfold plugged
  rw [h id (fun _ => rfl), h (Fin.castLE (Nat.le_refl n)) (fun i => rfl)]

/-- Two circuits whose diagrams differ by a permutation of the wires reduce to bare wires. -/
theorem reduced_of_wires {n : Nat} {qc1 qc2 : QC n} (σ : Equiv.Perm (Fin n))
    (h : ∀ y x, (wireMatrix qc2 * (wireMatrix qc1)ᴴ) y x = if ∀ i, x i = y (σ i) then 1 else 0) :
    Reduced (Nat.le_refl n) qc1 qc2 id id (wiresMiter (fun i => i.val) (fun i => i.val) σ) (wiresGraph σ) 1 := by
  refine ⟨wires_tidy σ, wires_seen _ _ σ, by simp, by simp [wiresMiter], 1, one_pos, ?_⟩
  rw [plugged_id, plugged_id]
  funext y x
  rw [h, Matrix.smul_apply, wires_matrix]
  simp

/-- The hypotheses of `zx_sound` are met by every circuit compared with itself. -/
theorem reduced_self {n : Nat} (qc : QC n) (hv : ∀ o ∈ qc.ops, o.Valid) :
    Reduced (Nat.le_refl n) qc qc id id (wiresMiter (m := n) (fun i => i.val) (fun i => i.val) 1) (wiresGraph 1) 1 := by
  refine reduced_of_wires 1 ?_
  intro y x
  rw [wireMatrix_eq, funcOf_unitary qc _ hv, Matrix.one_apply]
  have : y = x ↔ ∀ i, x i = y ((1 : Equiv.Perm (Fin n)) i) := by
    rw [funext_iff]
    exact ⟨fun h i => (h i).symm, fun h i => (h i).symm⟩
  simp only [this]

/-- Circuits with trivial initial layout and operations `ops`. -/
def plain {n : Nat} (ops : List (Op n)) : QC n where
  ops := ops
  initialLayout := 1
  outputPermutation := []
  ancillary := []

theorem plain_empty {n : Nat} : wireMatrix (plain ([] : List (Op n))) = 1 := by
  rw [wireMatrix_eq]
  show view 1 1 (1 : Mat n) = 1
  rw [view_one]

theorem plain_swap {n : Nat} (a b : Fin n) (y x : Basis n) :
    wireMatrix (plain [.simple (.swap a b)]) y x = if ∀ i, x i = y (Equiv.swap a b i) then 1 else 0 := by
  rw [wireMatrix_eq]
  show (1 * swapMat a b) (y ∘ (1 : Equiv.Perm (Fin n))) (x ∘ (1 : Equiv.Perm (Fin n))) = _
  rw [Matrix.one_mul]
  unfold swapMat
  have : (y ∘ (1 : Equiv.Perm (Fin n)) = (x ∘ (1 : Equiv.Perm (Fin n))) ∘ Equiv.swap a b) ↔ ∀ i, x i = y (Equiv.swap a b i) := by
    rw [funext_iff]
    constructor
    · intro h i
      have := h (Equiv.swap a b i)
      simp at this
      exact this.symm
    · intro h i
      have := h (Equiv.swap a b i)
      simp at this ⊢
      exact this.symm
  simp only [this]

/-- Nothing against a SWAP: the miter is the crossed pair of wires. -/
theorem reduced_swap {n : Nat} (a b : Fin n) :
    Reduced (Nat.le_refl n) (plain []) (plain [.simple (.swap a b)]) id id
      (wiresMiter (fun i => i.val) (fun i => i.val) (Equiv.swap a b)) (wiresGraph (Equiv.swap a b)) 1 := by
  refine reduced_of_wires _ ?_
  intro y x
  rw [plain_empty, Matrix.conjTranspose_one, Matrix.mul_one, plain_swap]

/-- Layouts of a circuit on two qubits. -/
def twoWires (out : Layout) (garbage : List Bool) : Circ Unit :=
  { ndata := 2
    nancillae := 0
    initialLayout := [(0, 0), (1, 1)]
    outputPermutation := out
    ancillary := [false, false]
    garbage := garbage
    ops := [] }

theorem fin2_mem {p q : Nat} {σ : Equiv.Perm (Fin 2)} : (∃ i : Fin 2, p = i.val ∧ q = (σ i).val) ↔ (p = 0 ∧ q = (σ 0).val) ∨ (p = 1 ∧ q = (σ 1).val) := by
  constructor
  · rintro ⟨i, rfl, rfl⟩
    fin_cases i
    · exact Or.inl ⟨rfl, rfl⟩
    · exact Or.inr ⟨rfl, rfl⟩
  · rintro (⟨rfl, rfl⟩ | ⟨rfl, rfl⟩)
    · exact ⟨0, rfl, rfl⟩
    · exact ⟨1, rfl, rfl⟩

theorem two_represents (garbage : List Bool) : Represents (twoWires [(0, 0), (1, 1)] garbage) (1 : Equiv.Perm (Fin 2)) 1 ∧
    Represents (twoWires [(0, 1), (1, 0)] garbage) (1 : Equiv.Perm (Fin 2)) (Equiv.swap 0 1) := by
  refine ⟨⟨rfl, by simp [twoWires], ?_, by simp [twoWires], ?_⟩, ⟨rfl, by simp [twoWires], ?_, by simp [twoWires], ?_⟩⟩ <;>
    (intro p q; rw [fin2_mem]; simp [twoWires])

/-- A SWAP whose output permutation undoes it is found equivalent to nothing, and without the output permutation it is not: the hypotheses of
`zx_sound` are met and both verdicts occur. -/
example : finish (twoWires [(0, 0), (1, 1)] [false, false]) (twoWires [(0, 1), (1, 0)] [false, false])
      (wiresMiter (fun i => i.val) (fun i => i.val) (Equiv.swap (0 : Fin 2) 1)) false = some .equivalent ∧
    finish (twoWires [(0, 0), (1, 1)] [false, false]) (twoWires [(0, 0), (1, 1)] [false, false])
      (wiresMiter (fun i => i.val) (fun i => i.val) (Equiv.swap (0 : Fin 2) 1)) false = some .probablyNotEquivalent := by
  decide

/-- So a SWAP undone by the output permutation does nothing – by way of the ZX checker's verdict. -/
example : Same (flags 2 2) (plain []) 1 (plain [.simple (.swap (0 : Fin 2) 1)]) (Equiv.swap 0 1) :=
  (zx_sound (c1 := twoWires [(0, 0), (1, 1)] [false, false]) (c2 := twoWires [(0, 1), (1, 0)] [false, false])
    (by intro o ho; cases ho) (by intro o ho; simp only [plain, List.mem_cons, List.not_mem_nil, or_false] at ho; subst ho; trivial)
    (two_represents _).1 (two_represents _).2 (reduced_swap 0 1)
    (by intro i hi; simp [twoWires, Circ.isGarbage]; interval_cases i <;> rfl)
    (done := false) (v := .equivalent) (by decide)).equivalent rfl

/-! ## Limits -/

/-- **C39, limit.** Qubits that are garbage in both circuits are skipped whether or not partial equivalence is asked for: a SWAP of two
garbage qubits against nothing is reported equivalent, although the circuits are not equivalent, not even up to a phase. -/
theorem zx_skips_garbage :
    finish (twoWires [(0, 0), (1, 1)] [true, true]) (twoWires [(0, 0), (1, 1)] [true, true])
      (wiresMiter (fun i => i.val) (fun i => i.val) (Equiv.swap (0 : Fin 2) 1)) false = some .equivalent ∧
    Reduced (Nat.le_refl 2) (plain []) (plain [.simple (.swap (0 : Fin 2) 1)]) id id
      (wiresMiter (m := 2) (fun i => i.val) (fun i => i.val) (Equiv.swap 0 1)) (wiresGraph (Equiv.swap 0 1)) 1 ∧
    ¬SameUpToPhase (flags 2 2) (plain []) 1 (plain [.simple (.swap (0 : Fin 2) 1)]) 1 := by
  refine ⟨by decide, reduced_swap 0 1, ?_⟩
  rintro ⟨c, hc, h⟩
  have hz : AncillasZero (flags 2 2) (Pi.single (![true, false] : Basis 2) (1 : ℂ)) := by
    intro x _ q hq
    rw [flag_iff (Nat.le_refl 2)] at hq
    have := q.isLt
    omega
  have e := congrFun (h _ hz) ![true, false]
  have e1 : output (plain ([] : List (Op 2))) 1 (Pi.single ![true, false] 1) ![true, false] = 1 := by
    show wireMatrix (plain ([] : List (Op 2))) _ _ = _
    rw [plain_empty, Matrix.one_apply_eq]
  have e2 : output (plain [.simple (.swap (0 : Fin 2) 1)]) 1 (Pi.single ![true, false] 1) ![true, false] = 0 := by
    show wireMatrix (plain [.simple (.swap (0 : Fin 2) 1)]) _ _ = _
    rw [plain_swap, if_neg]
    intro hall
    have := hall 0
    simp at this
  rw [Pi.smul_apply, e1, e2] at e
  simp at e

/-- Three qubits of which only physical qubit 0 is read out, as logical qubit 1. -/
def readsOne : Circ Unit :=
  { ndata := 3
    nancillae := 0
    initialLayout := [(0, 0), (1, 1), (2, 2)]
    outputPermutation := [(0, 1)]
    ancillary := [false, false, false]
    garbage := [true, false, true]
    ops := [] }

/-- **C39, limit.** The test for garbage uses the number of the wire as if it were the logical qubit at its end.  Here logical qubit 1 is the
only one read out; it ends on wire 0, and 0 is a garbage label, so its wire is not tested.  The second circuit reads out another input qubit
(logical qubit 1 is certainly 1 in the first and certainly 0 in the second circuit, for input `|100⟩`), and the verdict is `Equivalent`. -/
theorem zx_garbage_index :
    finish readsOne readsOne (wiresMiter (fun i => i.val) (fun i => i.val) (Equiv.swap (0 : Fin 3) 2)) false = some .equivalent ∧
    Reduced (Nat.le_refl 3) (plain []) (plain [.simple (.swap (0 : Fin 3) 2)]) id id
      (wiresMiter (m := 3) (fun i => i.val) (fun i => i.val) (Equiv.swap 0 2)) (wiresGraph (Equiv.swap 0 2)) 1 ∧
    (∀ z : Basis 3, output (plain []) (Equiv.swap 0 1) (Pi.single ![true, false, false] 1) z ≠ 0 → z 1 = true) ∧
    (∀ z : Basis 3, output (plain [.simple (.swap (0 : Fin 3) 2)]) (Equiv.swap 0 1) (Pi.single ![true, false, false] 1) z ≠ 0 → z 1 = false) := by
  refine ⟨by decide, reduced_swap 0 2, ?_, ?_⟩
  · intro z hz
    have e : output (plain ([] : List (Op 3))) (Equiv.swap 0 1) (Pi.single ![true, false, false] 1) z =
        wireMatrix (plain []) (fun w => z (Equiv.swap 0 1 w)) ![true, false, false] := rfl
    rw [e, plain_empty, Matrix.one_apply] at hz
    by_cases hw : (fun w => z ((Equiv.swap 0 1 : Equiv.Perm (Fin 3)) w)) = ![true, false, false]
    · simpa using congrFun hw 0
    · rw [if_neg hw] at hz; exact absurd rfl hz
  · intro z hz
    have e : output (plain [.simple (.swap (0 : Fin 3) 2)]) (Equiv.swap 0 1) (Pi.single ![true, false, false] 1) z =
        wireMatrix (plain [.simple (.swap (0 : Fin 3) 2)]) (fun w => z (Equiv.swap 0 1 w)) ![true, false, false] := rfl
    rw [e, plain_swap] at hz
    by_cases hw : ∀ i : Fin 3, (![true, false, false] : Basis 3) i = z ((Equiv.swap 0 1 : Equiv.Perm (Fin 3)) ((Equiv.swap 0 2 : Equiv.Perm (Fin 3)) i))
    · have := hw 2
      have e2 : (Equiv.swap 0 1 : Equiv.Perm (Fin 3)) ((Equiv.swap 0 2 : Equiv.Perm (Fin 3)) 2) = 1 := by decide
      rw [e2] at this
      simpa using this.symm
    · rw [if_neg hw] at hz; exact absurd rfl hz

/-- One data qubit and one ancillary qubit. -/
def withAncilla : Circ Unit :=
  { ndata := 1
    nancillae := 1
    initialLayout := [(0, 0), (1, 1)]
    outputPermutation := [(0, 0), (1, 1)]
    ancillary := [false, true]
    garbage := [false, false]
    ops := [] }

theorem embed_one (x : Basis 1) : embed (fun _ : Fin 1 => (0 : Fin 2)) x = ![x 0, false] := by
  funext w
  fin_cases w
  · exact embed_apply (e := fun _ : Fin 1 => (0 : Fin 2)) (fun _ _ _ => Subsingleton.elim _ _) x 0
  · exact embed_off _ (by rintro ⟨i, hi⟩; cases hi)

/-- **C39, limit.** Fixing the ancillary outputs to `⟨0|` and dropping real factors hides what happens to an ancillary qubit: a circuit that
rotates its ancillary qubit and one that does nothing reduce to the same bare wire, and the verdict is `Equivalent`, although the output
states differ by more than a phase. -/
theorem zx_rotated_ancilla :
    fixAncillae [(0, 0), (1, 1)] 1 2 = some ⟨[0], [0]⟩ ∧
    finish withAncilla withAncilla (wiresMiter (fun _ => 0) (fun _ => 0) (1 : Equiv.Perm (Fin 1))) false = some .equivalent ∧
    Reduced (show 1 ≤ 2 by omega) (plain [.simple (.gate (gate1 mR (1 : Fin 2)))]) (plain []) (fun _ => 0) (fun _ => 0)
      (wiresMiter (m := 1) (fun _ => 0) (fun _ => 0) 1) (wiresGraph 1) 1 ∧
    ¬SameUpToPhase (flags 1 2) (plain [.simple (.gate (gate1 mR (1 : Fin 2)))]) 1 (plain []) 1 := by
  have hrot : ∀ y x : Basis 2, wireMatrix (plain [.simple (.gate (gate1 mR (1 : Fin 2)))]) y x = if y 0 = x 0 then mR (y 1) (x 1) else 0 := by
    intro y x
    rw [wireMatrix_eq]
    show (1 * (gate1 mR (1 : Fin 2)).mat) (y ∘ (1 : Equiv.Perm (Fin 2))) (x ∘ (1 : Equiv.Perm (Fin 2))) = _
    rw [Matrix.one_mul, gate1_mat]
    have : (∀ q : Fin 2, q ≠ 1 → (y ∘ (1 : Equiv.Perm (Fin 2))) q = (x ∘ (1 : Equiv.Perm (Fin 2))) q) ↔ y 0 = x 0 := by
      constructor
      · intro h; simpa using h 0 (by decide)
      · intro h q hq
        fin_cases q
        · simpa using h
        · exact absurd rfl hq
    simp only [this]
    rfl
  refine ⟨by decide, by decide, ?_, ?_⟩
  · refine ⟨wires_tidy 1, wires_seen _ _ 1, by simp, by simp [wiresMiter], 3 / 5, by norm_num, ?_⟩
    have hcast : (Fin.castLE (show 1 ≤ 2 by omega) : Fin 1 → Fin 2) = fun _ => 0 := by
      funext i; fin_cases i; rfl
    have p1 : plugged (show 1 ≤ 2 by omega) (plain [.simple (.gate (gate1 mR (1 : Fin 2)))]) (fun _ => 0) = ((3 : ℂ) / 5) • (1 : Mat 1) := by
      funext y x
      unfold plugged
      rw [hcast, embed_one, embed_one, hrot, Matrix.smul_apply, Matrix.one_apply]
      have : y = x ↔ y 0 = x 0 := ⟨fun h => by rw [h], fun h => by funext i; fin_cases i; exact h⟩
      simp only [this]
      simp [mR]
    have p2 : plugged (show 1 ≤ 2 by omega) (plain ([] : List (Op 2))) (fun _ => 0) = (1 : Mat 1) := by
      funext y x
      unfold plugged
      rw [hcast, embed_one, embed_one, plain_empty, Matrix.one_apply, Matrix.one_apply]
      have h1 : y = x ↔ y 0 = x 0 := ⟨fun h => by rw [h], fun h => by funext i; fin_cases i; exact h⟩
      have h2 : (![y 0, false] : Basis 2) = ![x 0, false] ↔ y 0 = x 0 := by
        constructor
        · intro h; exact congrFun h 0
        · intro h; rw [h]
      simp only [h1, h2]
    rw [p1, p2]
    funext y x
    rw [Matrix.one_mul, Matrix.conjTranspose_smul, Matrix.conjTranspose_one, Matrix.smul_apply, Matrix.smul_apply, wires_matrix, Matrix.one_apply]
    have : y = x ↔ ∀ i, x i = y ((1 : Equiv.Perm (Fin 1)) i) := by
      rw [funext_iff]
      exact ⟨fun h i => (h i).symm, fun h i => (h i).symm⟩
    simp only [this]
    congr 1
    simp
  · rintro ⟨c, hc, h⟩
    have hz : AncillasZero (flags 1 2) (Pi.single (fun _ => false : Basis 2) (1 : ℂ)) := by
      intro x hx q _
      have : x = fun _ => false := by
        by_contra hc
        exact hx (by simp [hc])
      rw [this]
    have e := congrFun (h _ hz) (fun _ => false)
    have e1 : output (plain [.simple (.gate (gate1 mR (1 : Fin 2)))]) 1 (Pi.single (fun _ => false) 1) (fun _ => false) = mR false false := by
      show wireMatrix (plain [.simple (.gate (gate1 mR (1 : Fin 2)))]) _ _ = _
      rw [hrot]; simp
    have e2 : output (plain ([] : List (Op 2))) 1 (Pi.single (fun _ => false) 1) (fun _ => false) = 1 := by
      show wireMatrix (plain ([] : List (Op 2))) _ _ = _
      rw [plain_empty, Matrix.one_apply_eq]
    rw [Pi.smul_apply, e1, e2, smul_eq_mul, mul_one] at e
    rw [← e] at hc
    simp [mR] at hc
    norm_num at hc

end QCEC.Props
