import Verif.Lemmas.ZXSem
import Verif.Props.ZXPerm
/-!
# Properties: verdict of the ZX checker (C39)
-/
namespace QCEC.Props
open QCEC QCEC.Sem QCEC.Spec QCEC.Spec.ZX QCEC.ZX QCEC.Prep Matrix

variable {α : Type}

/-- **C39.** The ZX checker never reports non-equivalence as certain. -/
theorem zx_never_notEquivalent {c1 c2 : Circ α} {M : Miter} {done : Bool} {v : Criterion} (h : finish c1 c2 M done = some v) :
    v = .equivalent ∨ v = .equivalentUpToGlobalPhase ∨ v = .probablyNotEquivalent ∨ v = .noInformation := by
  unfold finish at h
  cases ht : testMiter c1 c2 M with
  | none => rw [ht] at h; cases h
  | some e =>
    rw [ht] at h
    simp only [Option.map_some, Option.some.injEq] at h
    subst h
    unfold verdict
    split
    · simp
    · split
      · split <;> simp
      · simp

/-- **C39, C50.** A checker that was told to stop reports no information. -/
theorem zx_stopped {c1 c2 : Circ α} {M : Miter} {v : Criterion} (h : finish c1 c2 M true = some v) : v = .noInformation := by
  unfold finish at h
  cases ht : testMiter c1 c2 M with
  | none => rw [ht] at h; cases h
  | some e =>
    rw [ht] at h
    simp only [Option.map_some, Option.some.injEq] at h
    rw [← h]
    simp [verdict]

/-- **C39.** With ancillary qubits in either circuit, the checker does not even suspect non-equivalence. -/
theorem zx_ancilla {c1 c2 : Circ α} {M : Miter} {done : Bool} {v : Criterion} (ha : c1.nancillae ≠ 0 ∨ c2.nancillae ≠ 0)
    (h : finish c1 c2 M done = some v) : v ≠ .probablyNotEquivalent := by
  unfold finish at h
  have : hasAncilla c1 c2 = true := by rcases ha with h | h <;> simp [hasAncilla, h]
  cases ht : testMiter c1 c2 M with
  | none => rw [ht] at h; cases h
  | some e =>
    rw [ht] at h
    simp only [Option.map_some, Option.some.injEq] at h
    rw [← h, this]
    unfold verdict
    cases e <;> cases done <;> cases M.phaseZero <;> simp

theorem testInputs_true {g1 g2 : Nat → Bool} {p1 p2 : Layout} {M : Miter} {l : List Nat} :
    testInputs g1 g2 p1 p2 M l = some true ↔ ∀ i ∈ l, testInput g1 g2 p1 p2 M i = some true := by
  induction l with
  | nil => simp [testInputs]
  | cons i r ih =>
    rw [testInputs]
    split
    · rename_i h
      rw [ih]
      simp [h]
    · rename_i x h
      constructor
      · intro hx; exact absurd hx h
      · intro hall; exact absurd (hall i (by simp)) h

/-- **C39.** A positive verdict is given exactly if the checker was not stopped, there are as many edges as qubits, and every input whose
number is not garbage in both circuits is joined, by an edge that is not a Hadamard edge, to a wire that carries the same logical output in
the second circuit as the input carries in the first; the global phase decides which one. -/
theorem zx_positive_iff {c1 c2 : Circ α} {p1 p2 : Layout} (h1 : invertPermutations c1 = some p1) (h2 : invertPermutations c2 = some p2)
    (n1 : (p1.map Prod.snd).Nodup) (n2 : (p2.map Prod.snd).Nodup) (M : Miter) (done : Bool) (v : Criterion)
    (hv : v = .equivalent ∨ v = .equivalentUpToGlobalPhase) :
    finish c1 c2 M done = some v ↔ done = false ∧ (v = .equivalent ↔ M.phaseZero = true) ∧ M.nEdges = M.nQubits ∧
      ∀ i, i < M.nQubits → (c1.isGarbage i = true ∧ c2.isGarbage i = true) ∨
        ((M.wire i).hadamard = false ∧ ∃ q, (q, (M.wire i).inQubit) ∈ p1 ∧ (q, (M.wire i).outQubit) ∈ p2) := by
  have one : ∀ i, testInput c1.isGarbage c2.isGarbage (invert p1) (invert p2) M i = some true ↔
      (c1.isGarbage i = true ∧ c2.isGarbage i = true) ∨
        ((M.wire i).hadamard = false ∧ ∃ q, (q, (M.wire i).inQubit) ∈ p1 ∧ (q, (M.wire i).outQubit) ∈ p2) := by
    intro i
    unfold testInput
    split
    · rename_i h; simp at h; simp [h]
    · rename_i h
      have h' : ¬(c1.isGarbage i = true ∧ c2.isGarbage i = true) := by simpa using h
      split
      · rename_i hh; simp [hh, h']
      · rename_i hh
        have hh' : (M.wire i).hadamard = false := by simpa using hh
        simp only [h', false_or, hh', true_and]
        have g1 : ∀ w a, (invert p1).get w = some a ↔ (a, w) ∈ p1 := by
          intro w a
          rw [Layout.get_iff (Layout.nodup_of_lt (sorted_invert n1)), mem_invert n1]
        have g2 : ∀ w a, (invert p2).get w = some a ↔ (a, w) ∈ p2 := by
          intro w a
          rw [Layout.get_iff (Layout.nodup_of_lt (sorted_invert n2)), mem_invert n2]
        split
        · rename_i a b ha hb
          rw [Option.some.injEq, decide_eq_true_eq]
          constructor
          · rintro rfl; exact ⟨a, (g1 _ _).1 ha, (g2 _ _).1 hb⟩
          · rintro ⟨q, hq1, hq2⟩
            have e1 := (g1 _ _).2 hq1
            have e2 := (g2 _ _).2 hq2
            rw [ha] at e1; rw [hb] at e2
            simp at e1 e2
            rw [e1, e2]
        · rename_i hno
          constructor
          · intro h; cases h
          · rintro ⟨q, hq1, hq2⟩
            exact absurd ((g2 _ _).2 hq2) (hno q q ((g1 _ _).2 hq1))
  have htest : testMiter c1 c2 M = some true ↔ M.nEdges = M.nQubits ∧
      ∀ i, i < M.nQubits → (c1.isGarbage i = true ∧ c2.isGarbage i = true) ∨
        ((M.wire i).hadamard = false ∧ ∃ q, (q, (M.wire i).inQubit) ∈ p1 ∧ (q, (M.wire i).outQubit) ∈ p2) := by
    unfold testMiter
    split
    · rename_i hE
      simp only [h1, h2]
      rw [testInputs_true]
      simp only [List.mem_range, one, hE, true_and]
    · rename_i hE
      simp [hE]
  rw [← htest]
  unfold finish
  cases ht : testMiter c1 c2 M with
  | none => simp
  | some e =>
    simp only [Option.map_some, Option.some.injEq]
    unfold verdict
    cases e <;> cases done <;> cases hasAncilla c1 c2 <;> cases M.phaseZero <;> rcases hv with rfl | rfl <;> simp

/-- The miter the checker reduces, for circuits whose data qubits are the logical qubits `0 .. m-1`: first the adjoint of the first
circuit's diagram, then the second's, ancillary qubits fixed to `|0⟩` at the inputs and to `⟨0|` at the outputs; the wires `outs1`, `outs2`
are left as inputs and outputs.  The reduction kept its matrix up to a positive factor and the phase `θ`. -/
structure Reduced {m n : Nat} (h : m ≤ n) (qc1 qc2 : QC n) (outs1 outs2 : Fin m → Fin n) (M : Miter) (g : Graph m) (θ : ℂ) : Prop where
  tidy : g.Tidy
  sees : Sees M g (fun i => (outs1 i).val) (fun i => (outs2 i).val)
  unit : ‖θ‖ = 1
  phase : M.phaseZero = true ↔ θ = 1
  matrix : ∃ r : ℝ, 0 < r ∧ plugged h qc2 outs2 * (plugged h qc1 outs1)ᴴ = ((r : ℂ) * θ) • g.matrix

/-- The outputs kept are those on which the data qubits end. -/
def KeepsData {m n : Nat} (qc : QC n) (ω : Equiv.Perm (Fin n)) (outs : Fin m → Fin n) : Prop :=
  Function.Injective outs ∧ ∀ w, (∃ i, outs i = w) ↔ ((wireOf qc ω).symm w).val < m

/-- **C39.** Soundness with ancillary qubits: if both circuits return their ancillary qubits to `|0⟩` and the right outputs were kept, and no
qubit is garbage in both circuits, a positive verdict is true: the circuits produce the same output on every input whose ancillary qubits
are `|0⟩`; exactly, or up to a global phase other than one. -/
theorem zx_sound_ancilla {m n : Nat} (h : m ≤ n) {qc1 qc2 : QC n} {ω1 ω2 : Equiv.Perm (Fin n)} (hv1 : ∀ o ∈ qc1.ops, o.Valid) (hv2 : ∀ o ∈ qc2.ops, o.Valid)
    {c1 c2 : Circ α} (hr1 : Represents c1 qc1.initialLayout ω1) (hr2 : Represents c2 qc2.initialLayout ω2)
    (hc1 : Clean (flags m n) qc1 ω1) (hc2 : Clean (flags m n) qc2 ω2)
    {outs1 outs2 : Fin m → Fin n} (ho1 : KeepsData qc1 ω1 outs1) (ho2 : KeepsData qc2 ω2 outs2)
    {M : Miter} {g : Graph m} {θ : ℂ} (hR : Reduced h qc1 qc2 outs1 outs2 M g θ)
    (hg : ∀ i, i < m → ¬(c1.isGarbage i = true ∧ c2.isGarbage i = true))
    {done : Bool} {v : Criterion} (hf : finish c1 c2 M done = some v) : Sound v (flags m n) qc1 ω1 qc2 ω2 := by
  classical
  obtain ⟨p1, i1, s1, d1, m1⟩ := represented hr1
  obtain ⟨p2, i2, s2, d2, m2⟩ := represented hr2
  obtain ⟨sup1, u1⟩ := plugged_unitary h qc1 ω1 hv1 hc1 ho1.1 ho1.2
  obtain ⟨sup2, u2⟩ := plugged_unitary h qc2 ω2 hv2 hc2 ho2.1 ho2.2
  have u1' : plugged h qc1 outs1 * (plugged h qc1 outs1)ᴴ = 1 := mul_eq_one_comm.mp u1
  obtain ⟨r, hr, hM⟩ := hR.matrix
  -- positive verdict: the functionalities agree up to θ
  have key : (v = .equivalent ∨ v = .equivalentUpToGlobalPhase) → (v = .equivalent ↔ θ = 1) ∧
      ∀ x : Basis m, ∀ z : Basis n, funcOf qc2 ω2 z (embed (Fin.castLE h) x) = θ * funcOf qc1 ω1 z (embed (Fin.castLE h) x) := by
    intro hv
    obtain ⟨_, hph, hE, hall⟩ := (zx_positive_iff i1 i2 d1 d2 M done v hv).1 hf
    have hq := hR.sees.qubits
    have hall' : ∀ i : Fin m, (M.wire i.val).hadamard = false ∧ ∃ q, (q, (M.wire i.val).inQubit) ∈ p1 ∧ (q, (M.wire i.val).outQubit) ∈ p2 := by
      intro i
      rcases hall i.val (by rw [hq]; exact i.isLt) with hx | hx
      · exact absurd hx (hg i.val i.isLt)
      · exact hx
    have huM : (plugged h qc2 outs2 * (plugged h qc1 outs1)ᴴ)ᴴ * (plugged h qc2 outs2 * (plugged h qc1 outs1)ᴴ) = 1 := by
      rw [Matrix.conjTranspose_mul, Matrix.conjTranspose_conjTranspose, Matrix.mul_assoc, ← Matrix.mul_assoc _ _ ((plugged h qc1 outs1)ᴴ), u2,
        Matrix.one_mul, u1']
    obtain ⟨σ, hσ, hA⟩ := wires_of_test hR.tidy hR.sees hE (fun i => (hall' i).1) huM hM
    -- the positive factor is one
    have hr1' : (r : ℂ) = 1 := by
      have h1 := congrFun (congrFun huM (fun _ => false)) (fun _ => false)
      rw [Matrix.mul_apply, Matrix.one_apply_eq] at h1
      have : ∀ y : Basis m, (plugged h qc2 outs2 * (plugged h qc1 outs1)ᴴ)ᴴ (fun _ => false) y * (plugged h qc2 outs2 * (plugged h qc1 outs1)ᴴ) y (fun _ => false)
          = if ∀ i, false = y (σ i) then (starRingEnd ℂ) (r * θ) * (r * θ) else 0 := by
        intro y
        rw [Matrix.conjTranspose_apply, hA y]
        split <;> simp
      rw [Finset.sum_congr rfl (fun y _ => this y)] at h1
      -- at least one term, and all have the same value r²
      have hsq : (starRingEnd ℂ) (r * θ) * (r * θ) = ((r ^ 2 : ℝ) : ℂ) := by
        rw [← Complex.normSq_eq_conj_mul_self, Complex.normSq_eq_norm_sq, norm_mul, hR.unit, mul_one, Complex.norm_real, Real.norm_eq_abs, sq_abs]
      rw [hsq] at h1
      -- σ is a bijection, so exactly one term
      have hσi : Function.Injective σ := by
        intro i j hij
        obtain ⟨q, a1, a2⟩ := (hall' i).2
        obtain ⟨q', b1, b2⟩ := (hall' j).2
        rw [(hσ i).2] at a2
        rw [(hσ j).2, ← hij] at b2
        have e := Layout.value_inj d2 a2 b2
        subst e
        have e := Layout.key_inj (Layout.nodup_of_lt s1) a1 b1
        rw [(hσ i).1, (hσ j).1] at e
        exact ho1.1 (Fin.ext e)
      have hσs : Function.Surjective σ := Finite.surjective_of_injective hσi
      have hone : ∀ y : Basis m, (∀ i, false = y (σ i)) ↔ y = fun _ => false := by
        intro y
        constructor
        · intro hy
          funext k
          obtain ⟨i, rfl⟩ := hσs k
          exact (hy i).symm
        · rintro rfl i; rfl
      simp only [hone, Finset.sum_ite_eq', Finset.mem_univ, if_true] at h1
      have h2 : r ^ 2 = 1 := by exact_mod_cast h1
      have h3 : r = 1 := by nlinarith
      rw [h3]; simp
    rw [hr1', one_mul] at hA
    have hA2 : ∀ y x, plugged h qc2 outs2 y x = θ * plugged h qc1 outs1 (y ∘ σ) x := by
      intro y x
      have e : plugged h qc2 outs2 = (plugged h qc2 outs2 * (plugged h qc1 outs1)ᴴ) * plugged h qc1 outs1 := by
        rw [Matrix.mul_assoc, u1, Matrix.mul_one]
      rw [e, Matrix.mul_apply]
      have : ∀ z : Basis m, (plugged h qc2 outs2 * (plugged h qc1 outs1)ᴴ) y z * plugged h qc1 outs1 z x =
          if z = y ∘ σ then θ * plugged h qc1 outs1 z x else 0 := by
        intro z
        rw [hA y z]
        by_cases hz : z = y ∘ σ
        · subst hz; simp
        · rw [if_neg hz, if_neg, zero_mul]
          intro hall; exact hz (funext hall)
      rw [Finset.sum_congr rfl (fun z _ => this z)]
      simp
    refine ⟨?_, ?_⟩
    · rw [hph, hR.phase]
    · intro x z
      rw [funcOf_wire, funcOf_wire]
      by_cases hz : ∀ q : Fin n, m ≤ q.val → z q = false
      · have off : ∀ (qc : QC n) (ω : Equiv.Perm (Fin n)) (outs : Fin m → Fin n), KeepsData qc ω outs →
            (fun w => z ((wireOf qc ω).symm w)) = embed outs ((fun w => z ((wireOf qc ω).symm w)) ∘ outs) := by
          intro qc ω outs ho
          apply embed_of_off ho.1
          intro w hw
          rw [ho.2 w] at hw
          exact hz _ (by omega)
        rw [off qc2 ω2 outs2 ho2, off qc1 ω1 outs1 ho1]
        have := hA2 ((fun w => z ((wireOf qc2 ω2).symm w)) ∘ outs2) x
        simp only [plugged] at this
        rw [this]
        congr 3
        funext i
        simp only [Function.comp]
        congr 1
        obtain ⟨q, a1, a2⟩ := (hall' i).2
        rw [(hσ i).1] at a1
        rw [(hσ i).2] at a2
        obtain ⟨j, rfl, e1⟩ := (m1 _ _).1 a1
        obtain ⟨k, ek, e2⟩ := (m2 _ _).1 a2
        have e1' : outs1 i = qc1.initialLayout j := Fin.ext e1
        have e2' : outs2 (σ i) = qc2.initialLayout k := Fin.ext e2
        rw [e1', e2']
        have ek' : ω1 j = ω2 k := Fin.ext ek
        simp [wireOf, Equiv.Perm.mul_def, Equiv.Perm.inv_def, ek']
      · push Not at hz
        obtain ⟨q, hq, hzq⟩ := hz
        have zero : ∀ (qc : QC n) (ω : Equiv.Perm (Fin n)) (outs : Fin m → Fin n), KeepsData qc ω outs →
            (∀ (y : Basis n) (x : Basis m), wireMatrix qc y (embed (Fin.castLE h) x) ≠ 0 → y = embed outs (y ∘ outs)) →
            wireMatrix qc (fun w => z ((wireOf qc ω).symm w)) (embed (Fin.castLE h) x) = 0 := by
          intro qc ω outs ho hs
          by_contra hne
          have e := congrFun (hs _ x hne) (wireOf qc ω q)
          simp only [Equiv.symm_apply_apply] at e
          rw [embed_off] at e
          · exact hzq e
          · rw [ho.2]
            simp only [Equiv.symm_apply_apply]
            omega
        rw [zero qc1 ω1 outs1 ho1 sup1, zero qc2 ω2 outs2 ho2 sup2, mul_zero]
  have same : (v = .equivalent ∨ v = .equivalentUpToGlobalPhase) → (v = .equivalent ↔ θ = 1) ∧ SameUpTo (starRingEnd ℂ θ) (flags m n) qc1 ω1 qc2 ω2 := by
    intro hv
    obtain ⟨k1, k2⟩ := key hv
    refine ⟨k1, ?_⟩
    intro w hw
    have hθ : (starRingEnd ℂ θ) * θ = 1 := by
      rw [← Complex.normSq_eq_conj_mul_self, Complex.normSq_eq_norm_sq, hR.unit]; simp
    rw [output_eq, output_eq]
    funext z
    rw [Pi.smul_apply, smul_eq_mul]
    simp only [Matrix.mulVec, dotProduct]
    rw [Finset.mul_sum]
    apply Finset.sum_congr rfl
    intro x _
    by_cases h0 : w x = 0
    · rw [h0]; simp
    · have hx : x = embed (Fin.castLE h) (x ∘ Fin.castLE h) := by
        apply embed_of_off (Fin.castLE_injective h)
        intro q hq
        refine hw x h0 q ((flag_iff h q).2 ?_)
        by_contra hlt
        exact hq ⟨⟨q.val, by omega⟩, rfl⟩
      have := k2 (x ∘ Fin.castLE h) z
      rw [← hx] at this
      rw [this, ← mul_assoc, ← mul_assoc, hθ, one_mul]
  refine ⟨?_, ?_⟩
  · intro hv
    obtain ⟨k1, k2⟩ := same (Or.inl hv)
    rw [k1.1 hv] at k2
    simpa [Same] using k2
  · intro hv
    obtain ⟨k1, k2⟩ := same (Or.inr hv)
    have hne : θ ≠ 1 := by
      intro e
      have := k1.2 e
      rw [hv] at this
      cases this
    refine ⟨⟨_, by simpa using hR.unit, k2⟩, ?_⟩
    intro hsame
    apply hne
    -- a state that is not mapped to zero
    have hz : AncillasZero (flags m n) (Pi.single (fun _ => false) (1 : ℂ) : Basis n → ℂ) := by
      intro z hz q _
      have : z = fun _ => false := by
        by_contra hc
        exact hz (by simp [hc])
      rw [this]
    have e1 := hsame _ hz
    have e2 := k2 _ hz
    rw [one_smul] at e1
    rw [← e1, output_eq] at e2
    have hne0 : (funcOf qc1 ω1).mulVec (Pi.single (fun _ => false) (1 : ℂ)) ≠ 0 := by
      intro h0
      have := congrArg ((funcOf qc1 ω1)ᴴ).mulVec h0
      rw [Matrix.mulVec_mulVec, unitary_comm _ (funcOf_unitary qc1 ω1 hv1), Matrix.one_mulVec, Matrix.mulVec_zero] at this
      have := congrFun this (fun _ => false)
      simp at this
    obtain ⟨z, hz'⟩ := Function.ne_iff.1 hne0
    have e3 := congrFun e2 z
    rw [Pi.smul_apply, smul_eq_mul] at e3
    have e4 : starRingEnd ℂ θ = 1 := by
      have h5 : (starRingEnd ℂ θ - 1) * (funcOf qc1 ω1).mulVec (Pi.single (fun _ => false) (1 : ℂ)) z = 0 := by
        rw [sub_mul, one_mul, ← e3, sub_self]
      rcases mul_eq_zero.1 h5 with h6 | h6
      · exact sub_eq_zero.1 h6
      · exact absurd h6 hz'
    have := congrArg (starRingEnd ℂ) e4
    simpa using this

/-- **C39.** Soundness without ancillary qubits: a positive verdict of the ZX checker is true, for all circuits, layouts and reduced
diagrams, if the rewrite rules keep the matrix up to a positive factor and the recorded phase and no qubit is garbage in both circuits. -/
theorem zx_sound {n : Nat} {qc1 qc2 : QC n} {ω1 ω2 : Equiv.Perm (Fin n)} (hv1 : ∀ o ∈ qc1.ops, o.Valid) (hv2 : ∀ o ∈ qc2.ops, o.Valid)
    {c1 c2 : Circ α} (hr1 : Represents c1 qc1.initialLayout ω1) (hr2 : Represents c2 qc2.initialLayout ω2)
    {M : Miter} {g : Graph n} {θ : ℂ} (hR : Reduced (Nat.le_refl n) qc1 qc2 id id M g θ)
    (hg : ∀ i, i < n → ¬(c1.isGarbage i = true ∧ c2.isGarbage i = true))
    {done : Bool} {v : Criterion} (hf : finish c1 c2 M done = some v) : Sound v (flags n n) qc1 ω1 qc2 ω2 := by
  have hcl : ∀ (qc : QC n) (ω : Equiv.Perm (Fin n)), Clean (flags n n) qc ω := by
    intro qc ω v _ x _ q hq
    rw [flag_iff (Nat.le_refl n)] at hq
    have := q.isLt
    omega
  have hk : ∀ (qc : QC n) (ω : Equiv.Perm (Fin n)), KeepsData qc ω (id : Fin n → Fin n) := by
    intro qc ω
    refine ⟨fun _ _ h => h, ?_⟩
    intro w
    simp
  exact zx_sound_ancilla (Nat.le_refl n) hv1 hv2 hr1 hr2 (hcl _ _) (hcl _ _) (hk _ _) (hk _ _) hR hg hf

end QCEC.Props
