import Verif.Spec.ZX
import Verif.Lemmas.Verdict
import Verif.Lemmas.ZXPerm
import Mathlib.Tactic.ByContra
/-!
# Lemmas: meaning of the reduced miter
-/
namespace QCEC.ZX
open QCEC QCEC.Sem QCEC.Spec QCEC.Spec.ZX QCEC.Prep Matrix

variable {m n : Nat}

/-- As many edges as inputs: every edge end is a different input or output. -/
theorem matching {g : Graph m} (ht : g.Tidy) (hE : Fintype.card g.E = m) :
    (∀ e s v, g.ends e s ≠ .mid v) ∧ (∀ e s e' s', g.ends e s = g.ends e' s' → e = e' ∧ s = s') := by
  classical
  let b : Fin m ⊕ Fin m → Vertex m g.V := fun x => match x with | .inl i => .inp i | .inr i => .out i
  have hb : ∀ x, ∃ p : g.E × Bool, g.ends p.1 p.2 = b x := by
    intro x
    cases x with
    | inl i => obtain ⟨e, s, h⟩ := ht.input i; exact ⟨(e, s), h⟩
    | inr i => obtain ⟨e, s, h⟩ := ht.output i; exact ⟨(e, s), h⟩
  choose f hf using hb
  have bi : Function.Injective b := by
    intro x y h
    cases x <;> cases y <;> simp [b] at h ⊢ <;> exact h
  have fi : Function.Injective f := by
    intro x y h
    apply bi
    rw [← hf x, ← hf y, h]
  have fb : Function.Bijective f := by
    rw [Fintype.bijective_iff_injective_and_card]
    refine ⟨fi, ?_⟩
    simp [hE]
    omega
  refine ⟨?_, ?_⟩
  · intro e s v h
    obtain ⟨x, hx⟩ := fb.2 (e, s)
    have := hf x
    rw [hx] at this
    simp only at this
    rw [h] at this
    cases x <;> cases this
  · intro e s e' s' h
    obtain ⟨x, hx⟩ := fb.2 (e, s)
    obtain ⟨x', hx'⟩ := fb.2 (e', s')
    have k := hf x
    have k' := hf x'
    rw [hx] at k
    rw [hx'] at k'
    simp only at k k'
    rw [h, k'] at k
    have := bi k
    subst this
    rw [hx] at hx'
    simpa using hx'

theorem edgeFactor_comm (h a b : Bool) : edgeFactor h a b = edgeFactor h b a := by
  cases h <;> cases a <;> cases b <;> rfl

/-- The matrix of a diagram all of whose inputs are joined to outputs by plain edges. -/
theorem matrix_of_wires {g : Graph m} (ht : g.Tidy) (hE : Fintype.card g.E = m) (σ : Fin m → Fin m)
    (hw : ∀ i, ∃ e s, g.ends e s = .inp i ∧ g.ends e (!s) = .out (σ i) ∧ g.hadamard e = false) (y x : Basis m) :
    g.matrix y x = if ∀ i, x i = y (σ i) then 1 else 0 := by
  classical
  obtain ⟨h1, h2⟩ := matching ht hE
  have hV : IsEmpty g.V := ⟨fun v => by obtain ⟨e, s, h⟩ := ht.spider v; exact h1 e s v h⟩
  choose e s he ho hh using hw
  have ei : Function.Injective e := by
    intro i j hij
    have hs : s i = s j := by
      by_contra hne
      have : s j = !s i := by cases hi : s i <;> cases hj : s j <;> simp_all
      have h3 := he j
      rw [← hij, this, ho i] at h3
      cases h3
    have h3 := he j
    rw [← hij, ← hs, he i] at h3
    exact Vertex.inp.inj h3
  have eb : Function.Bijective e := by
    rw [Fintype.bijective_iff_injective_and_card]
    exact ⟨ei, by simp [hE]⟩
  unfold Graph.matrix
  have hu : (Finset.univ : Finset (g.V → Bool)) = {fun v => (hV.false v).elim} := by
    ext z
    simp only [Finset.mem_univ, Finset.mem_singleton, true_iff]
    funext v
    exact (hV.false v).elim
  rw [hu, Finset.sum_singleton]
  rw [Finset.prod_of_isEmpty, one_mul]
  rw [← Equiv.prod_comp (Equiv.ofBijective e eb)]
  have hfac : ∀ i, edgeFactor (g.hadamard (e i)) ((g.ends (e i) false).bit y x (fun v => (hV.false v).elim))
      ((g.ends (e i) true).bit y x (fun v => (hV.false v).elim)) = if x i = y (σ i) then 1 else 0 := by
    intro i
    rw [hh i]
    cases hs : s i with
    | false =>
      have a := he i
      have b := ho i
      rw [hs] at a b
      simp only [Bool.not_false] at b
      rw [a, b]
      by_cases hxy : x i = y (σ i) <;> simp [edgeFactor, Vertex.bit, hxy]
    | true =>
      have a := he i
      have b := ho i
      rw [hs] at a b
      simp only [Bool.not_true] at b
      rw [edgeFactor_comm, a, b]
      by_cases hxy : x i = y (σ i) <;> simp [edgeFactor, Vertex.bit, hxy]
  simp only [Equiv.ofBijective_apply]
  rw [Finset.prod_congr rfl (fun i _ => hfac i)]
  rw [Finset.prod_ite_zero]
  simp

/-- An input joined to another input by a plain edge: columns vanish. -/
theorem matrix_cup {g : Graph m} {e : g.E} {s : Bool} {i j : Fin m} (h1 : g.ends e s = .inp i) (h2 : g.ends e (!s) = .inp j)
    (hh : g.hadamard e = false) {x : Basis m} (hx : x i ≠ x j) (y : Basis m) : g.matrix y x = 0 := by
  unfold Graph.matrix
  apply Finset.sum_eq_zero
  intro z _
  rw [Finset.prod_eq_zero (Finset.mem_univ e), mul_zero]
  rw [hh]
  cases s with
  | false =>
    simp only [Bool.not_false] at h2
    rw [h1, h2]
    simp [edgeFactor, Vertex.bit, hx]
  | true =>
    simp only [Bool.not_true] at h2
    rw [h1, h2]
    simp [edgeFactor, Vertex.bit, Ne.symm hx]

/-- The final test on a unitary miter: it is a permutation of the wires times a factor. -/
theorem wires_of_test {g : Graph m} (ht : g.Tidy) {M : Miter} {inL outL : Fin m → Nat} (hs : Sees M g inL outL)
    (hE : M.nEdges = M.nQubits) (hp : ∀ i : Fin m, (M.wire i.val).hadamard = false) {A : Mat m} (hA : Aᴴ * A = 1) {c : ℂ} (hc : A = c • g.matrix) :
    ∃ σ : Fin m → Fin m, (∀ i : Fin m, (M.wire i.val).inQubit = inL i ∧ (M.wire i.val).outQubit = outL (σ i)) ∧
      ∀ y x, A y x = if ∀ i, x i = y (σ i) then c else 0 := by
  classical
  have hE' : Fintype.card g.E = m := by rw [← hs.edges, hE, hs.qubits]
  obtain ⟨h1, h2⟩ := matching ht hE'
  have hw : ∀ i : Fin m, ∃ k e s, g.ends e s = .inp i ∧ g.ends e (!s) = .out k ∧ g.hadamard e = false ∧ (M.wire i.val).inQubit = inL i ∧
      (M.wire i.val).outQubit = outL k := by
    intro i
    obtain ⟨e, s, k1, k2, k3, k4, k5⟩ := hs.wire i
    have hh : g.hadamard e = false := by rw [← k2, hp i]
    cases ho : g.ends e (!s) with
    | mid v => exact absurd ho (h1 _ _ v)
    | out k => exact ⟨k, e, s, k1, ho, hh, k3, k5 k ho⟩
    | inp j =>
      exfalso
      have hij : i ≠ j := by
        rintro rfl
        have := (h2 e s e (!s) (by rw [k1, ho])).2
        cases s <;> simp at this
      let x : Basis m := fun q => decide (q = i)
      have hx : x i ≠ x j := by simp [x, Ne.symm hij]
      have hz : ∀ y, A y x = 0 := by
        intro y
        rw [hc, Matrix.smul_apply, matrix_cup k1 ho hh hx y, smul_zero]
      have h1' : (Aᴴ * A) x x = 1 := by rw [hA, Matrix.one_apply_eq]
      rw [Matrix.mul_apply] at h1'
      simp [hz] at h1'
  choose σ e s a1 a2 a3 a4 a5 using hw
  refine ⟨σ, fun i => ⟨a4 i, a5 i⟩, ?_⟩
  intro y x
  rw [hc, Matrix.smul_apply, matrix_of_wires ht hE' σ (fun i => ⟨e i, s i, a1 i, a2 i, a3 i⟩)]
  split <;> simp

theorem embed_apply {e : Fin m → Fin n} (he : Function.Injective e) (x : Basis m) (i : Fin m) : embed e x (e i) = x i :=
  he.extend_apply x _ i

theorem embed_off {e : Fin m → Fin n} (x : Basis m) {w : Fin n} (h : ¬∃ i, e i = w) : embed e x w = false :=
  Function.extend_apply' _ _ _ h

theorem embed_inj {e : Fin m → Fin n} (he : Function.Injective e) : Function.Injective (embed e : Basis m → Basis n) := by
  intro x y h
  funext i
  rw [← embed_apply he x i, h, embed_apply he y i]

theorem embed_of_off {e : Fin m → Fin n} (he : Function.Injective e) {z : Basis n} (hz : ∀ w, (¬∃ i, e i = w) → z w = false) :
    z = embed e (z ∘ e) := by
  funext w
  by_cases h : ∃ i, e i = w
  · obtain ⟨i, rfl⟩ := h
    rw [embed_apply he]; rfl
  · rw [embed_off _ h, hz w h]

theorem wireMatrix_eq (qc : QC n) : wireMatrix qc = funcOf qc qc.initialLayout := by
  funext y x
  rw [wireMatrix, output_eq]
  simp

theorem funcOf_wire (qc : QC n) (ω : Equiv.Perm (Fin n)) (z x : Basis n) :
    funcOf qc ω z x = wireMatrix qc (fun w => z ((wireOf qc ω).symm w)) x := by
  rw [wireMatrix_eq]
  unfold funcOf view
  congr 1
  funext p
  simp [wireOf, Equiv.Perm.mul_def, Equiv.Perm.inv_def]

theorem flag_iff (h : m ≤ n) (q : Fin n) : (flags m n).getD q.val false = true ↔ m ≤ q.val := by
  unfold flags
  rw [List.getD_eq_getElem?_getD]
  by_cases hq : q.val < m
  · rw [List.getElem?_append_left (by simpa using hq)]
    simp [hq]
  · rw [List.getElem?_append_right (by simpa using hq)]
    have : q.val - m < n - m := by have := q.isLt; omega
    simp [this]
    omega

/-- Where the outputs kept are exactly those of the data qubits and the circuit is clean: a unitary matrix. -/
theorem plugged_unitary (h : m ≤ n) (qc : QC n) (ω : Equiv.Perm (Fin n)) (hv : ∀ o ∈ qc.ops, o.Valid) (hcl : Clean (flags m n) qc ω)
    {outs : Fin m → Fin n} (hi : Function.Injective outs) (ho : ∀ w, (∃ i, outs i = w) ↔ ((wireOf qc ω).symm w).val < m) :
    (∀ (y : Basis n) (x : Basis m), wireMatrix qc y (embed (Fin.castLE h) x) ≠ 0 → y = embed outs (y ∘ outs)) ∧
    (plugged h qc outs)ᴴ * plugged h qc outs = 1 := by
  classical
  have hci : Function.Injective (Fin.castLE h) := Fin.castLE_injective h
  have hsup : ∀ (y : Basis n) (x : Basis m), wireMatrix qc y (embed (Fin.castLE h) x) ≠ 0 → y = embed outs (y ∘ outs) := by
    intro y x hne
    apply embed_of_off hi
    intro w hw
    rw [ho w] at hw
    have hz : AncillasZero (flags m n) (Pi.single (embed (Fin.castLE h) x) (1 : ℂ)) := by
      intro z hz q hq
      rw [flag_iff h] at hq
      have : z = embed (Fin.castLE h) x := by
        by_contra hc
        exact hz (by simp [hc])
      subst this
      apply embed_off
      rintro ⟨i, rfl⟩
      simp at hq
      have := i.isLt
      omega
    have := hcl _ hz (fun q => y (wireOf qc ω q)) ?_ ((wireOf qc ω).symm w) ((flag_iff h _).2 (by omega))
    · simpa using this
    · rw [output_eq]
      simp only [Matrix.mulVec_single, MulOpposite.op_one, one_smul]
      show funcOf qc ω _ _ ≠ 0
      rw [funcOf_wire]
      simpa using hne
  refine ⟨hsup, ?_⟩
  have hU : (wireMatrix qc)ᴴ * wireMatrix qc = 1 := by
    rw [wireMatrix_eq]
    exact unitary_comm _ (funcOf_unitary qc _ hv)
  funext x x'
  rw [Matrix.mul_apply]
  have := congrFun (congrFun hU (embed (Fin.castLE h) x)) (embed (Fin.castLE h) x')
  rw [Matrix.mul_apply] at this
  rw [← Fintype.sum_of_injective (embed outs) (embed_inj hi)
    (fun y => (plugged h qc outs)ᴴ x y * plugged h qc outs y x') _ ?_ ?_] at this
  · rw [this]
    simp only [Matrix.one_apply, (embed_inj hci).eq_iff]
  · intro y hy
    by_cases h0 : wireMatrix qc y (embed (Fin.castLE h) x') = 0
    · rw [h0, mul_zero]
    · exact absurd ⟨_, (hsup y x' h0).symm⟩ hy
  · intro y; rfl

/-- Layouts that are permutations. -/
theorem represented {α : Type} {c : Circ α} {ι ω : Equiv.Perm (Fin n)} (h : Represents c ι ω) :
    ∃ p, invertPermutations c = some p ∧ p.Sorted ∧ (p.map Prod.snd).Nodup ∧
      ∀ q w, (q, w) ∈ p ↔ ∃ i : Fin n, q = (ω i).val ∧ w = (ι i).val := by
  have canon : ∀ (l : Layout) (σ : Equiv.Perm (Fin n)), (l.map Prod.fst).Pairwise (· < ·) →
      (∀ p q, (p, q) ∈ l ↔ ∃ i : Fin n, p = i.val ∧ q = (σ i).val) → l.length = n ∧ (l.map Prod.snd).Nodup := by
    intro l σ hk hl
    have hs : l.Sorted := hk
    have e : l = (List.finRange n).map (fun i => (i.val, (σ i).val)) := by
      refine Layout.sorted_ext hs ?_ ?_
      · show (((List.finRange n).map (fun i => (i.val, (σ i).val))).map Prod.fst).Pairwise (· < ·)
        rw [List.map_map]
        have : ((Prod.fst ∘ fun i : Fin n => (i.val, (σ i).val))) = Fin.val := rfl
        rw [this, List.map_coe_finRange_eq_range]
        exact List.pairwise_lt_range
      · intro a b
        rw [hl]
        simp only [List.mem_map, List.mem_finRange, true_and, Prod.mk.injEq]
        constructor
        · rintro ⟨i, rfl, rfl⟩; exact ⟨i, rfl, rfl⟩
        · rintro ⟨i, rfl, rfl⟩; exact ⟨i, rfl, rfl⟩
    refine ⟨by rw [e]; simp, ?_⟩
    refine nodup_of_inj hs ?_
    intro a b v ha hb
    obtain ⟨i, rfl, rfl⟩ := (hl a v).1 ha
    obtain ⟨j, rfl, hj⟩ := (hl b _).1 hb
    rw [σ.injective (Fin.ext hj)]
  obtain ⟨l1, n1⟩ := canon _ ι h.initKeys h.init
  obtain ⟨l2, n2⟩ := canon _ ω h.outKeys h.out
  have hp : invertPermutations c = some (concat (invert c.outputPermutation) c.initialLayout) := by
    rw [invertPermutations, invertLayouts, complete, complete, if_pos (by rw [l2, h.size]), if_pos (by rw [l1, h.size])]
  have hmem : ∀ q w, (q, w) ∈ concat (invert c.outputPermutation) c.initialLayout ↔ ∃ i : Fin n, q = (ω i).val ∧ w = (ι i).val := by
    intro q w
    rw [mem_concat (Layout.nodup_of_lt (sorted_invert n2)) h.initKeys]
    simp only [mem_invert n2, h.out, h.init]
    constructor
    · rintro ⟨b, ⟨i, rfl, rfl⟩, j, hj, rfl⟩
      rw [Fin.ext hj]
      exact ⟨j, rfl, rfl⟩
    · rintro ⟨i, rfl, rfl⟩
      exact ⟨i.val, ⟨i, rfl, rfl⟩, i, rfl, rfl⟩
  have hsort := sorted_concat (Layout.nodup_of_lt (sorted_invert n2)) h.initKeys
  refine ⟨_, hp, hsort, ?_, hmem⟩
  refine nodup_of_inj hsort ?_
  intro a b v ha hb
  obtain ⟨i, rfl, rfl⟩ := (hmem a v).1 ha
  obtain ⟨j, rfl, hj⟩ := (hmem b _).1 hb
  rw [ι.injective (Fin.ext hj)]

end QCEC.ZX
