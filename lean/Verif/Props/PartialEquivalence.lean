import Verif.Lemmas.Garbage
import Verif.Props.DDSem
/-!
# C62: checking partial equivalence

`check_partial_equivalence`: what the three decision-diagram checkers decide, compared with the documented definition
(`Verif/Spec/PartialEquivalence.lean`).
-/
namespace QCEC.Props
open QCEC QCEC.DD QCEC.Sem QCEC.Spec Matrix

variable {n : Nat}

/-! ## The definition -/

/-- The outcome probabilities do not depend on how unlabelled qubits are read out: if every qubit that is not garbage has an entry in the
output permutation, they are the probabilities of the physical outcomes. -/
theorem prob_physical (g : List Bool) (qc : QC n) (ω : Equiv.Perm (Fin n)) (h : WellFormed qc ω)
    (hl : ∀ q : Fin n, g.getD q.val false = false → ∃ t ∈ qc.outputPermutation, t.2 = q) (v : Basis n → ℂ) (k : Basis n) :
    prob g (output qc ω v) k = ∑ z : Basis n, if ∀ t ∈ qc.outputPermutation, g.getD t.2.val false = false → z t.1 = k t.2 then
      ‖execute qc.ops (load qc.initialLayout v) z‖ ^ 2 else 0 := by
  unfold prob output readOut
  refine Fintype.sum_equiv (pre ω) _ _ fun x => ?_
  have hpre : ∀ p, (pre ω) x p = x (ω p) := fun p => rfl
  have e : (∀ q : Fin n, g.getD q.val false = false → x q = k q) ↔
      ∀ t ∈ qc.outputPermutation, g.getD t.2.val false = false → (pre ω) x t.1 = k t.2 := by
    constructor
    · intro h' t ht hg
      rw [hpre, h.ext t ht]
      exact h' _ hg
    · intro h' q hg
      obtain ⟨t, ht, rfl⟩ := hl q hg
      have := h' t ht hg
      rwa [hpre, h.ext t ht] at this
  simp only [e]
  rfl

/-- Circuits that are equal up to a global phase are partially equivalent, whatever is garbage. -/
theorem same_partially (g anc : List Bool) (qc1 qc2 : QC n) (ω1 ω2 : Equiv.Perm (Fin n)) (h : SameUpToPhase anc qc1 ω1 qc2 ω2) :
    PartiallyEquivalent g anc qc1 ω1 qc2 ω2 := by
  obtain ⟨c, hc, h⟩ := h
  intro v hv k
  rw [h v hv]
  unfold prob
  refine Finset.sum_congr rfl fun x _ => ?_
  rw [Pi.smul_apply, norm_smul, hc, one_mul]

/-- Partial equivalence implies the same outcome probabilities on the basis states. -/
theorem partially_basis (g anc : List Bool) (qc1 qc2 : QC n) (ω1 ω2 : Equiv.Perm (Fin n)) (h : PartiallyEquivalent g anc qc1 ω1 qc2 ω2) :
    BasisEquivalent anc g g qc1 ω1 qc2 ω2 := by
  intro y hy k
  unfold reported
  rw [h (ket y) hy k]

/-! ## Alternating checker -/

theorem altGarbage_flag (g1 g2 : List Bool) (q : Fin n) :
    (altGarbage n g1 g2).getD q.val false = (g1.getD q.val false && g2.getD q.val false) := altAncillary_flag g1 g2 q

theorem altCheck_partial (G : GarbageTest n) (T : ExactTests n) (qc1 qc2 : QC n) (d : Mat n) :
    altCheck true G.closeG T.close T.wOne n qc1 qc2 d ≠ .notEquivalent ↔
      ∀ k, keepProj (altGarbage n qc1.garbage qc2.garbage) k * d = d * keepProj (altGarbage n qc1.garbage qc2.garbage) k := by
  rw [← block_iff, ← G.closeG_iff]
  unfold altCheck altVerdict
  simp only [if_true]
  split
  · split <;> simp_all
  · simp_all

/-- **C62** (alternating checker, soundness): with partial equivalence switched on, a verdict other than `NotEquivalent` means that
the circuits are partially equivalent as documented – for *every* input state –, where the qubits that are garbage in both circuits are
not measured and the qubits that are ancillary in both start in `|0⟩`.

Missing (hence `_partial`): pairs that are not `SkipSafe` and lookahead on compound operations with SWAPs, see C04. -/
theorem alternating_partial_sound_partial (garb) (qc1 qc2 : QC n) (ω1 ω2 : Equiv.Perm (Fin n)) (h1 : WellFormed qc1 ω1)
    (h2 : WellFormed qc2 ω2) (T : ExactTests n) (G : GarbageTest n) (opEq : Op n → Op n → Bool)
    (sch : AltScheme (Op n) (Equiv.Perm (Fin n)) (Mat n))
    (hc : sch.Cancels → SkipSafe opEq qc1 qc2) (hs : AltConfigured qc1 qc2 sch) (prev : Criterion) :
    ∃ v s, runAlt (exactMatrix n garb) T.isId opEq sch (altCheck true G.closeG T.close T.wOne n qc1 qc2) (fun _ => false) prev qc1 qc2
        (altInit (exactMatrix n garb) 1 n qc1 qc2) (qc1.ops.length + qc2.ops.length + 2) = .ok (v, s) ∧
      (v ≠ .notEquivalent → PartiallyEquivalent (altGarbage n qc1.garbage qc2.garbage)
        (altAncillary n qc1.ancillary qc2.ancillary) qc1 ω1 qc2 ω2) := by
  obtain ⟨v, s, hr, h | h⟩ := alternating_outcome garb qc1 qc2 ω1 ω2 h1 h2 T opEq sch hc hs
    (altCheck true G.closeG T.close T.wOne n qc1 qc2) (fun _ => false) (fun _ _ _ h => h) prev _ (Nat.le_refl _)
  · exact absurd h.1 (by simp)
  · obtain ⟨_, hd, hv⟩ := h
    refine ⟨v, s, hr, fun hne => ?_⟩
    have hi : altInit (exactMatrix n garb) 1 n qc1 qc2 = ancProj (altAncillary n qc1.ancillary qc2.ancillary) := by
      simp [altInit, exactMatrix, reduceAncillae]
    rw [hv, altCheck_partial, hd, hi] at hne
    exact block_sound _ _ qc1 qc2 ω1 ω2 h1.ops h2.ops hne

/-- **C62** (alternating checker, exactness): if one of the circuits acts on none of the qubits that are ancillary in both, the
alternating checker decides partial equivalence: the verdict is `NotEquivalent` exactly for circuits that are not partially equivalent.
In particular for circuits without common ancillary qubits.

Missing (hence `_partial`): ancillary qubits of which some are idle only in the first and some only in the second circuit – there the
statement is false (`alternating_partial_incomplete`) –, and the pairs of C04. -/
theorem alternating_partial_exact_partial (garb) (qc1 qc2 : QC n) (ω1 ω2 : Equiv.Perm (Fin n)) (h1 : WellFormed qc1 ω1)
    (h2 : WellFormed qc2 ω2) (T : ExactTests n) (G : GarbageTest n) (opEq : Op n → Op n → Bool)
    (sch : AltScheme (Op n) (Equiv.Perm (Fin n)) (Mat n))
    (hc : sch.Cancels → SkipSafe opEq qc1 qc2) (hs : AltConfigured qc1 qc2 sch) (prev : Criterion)
    (hidle : (∀ q : Fin n, qc1.ancillary.getD q.val false = true → qc2.ancillary.getD q.val false = true → Idle qc1 ω1 q) ∨
      (∀ q : Fin n, qc1.ancillary.getD q.val false = true → qc2.ancillary.getD q.val false = true → Idle qc2 ω2 q)) :
    ∃ v s, runAlt (exactMatrix n garb) T.isId opEq sch (altCheck true G.closeG T.close T.wOne n qc1 qc2) (fun _ => false) prev qc1 qc2
        (altInit (exactMatrix n garb) 1 n qc1 qc2) (qc1.ops.length + qc2.ops.length + 2) = .ok (v, s) ∧
      (v ≠ .notEquivalent ↔ PartiallyEquivalent (altGarbage n qc1.garbage qc2.garbage)
        (altAncillary n qc1.ancillary qc2.ancillary) qc1 ω1 qc2 ω2) ∧
      (v = .equivalent ∨ v = .equivalentUpToGlobalPhase ∨ v = .notEquivalent) := by
  obtain ⟨v, s, hr, h | h⟩ := alternating_outcome garb qc1 qc2 ω1 ω2 h1 h2 T opEq sch hc hs
    (altCheck true G.closeG T.close T.wOne n qc1 qc2) (fun _ => false) (fun _ _ _ h => h) prev _ (Nat.le_refl _)
  · exact absurd h.1 (by simp)
  · obtain ⟨_, hd, hv⟩ := h
    have hi : altInit (exactMatrix n garb) 1 n qc1 qc2 = ancProj (altAncillary n qc1.ancillary qc2.ancillary) := by
      simp [altInit, exactMatrix, reduceAncillae]
    refine ⟨v, s, hr, ⟨fun hne => ?_, fun hp => ?_⟩, ?_⟩
    · rw [hv, altCheck_partial, hd, hi] at hne
      exact block_sound _ _ qc1 qc2 ω1 ω2 h1.ops h2.ops hne
    · rw [hv, altCheck_partial, hd, hi]
      refine block_complete _ _ qc1 qc2 ω1 ω2 h1.ops h2.ops ?_ hp
      rcases hidle with h | h
      · refine Or.inl fun q hq => ?_
        rw [altAncillary_flag, Bool.and_eq_true] at hq
        exact h q hq.1 hq.2
      · refine Or.inr fun q hq => ?_
        rw [altAncillary_flag, Bool.and_eq_true] at hq
        exact h q hq.1 hq.2
    · rw [hv]
      unfold altCheck altVerdict
      simp only [if_true]
      split
      · split <;> simp
      · simp

/-! ## Construction checker -/

theorem ket_normalised (y : Basis n) : ∑ x, ‖(ket y : Basis n → ℂ) x‖ ^ 2 = 1 := by
  rw [Finset.sum_eq_single y]
  · simp [ket]
  · intro x _ hx; simp [ket, hx]
  · simp

theorem norm_sum_normalised {v : Basis n → ℂ} : Normalised v ↔ ∑ x, ‖v x‖ ^ 2 = 1 := by
  unfold Normalised inner
  have : ∀ x, star (v x) * v x = ((‖v x‖ ^ 2 : ℝ) : ℂ) := by
    intro x
    rw [Complex.star_def, ← Complex.normSq_eq_conj_mul_self, Complex.normSq_eq_norm_sq]
  simp only [this]
  rw [← Complex.ofReal_sum]
  exact_mod_cast Iff.rfl

theorem output_norm (qc : QC n) (ω : Equiv.Perm (Fin n)) (h : ∀ o ∈ qc.ops, o.Valid) (y : Basis n) :
    ∑ x, ‖output qc ω (ket y) x‖ ^ 2 = 1 :=
  norm_sum_normalised.mp (output_normalised qc ω h _ (norm_sum_normalised.mpr (ket_normalised y)))

theorem ket_anc (anc : List Bool) (y : Basis n) :
    AncillasZero anc (ket y : Basis n → ℂ) ↔ ∀ q : Fin n, anc.getD q.val false = true → y q = false := by
  constructor
  · intro h
    exact h y (by simp [ket])
  · intro h x hx
    have : x = y := by
      by_contra hn
      exact hx (by simp [ket, hn])
    rw [this]; exact h

open Classical in
/-- Entries of the reduced matrix. -/
noncomputable def reducedEntry (anc g : List Bool) (qc : QC n) (ω : Equiv.Perm (Fin n)) (x y : Basis n) : ℝ :=
  if AncillasZero anc (ket y : Basis n → ℂ) then Real.sqrt (reported g (output qc ω (ket y)) x) else 0

theorem finalObject_partial (qc : QC n) (init : Mat n) :
    finalObject (exactMatrix n reduceGarbageMat) true qc init =
      reduceGarbageMat qc.garbage true (finalObject (exactMatrix n reduceGarbageMat) false qc init) := by
  unfold finalObject
  simp only [if_true, Bool.false_eq_true, if_false]
  rfl

theorem construction_reduced (qc : QC n) (ω : Equiv.Perm (Fin n)) (h : WellFormed qc ω) :
    finalObject (exactMatrix n reduceGarbageMat) true qc (constructionInit (exactMatrix n reduceGarbageMat) 1 qc) =
      real (reducedEntry qc.ancillary qc.garbage qc ω) := by
  rw [finalObject_partial, construction_object reduceGarbageMat h]
  funext x y
  unfold reduceGarbageMat real reducedEntry
  rw [if_pos rfl, reduceGarbageVec_eq]
  have col : (fun z => (funcOf qc ω * ancProj qc.ancillary : Mat n) z y) =
      fun z => if ∀ q : Fin n, qc.ancillary.getD q.val false = true → y q = false then output qc ω (ket y) z else 0 := by
    funext z
    unfold ancProj
    rw [Matrix.mul_diagonal, output_eq]
    have : (funcOf qc ω).mulVec (ket y) z = funcOf qc ω z y := by
      unfold Matrix.mulVec dotProduct ket
      rw [Finset.sum_eq_single y] <;> simp +contextual
    rw [this]
    split <;> simp
  rw [col]
  by_cases ha : ∀ q : Fin n, qc.ancillary.getD q.val false = true → y q = false
  · rw [if_pos ((ket_anc _ _).mpr ha)]
    simp only [if_pos ha]
  · rw [if_neg fun h => ha ((ket_anc _ _).mp h)]
    simp only [if_neg ha]
    have : reported qc.garbage (fun _ : Basis n => (0 : ℂ)) x = 0 := by
      unfold reported prob
      simp
    rw [this, Real.sqrt_zero]

theorem reduced_comparable (anc g1 g2 : List Bool) (qc1 qc2 : QC n) (ω1 ω2 : Equiv.Perm (Fin n)) (h1 : WellFormed qc1 ω1)
    (h2 : WellFormed qc2 ω2) : Comparable (reducedEntry anc g1 qc1 ω1) (reducedEntry anc g2 qc2 ω2) := by
  have nn : ∀ (g : List Bool) (qc : QC n) (ω : Equiv.Perm (Fin n)) x y, 0 ≤ reducedEntry anc g qc ω x y := by
    intro g qc ω x y
    unfold reducedEntry
    split
    · exact Real.sqrt_nonneg _
    · exact le_refl _
  have norm : ∀ (g : List Bool) (qc : QC n) (ω : Equiv.Perm (Fin n)) (_ : WellFormed qc ω) y, AncillasZero anc (ket y : Basis n → ℂ) →
      ∑ x, reducedEntry anc g qc ω x y ^ 2 = 1 := by
    intro g qc ω h y hy
    unfold reducedEntry
    simp only [if_pos hy, Real.sq_sqrt (reported_nonneg _ _ _)]
    rw [sum_reported, output_norm qc ω h.ops]
  refine ⟨nn g1 qc1 ω1, nn g2 qc2 ω2, fun y => ?_, ?_⟩
  · by_cases hy : AncillasZero anc (ket y : Basis n → ℂ)
    · exact Or.inl ⟨norm g1 qc1 ω1 h1 y hy, norm g2 qc2 ω2 h2 y hy⟩
    · refine Or.inr ⟨fun x => ?_, fun x => ?_⟩ <;> (unfold reducedEntry; rw [if_neg hy])
  · exact ⟨fun _ => false, norm g1 qc1 ω1 h1 _ ((ket_anc _ _).mpr fun _ _ => rfl)⟩

theorem reducedEntry_eq_iff (anc g1 g2 : List Bool) (qc1 qc2 : QC n) (ω1 ω2 : Equiv.Perm (Fin n)) :
    reducedEntry anc g1 qc1 ω1 = reducedEntry anc g2 qc2 ω2 ↔ BasisEquivalent anc g1 g2 qc1 ω1 qc2 ω2 := by
  constructor
  · intro h y hy k
    have := congrFun (congrFun h k) y
    unfold reducedEntry at this
    rw [if_pos hy, if_pos hy] at this
    exact (Real.sqrt_inj (reported_nonneg _ _ _) (reported_nonneg _ _ _)).mp this
  · intro h
    funext x y
    unfold reducedEntry
    by_cases hy : AncillasZero anc (ket y : Basis n → ℂ)
    · rw [if_pos hy, if_pos hy, h y hy x]
    · rw [if_neg hy, if_neg hy]

/-- **C62** (construction checker): with partial equivalence switched on, the construction checker answers `Equivalent` exactly for
circuits with the same outcome probabilities on every *basis* state (ancillary qubits `0`), and `NotEquivalent` otherwise.  This is
weaker than the documented definition, see `construction_partial_unsound`. -/
theorem construction_partial_exact (qc1 qc2 : QC n) (ω1 ω2 : Equiv.Perm (Fin n)) (h1 : WellFormed qc1 ω1)
    (h2 : WellFormed qc2 ω2) (T : ExactTests n) (sch) (hs : Configured qc1 qc2 sch) (prev : Criterion)
    (hanc : ∀ q : Fin n, qc1.ancillary.getD q.val false = qc2.ancillary.getD q.val false) :
    ∃ v s, runTwo (exactMatrix n reduceGarbageMat) sch true (equalsMatrix T.ptrEq T.wEq T.close fun e f => e * fᴴ) (fun _ => false) prev
        qc1 qc2 (constructionInit (exactMatrix n reduceGarbageMat) 1 qc1) (constructionInit (exactMatrix n reduceGarbageMat) 1 qc2)
        (qc1.ops.length + qc2.ops.length + 2) = .ok (v, s) ∧
      (v = .equivalent ↔ BasisEquivalent qc1.ancillary qc1.garbage qc2.garbage qc1 ω1 qc2 ω2) ∧
      (v = .notEquivalent ↔ ¬ BasisEquivalent qc1.ancillary qc1.garbage qc2.garbage qc1 ω1 qc2 ω2) := by
  obtain ⟨s, h | h⟩ := runTwo_spec (exactMatrix n reduceGarbageMat) sch true (equalsMatrix T.ptrEq T.wEq T.close fun e f => e * fᴴ)
    (fun _ => false) (fun _ _ _ h => h) prev qc1 qc2
    hs.good (constructionInit (exactMatrix n reduceGarbageMat) 1 qc1) (constructionInit (exactMatrix n reduceGarbageMat) 1 qc2) _
    (Nat.le_refl _)
  · exact absurd h.1 (by simp)
  · obtain ⟨_, hr, _, _, _, _⟩ := h
    refine ⟨_, s, hr, ?_⟩
    rw [construction_reduced qc1 ω1 h1, construction_reduced qc2 ω2 h2]
    have ha : reducedEntry qc2.ancillary qc2.garbage qc2 ω2 = reducedEntry qc1.ancillary qc2.garbage qc2 ω2 := by
      have hz : ∀ y : Basis n, AncillasZero qc2.ancillary (ket y : Basis n → ℂ) ↔ AncillasZero qc1.ancillary (ket y : Basis n → ℂ) := by
        intro y
        rw [ket_anc, ket_anc]
        simp only [hanc]
      funext x y
      unfold reducedEntry
      by_cases hy : AncillasZero qc1.ancillary (ket y : Basis n → ℂ)
      · rw [if_pos hy, if_pos ((hz y).mpr hy)]
      · rw [if_neg hy, if_neg fun h => hy ((hz y).mp h)]
    rw [ha]
    have hcmp := equalsMatrix_comparable T (reduced_comparable qc1.ancillary qc1.garbage qc2.garbage qc1 qc2 ω1 ω2 h1 h2)
    rw [← reducedEntry_eq_iff]
    by_cases he : reducedEntry qc1.ancillary qc1.garbage qc1 ω1 = reducedEntry qc1.ancillary qc2.garbage qc2 ω2
    · have := hcmp.1 he
      rw [this]
      simp [he]
    · have := hcmp.2 he
      rw [this]
      simp [he]

/-- **C62** (construction checker): circuits that are partially equivalent are never refuted by it (same ancillary and garbage qubits). -/
theorem construction_partial_never_refutes (qc1 qc2 : QC n) (ω1 ω2 : Equiv.Perm (Fin n)) (h1 : WellFormed qc1 ω1)
    (h2 : WellFormed qc2 ω2) (T : ExactTests n) (sch) (hs : Configured qc1 qc2 sch) (prev : Criterion)
    (hanc : ∀ q : Fin n, qc1.ancillary.getD q.val false = qc2.ancillary.getD q.val false) (hg : qc1.garbage = qc2.garbage)
    (hp : PartiallyEquivalent qc1.garbage qc1.ancillary qc1 ω1 qc2 ω2) :
    ∃ s, runTwo (exactMatrix n reduceGarbageMat) sch true (equalsMatrix T.ptrEq T.wEq T.close fun e f => e * fᴴ) (fun _ => false) prev
        qc1 qc2 (constructionInit (exactMatrix n reduceGarbageMat) 1 qc1) (constructionInit (exactMatrix n reduceGarbageMat) 1 qc2)
        (qc1.ops.length + qc2.ops.length + 2) = .ok (.equivalent, s) := by
  obtain ⟨v, s, hr, hv, _⟩ := construction_partial_exact qc1 qc2 ω1 ω2 h1 h2 T sch hs prev hanc
  have : v = .equivalent := hv.mpr (hg ▸ partially_basis _ _ _ _ _ _ hp)
  subst this
  exact ⟨s, hr⟩

/-! ## Simulation checker -/

theorem simulation_reduced (qc : QC n) (ω : Equiv.Perm (Fin n)) (h : WellFormed qc ω) (x : Basis n → ℂ) :
    finalObject (exactVector n reduceGarbageVec) true qc x = fun k => ((Real.sqrt (reported qc.garbage (output qc ω x) k) : ℝ) : ℂ) := by
  have : finalObject (exactVector n reduceGarbageVec) true qc x =
      reduceGarbageVec qc.garbage true (finalObject (exactVector n reduceGarbageVec) false qc x) := by
    unfold finalObject
    simp only [if_true, Bool.false_eq_true, if_false]
    rfl
  rw [this, simulation_object reduceGarbageVec h]
  funext k
  exact reduceGarbageVec_eq _ _ _ _

/-- Overlap of two distributions. -/
noncomputable def overlap (p q : Basis n → ℝ) : ℝ := ∑ k, Real.sqrt (p k) * Real.sqrt (q k)

theorem inner_sqrt (p q : Basis n → ℝ) :
    inner (fun k => ((Real.sqrt (p k) : ℝ) : ℂ)) (fun k => ((Real.sqrt (q k) : ℝ) : ℂ)) = ((overlap p q : ℝ) : ℂ) := by
  unfold inner overlap
  rw [Complex.ofReal_sum]
  refine Finset.sum_congr rfl fun k _ => ?_
  rw [Complex.star_def, Complex.conj_ofReal]
  push_cast
  rfl

theorem distance_overlap {p q : Basis n → ℝ} (hp : ∀ k, 0 ≤ p k) (hq : ∀ k, 0 ≤ q k) (sp : ∑ k, p k = 1) (sq : ∑ k, q k = 1) :
    ∑ k, (Real.sqrt (p k) - Real.sqrt (q k)) ^ 2 = 2 * (1 - overlap p q) := by
  have : ∀ k, (Real.sqrt (p k) - Real.sqrt (q k)) ^ 2 = p k + q k - 2 * (Real.sqrt (p k) * Real.sqrt (q k)) := by
    intro k
    have a := Real.sq_sqrt (hp k)
    have b := Real.sq_sqrt (hq k)
    nlinarith
  simp only [this]
  rw [Finset.sum_sub_distrib, Finset.sum_add_distrib, sp, sq, ← Finset.mul_sum]
  unfold overlap
  ring

theorem outcome_distance {p q : Basis n → ℝ} (hp : ∀ k, 0 ≤ p k) (hq : ∀ k, 0 ≤ q k) (sp : ∑ k, p k = 1) (sq : ∑ k, q k = 1)
    {t : ℝ} (h : 1 - overlap p q ≤ t) (k : Basis n) : |p k - q k| ≤ 2 * Real.sqrt (2 * t) := by
  have le1 : ∀ {p : Basis n → ℝ}, (∀ k, 0 ≤ p k) → ∑ k, p k = 1 → Real.sqrt (p k) ≤ 1 := by
    intro p hp sp
    rw [Real.sqrt_le_one]
    rw [← sp]
    exact Finset.single_le_sum (fun k _ => hp k) (Finset.mem_univ k)
  have hd : (Real.sqrt (p k) - Real.sqrt (q k)) ^ 2 ≤ 2 * t := by
    have h1 : (Real.sqrt (p k) - Real.sqrt (q k)) ^ 2 ≤ ∑ k, (Real.sqrt (p k) - Real.sqrt (q k)) ^ 2 :=
      Finset.single_le_sum (f := fun k => (Real.sqrt (p k) - Real.sqrt (q k)) ^ 2) (fun k _ => sq_nonneg _) (Finset.mem_univ k)
    rw [distance_overlap hp hq sp sq] at h1
    linarith
  have hs : |Real.sqrt (p k) - Real.sqrt (q k)| ≤ Real.sqrt (2 * t) := Real.abs_le_sqrt hd
  have e : p k - q k = (Real.sqrt (p k) - Real.sqrt (q k)) * (Real.sqrt (p k) + Real.sqrt (q k)) := by
    have a := Real.sq_sqrt (hp k)
    have b := Real.sq_sqrt (hq k)
    nlinarith
  rw [e, abs_mul, mul_comm]
  have h2 : |Real.sqrt (p k) + Real.sqrt (q k)| ≤ 2 := by
    rw [abs_of_nonneg (add_nonneg (Real.sqrt_nonneg _) (Real.sqrt_nonneg _))]
    linarith [le1 hp sp, le1 hq sq]
  exact mul_le_mul h2 hs (abs_nonneg _) (by norm_num)

theorem reported_sum (g : List Bool) (qc : QC n) (ω : Equiv.Perm (Fin n)) (h : WellFormed qc ω) {x : Basis n → ℂ} (hx : Normalised x) :
    ∑ k, reported g (output qc ω x) k = 1 := by
  rw [sum_reported]
  exact norm_sum_normalised.mp (output_normalised qc ω h.ops x hx)

/-- **C62** (simulation checker): with partial equivalence switched on, for every normalised stimulus and every scheme,
* a `NotEquivalent` is real: the two circuits differ in the probability of some outcome on this stimulus;
* otherwise no outcome probability differs by more than `2·√(2·threshold)` on this stimulus.
(Each circuit's own garbage qubits are reported as `0`.) -/
theorem simulation_partial_meaning (qc1 qc2 : QC n) (ω1 ω2 : Equiv.Perm (Fin n)) (h1 : WellFormed qc1 ω1)
    (h2 : WellFormed qc2 ω2) (V : VectorTests n) (hthr : 0 < V.threshold) (sch) (hs : Configured qc1 qc2 sch) (prev : Criterion)
    (x : Basis n → ℂ) (hx : Normalised x) :
    ∃ v s, runTwo (exactVector n reduceGarbageVec) sch true (equalsVector V.ptrEq V.wEq V.realClose V.fidClose) (fun _ => false) prev
        qc1 qc2 x x (qc1.ops.length + qc2.ops.length + 2) = .ok (v, s) ∧
      (v = .notEquivalent → ∃ k, reported qc1.garbage (output qc1 ω1 x) k ≠ reported qc2.garbage (output qc2 ω2 x) k) ∧
      (v ≠ .notEquivalent → ∀ k,
        |reported qc1.garbage (output qc1 ω1 x) k - reported qc2.garbage (output qc2 ω2 x) k| ≤ 2 * Real.sqrt (2 * V.threshold)) ∧
      (v = .equivalent ∨ v = .equivalentUpToPhase ∨ v = .notEquivalent) := by
  obtain ⟨s, h | h⟩ := runTwo_spec (exactVector n reduceGarbageVec) sch true (equalsVector V.ptrEq V.wEq V.realClose V.fidClose)
    (fun _ => false) (fun _ _ _ h => h) prev qc1 qc2 hs.good x x _ (Nat.le_refl _)
  · exact absurd h.1 (by simp)
  · obtain ⟨_, hr, _, _, _, _⟩ := h
    refine ⟨_, s, hr, ?_⟩
    rw [simulation_reduced qc1 ω1 h1, simulation_reduced qc2 ω2 h2]
    have np := fun k => reported_nonneg qc1.garbage (output qc1 ω1 x) k
    have nq := fun k => reported_nonneg qc2.garbage (output qc2 ω2 x) k
    have sp := reported_sum qc1.garbage qc1 ω1 h1 hx
    have sq := reported_sum qc2.garbage qc2 ω2 h2 hx
    generalize reported qc1.garbage (output qc1 ω1 x) = p at *
    generalize reported qc2.garbage (output qc2 ω2 x) = q at *
    have hin := inner_sqrt p q
    have o0 : 0 ≤ overlap p q := Finset.sum_nonneg fun k _ => mul_nonneg (Real.sqrt_nonneg _) (Real.sqrt_nonneg _)
    have o1 : overlap p q ≤ 1 := by
      have := distance_overlap np nq sp sq
      have h0 : 0 ≤ ∑ k, (Real.sqrt (p k) - Real.sqrt (q k)) ^ 2 := Finset.sum_nonneg fun k _ => sq_nonneg _
      linarith
    have prop : ∀ c : ℂ, (fun k => ((Real.sqrt (p k) : ℝ) : ℂ)) = c • (fun k => ((Real.sqrt (q k) : ℝ) : ℂ)) → p = q := by
      intro c hc
      have entry : ∀ k, ((Real.sqrt (p k) : ℝ) : ℂ) = c * ((Real.sqrt (q k) : ℝ) : ℂ) := by
        intro k
        have := congrFun hc k
        simpa using this
      have hnorm : ∀ k, p k = ‖c‖ ^ 2 * q k := by
        intro k
        have := congrArg (fun z : ℂ => ‖z‖ ^ 2) (entry k)
        simp only [norm_mul, mul_pow, Complex.norm_real, Real.norm_eq_abs, sq_abs, Real.sq_sqrt (np k), Real.sq_sqrt (nq k)] at this
        exact this
      have h1 : ‖c‖ ^ 2 = 1 := by
        rw [← sp]
        simp only [hnorm]
        rw [← Finset.mul_sum, sq, mul_one]
      funext k
      rw [hnorm, h1, one_mul]
    have same : p = q → ∀ k, |p k - q k| ≤ 2 * Real.sqrt (2 * V.threshold) := by
      rintro rfl k
      rw [sub_self, abs_zero]
      positivity
    unfold equalsVector
    split
    · rename_i hp
      obtain ⟨c, _, hc⟩ := V.ptrEq_sound _ _ hp
      have e := prop c hc
      split
      · exact ⟨by simp, fun _ => same e, by simp⟩
      · exact ⟨by simp, fun _ => same e, by simp⟩
    · split
      · rename_i hre
        rw [V.realClose_iff, hin, Complex.ofReal_re] at hre
        refine ⟨by simp, fun _ k => outcome_distance np nq sp sq (by rw [abs_lt] at hre; linarith [hre.1]) k, by simp⟩
      · split
        · rename_i hre hfid
          rw [V.fidClose_iff, hin, Complex.ofReal_re, Complex.ofReal_im] at hfid
          refine ⟨by simp, fun _ k => outcome_distance np nq sp sq ?_ k, by simp⟩
          rw [abs_lt] at hfid
          nlinarith [hfid.1]
        · rename_i hre hfid
          refine ⟨fun _ => ?_, by simp, by simp⟩
          by_contra hn
          push Not at hn
          have e : p = q := funext hn
          subst e
          apply hre
          rw [V.realClose_iff, hin, Complex.ofReal_re]
          have : overlap p p = 1 := by
            unfold overlap
            simp only [Real.mul_self_sqrt (np _)]
            exact sp
          rw [this, sub_self, abs_zero]
          exact hthr

/-- **C62** (simulation checker): partially equivalent circuits with the same garbage qubits are never refuted by a simulation. -/
theorem simulation_partial_never_refutes (qc1 qc2 : QC n) (ω1 ω2 : Equiv.Perm (Fin n)) (h1 : WellFormed qc1 ω1)
    (h2 : WellFormed qc2 ω2) (V : VectorTests n) (hthr : 0 < V.threshold) (sch) (hs : Configured qc1 qc2 sch) (prev : Criterion)
    (x : Basis n → ℂ) (hx : Normalised x) (anc : List Bool) (ha : AncillasZero anc x) (hg : qc1.garbage = qc2.garbage)
    (hp : PartiallyEquivalent qc1.garbage anc qc1 ω1 qc2 ω2) :
    ∃ v s, runTwo (exactVector n reduceGarbageVec) sch true (equalsVector V.ptrEq V.wEq V.realClose V.fidClose) (fun _ => false) prev
        qc1 qc2 x x (qc1.ops.length + qc2.ops.length + 2) = .ok (v, s) ∧ v ≠ .notEquivalent := by
  obtain ⟨v, s, hr, hv, _⟩ := simulation_partial_meaning qc1 qc2 ω1 ω2 h1 h2 V hthr sch hs prev x hx
  refine ⟨v, s, hr, fun hne => ?_⟩
  obtain ⟨k, hk⟩ := hv hne
  apply hk
  rw [← hg]
  unfold reported
  rw [hp x ha k]

end QCEC.Props
