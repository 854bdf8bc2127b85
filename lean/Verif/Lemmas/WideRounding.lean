import Verif.Spec.VerifyRounding
import Verif.Lemmas.WidePartial
import Verif.Props.PreparationPartial
/-!
# Lemmas: preparing the circuits does not change how far apart they are
-/
namespace QCEC.Wide
open QCEC QCEC.Prep QCEC.Spec QCEC.Spec.Wide QCEC.Sem QCEC.Props

variable {acts : WOp → Nat → Bool} {R : List Nat} {c r c2 r2 : Circ WOp} {n : Nat}

theorem size_probability (N : Nat) (w : Bits → ℂ) (z : Bits) : size N w z = Real.sqrt (probability N (fun _ => False) w z) := by
  unfold size probability
  simp

theorem size_nonneg (N : Nat) (w : Bits → ℂ) (z : Bits) : 0 ≤ size N w z := Real.sqrt_nonneg _

theorem probability_nonneg (N : Nat) (M : Nat → Prop) (w : Bits → ℂ) (z : Bits) : 0 ≤ probability N M w z := by
  unfold probability
  refine Finset.sum_nonneg fun y _ => ?_
  split
  · positivity
  · exact le_refl _

theorem size_le_iff {N : Nat} {w v : Bits → ℂ} {z : Bits} {e : ℝ} (he : 0 ≤ e) :
    size N w z ≤ e * size N v z ↔ probability N (fun _ => False) w z ≤ e ^ 2 * probability N (fun _ => False) v z := by
  rw [size_probability, size_probability]
  have h1 := probability_nonneg N (fun _ => False) w z
  have h2 := probability_nonneg N (fun _ => False) v z
  constructor
  · intro h
    have := mul_self_le_mul_self (Real.sqrt_nonneg _) h
    rw [Real.mul_self_sqrt h1, mul_mul_mul_comm, Real.mul_self_sqrt h2] at this
    rwa [sq]
  · intro h
    rw [show e * Real.sqrt (probability N (fun _ => False) v z) = Real.sqrt (e ^ 2 * probability N (fun _ => False) v z) by
      rw [Real.sqrt_mul (sq_nonneg e), Real.sqrt_sq he]]
    exact Real.sqrt_le_sqrt h

/-- Circuits without their idle qubits are within a distance only if the given ones are. -/
theorem within_stripped (hacts : Reliable acts) (hc : Runnable c) (hc2 : Runnable c2) (h : Stripped acts R c r)
    (h2 : Stripped acts R c2 r2) (hr : CircOk r) (hr2 : CircOk r2) {F F' : Nat → Prop}
    (hF : ∀ {q}, q ∉ R → (F' (newIndex R q) ↔ F q)) {e : ℝ} (he0 : 0 ≤ e) {k : ℂ} (he : Within F' e k r r2) : Within F e k c c2 := by
  intro v hz z
  rw [size_le_iff he0, probability_split (R := R), probability_split (R := R), Finset.mul_sum]
  refine Finset.sum_le_sum fun b _ => ?_
  split
  · have e0 : (fun _ : Nat => False) ∘ oldIndex R = fun _ => False := rfl
    rw [e0, max_stripped h h2]
    have e1 : (fun x' => (fun x => Wide.output c v x - k * Wide.output c2 v x) (merge R (fill b z) x')) =
        fun x' => Wide.output r (restrictIn R v (fill b z)) x' - k * Wide.output r2 (restrictIn R v (fill b z)) x' := by
      funext x'
      beta_reduce
      rw [output_stripped hacts hc hr h, output_stripped hacts hc2 hr2 h2, merge_old, restrictIn_merge]
    rw [e1]
    refine (size_le_iff he0).1 (he (restrictIn R v (fill b z)) ?_ (z ∘ oldIndex R))
    intro y' hy' q' hq'
    have := hz _ hy' (oldIndex R q') ((hF (oldIndex_kept R q')).1 (by rwa [newIndex_oldIndex]))
    rwa [if_neg (oldIndex_kept R q'), newIndex_oldIndex] at this
  · rw [mul_zero]

theorem within_congr {c1 c2 r1 r2 : Circ WOp} (h1 : ∀ v x, Wide.output r1 v x = Wide.output c1 v x) (h2 : ∀ v x, Wide.output r2 v x = Wide.output c2 v x)
    {F F' : Nat → Prop} (hf : ∀ q, F' q ↔ F q) (hw : max r1.nqubits r2.nqubits = max c1.nqubits c2.nqubits) {e : ℝ} {k : ℂ}
    (h : Within F' e k r1 r2) : Within F e k c1 c2 := by
  have e1 : Wide.output r1 = Wide.output c1 := funext fun v => funext fun x => h1 v x
  have e2 : Wide.output r2 = Wide.output c2 := funext fun v => funext fun x => h2 v x
  have e3 : F' = F := funext fun q => propext (hf q)
  unfold Within at h ⊢
  rwa [e1, e2, e3, hw] at h

/-- Circuits are within a distance if their counted versions are. -/
theorem within_numbered {e1 e2 : Nat → Fin n} {c1 c2 : Circ WOp} {qc1 qc2 : QC n} (hc1 : Wired c1) (hc2 : Wired c2)
    (h1 : Numbered e1 c1 qc1) (h2 : Numbered e2 c2 qc2) (anc : List Bool) {F : Nat → Prop}
    (ha : ∀ q, q < n → (anc.getD q false = true ↔ F q)) {d : ℝ} {k : ℂ}
    (h : OutputsWithinOn anc d k qc1 (finalLabels qc1) qc2 (finalLabels qc2)) : Within F d k c1 c2 := by
  intro v hz z
  have hmax : max c1.nqubits c2.nqubits = n := by rw [h1.width, h2.width, Nat.max_self]
  rw [hmax]
  have hv : AncillasZero anc (fun y : Basis n => v (join y z)) := by
    intro y hy q hq
    have := hz _ hy q.val ((ha q.val q.isLt).1 hq)
    unfold join at this
    rwa [dif_pos q.isLt] at this
  have := h _ hv
  have e0 : ∀ w : Bits → ℂ, size n w z = nrm (fun y : Basis n => w (join y z)) := by
    intro w
    unfold size nrm
    congr 1
    refine Finset.sum_congr rfl fun y _ => ?_
    rw [Complex.normSq_eq_norm_sq, fill_eq_join]
  rw [e0, e0]
  refine le_of_eq_of_le ?_ this
  congr 1
  funext y
  rw [output_numbered hc1 h1, output_numbered hc2 h2, low_join]
  have e1 : (fun y' => v (join y' (join y z))) = fun y' => v (join y' z) := funext fun y' => by rw [join_join]
  rw [e1]
  simp

theorem within_prepared (hacts : Reliable acts) {cfg : Configuration} {c1 c2 : Circ WOp} (h1 : Runnable c1)
    (h2 : Runnable c2) {m : Made WOp} (h : prepare acts cfg (c1, c2) = .made m) {F : Circ WOp → Circ WOp → Nat → Prop} (hF : Stable F)
    {e : ℝ} (he : 0 ≤ e) {k : ℂ} (hw : Within (F m.qc1 m.qc2) e k m.qc1 m.qc2) : Within (F c1 c2) e k c1 c2 := by
  obtain ⟨s1, s2, g1, g2, _⟩ := prepare_made h
  obtain ⟨R, t1, t2, g0, hR, k1, k2, ok1, ok2⟩ := strip_idle_qubits acts h1.ok h2.ok
  rw [g1] at g0
  cases g0
  refine within_stripped hacts h1 h2 k1 k2 ok1 ok2 (F := F c1 c2) (F' := F s1 s2) (fun hq => hF.stripped h1.ok h2.ok k1 k2 ok1 ok2 hq) he ?_
  have r1 := runnable_stripped hacts h1 ok1 k1
  have r2 := runnable_stripped hacts h2 ok2 k2
  obtain ⟨_, _, w1, w2, o1, o2, _, _⟩ := setup_preserves r1 r2 g2
  obtain ⟨u1, u2, g3, _, _, ga, gb⟩ := setup_ancillaries ok1 ok2
  rw [g2] at g3
  cases g3
  refine within_congr o1 o2 ?_ (by rw [w1, w2, Nat.max_self]) hw
  intro q
  by_cases hn : s1.nqubits > s2.nqubits
  · obtain ⟨hs, hp⟩ := ga hn
    exact (hF.comm q).trans ((hF.setup (by omega) hp hs q).trans (hF.comm q))
  · obtain ⟨hp, hs⟩ := gb (by omega)
    exact hF.setup (by omega) hp hs q

/-- **If the circuits the manager keeps are within a distance, so are the circuits handed to it.** -/
theorem within_constructed (hacts : Reliable acts) {P : Passes (Circ WOp)} {cfg : Configuration}
    {c1 c2 : Circ WOp} (h1 : Runnable c1) (h2 : Runnable c2) (hP : ∀ p ∈ planned cfg.optimizations true, Faithful P p) {m : Made WOp}
    (h : Prep.construct acts P cfg c1 c2 = .made m) {F : Circ WOp → Circ WOp → Nat → Prop} (hF : Stable F)
    {e : ℝ} (he : 0 ≤ e) {k : ℂ} (hw : Within (F m.qc1 m.qc2) e k m.qc1 m.qc2) : Within (F c1 c2) e k c1 c2 := by
  have sub : ∀ d, ∀ p ∈ planned cfg.optimizations d, Faithful P p := by
    intro d p hp
    refine hP p ?_
    cases d
    · simp only [planned, Bool.false_eq_true, if_false, List.nil_append] at hp
      simp only [planned, if_true]
      exact List.mem_append_right _ hp
    · exact hp
  unfold Prep.construct at h
  split at h
  · rw [passes_exact] at h
    by_cases he' : P.empty c1 = true ∧ P.empty c2 = true
    · rw [if_pos he'] at h
      exact within_prepared hacts h1 h2 h hF he hw
    · rw [if_neg he'] at h
      by_cases hd : (P.dynamic c1 = true ∨ P.dynamic c2 = true) ∧ cfg.optimizations.transformDynamicCircuit = false
      · rw [if_pos hd] at h
        exact absurd h (by simp)
      · rw [if_neg hd] at h
        obtain ⟨a1, a2, a3, a4⟩ := faithful_list _ (sub (P.dynamic c1)) c1 h1
        obtain ⟨b1, b2, b3, b4⟩ := faithful_list _ (sub (P.dynamic c2)) c2 h2
        exact within_congr a4 b4 (hF.congr a2 b2 a3 b3) (by rw [a2, b2]) (within_prepared hacts a1 b1 h hF he hw)
  · exact within_prepared hacts h1 h2 h hF he hw

end QCEC.Wide
