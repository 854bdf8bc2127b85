import Verif.Spec.VerifyRoundingPartial
import Verif.Lemmas.WideRounding
import Verif.Lemmas.RoundingPartial
/-!
# Lemmas: preparing the circuits does not change how far apart the probabilities of visible events are
-/
namespace QCEC.Wide
open QCEC QCEC.Prep QCEC.Spec QCEC.Spec.Wide QCEC.Sem QCEC.Props

variable {acts : WOp → Nat → Bool} {R : List Nat} {c r c2 r2 : Circ WOp} {n : Nat}

open Classical in
theorem chance_probability (N : Nat) (A : Set Bits) (w : Bits → ℂ) (z : Bits) :
    chance N A w z = probability N (fun _ => False) (fun x => if x ∈ A then w x else 0) z := by
  unfold chance probability
  refine Finset.sum_congr rfl fun y _ => ?_
  rw [if_pos fun _ h => h.elim]
  by_cases hA : fill y z ∈ A <;> simp [hA]

theorem size_sq (N : Nat) (w : Bits → ℂ) (z : Bits) : size N w z ^ 2 = probability N (fun _ => False) w z := by
  rw [size_probability, Real.sq_sqrt (probability_nonneg _ _ _ _)]

theorem near_stripped (hacts : Reliable acts) (hc : Runnable c) (hc2 : Runnable c2) (h : Stripped acts R c r)
    (h2 : Stripped acts R c2 r2) (hr : CircOk r) (hr2 : CircOk r2) {F F' : Nat → Prop}
    (hF : ∀ {q}, q ∉ R → (F' (newIndex R q) ↔ F q)) {e : ℝ} (he : PartiallyNear F' e r r2) : PartiallyNear F e c c2 := by
  classical
  intro v hz A hA z
  rw [chance_probability, chance_probability, size_sq, probability_split (R := R), probability_split (R := R), probability_split (R := R),
    ← Finset.sum_sub_distrib, Finset.mul_sum]
  refine le_trans (Finset.abs_sum_le_sum_abs _ _) (Finset.sum_le_sum fun b _ => ?_)
  split
  · have e0 : (fun _ : Nat => False) ∘ oldIndex R = fun _ => False := rfl
    rw [e0, max_stripped h h2]
    let A' : Set Bits := {x' | merge R (fill b z) x' ∈ A}
    have hA' : Visible (max r.nqubits r2.nqubits) (Measured r r2) A' := by
      intro x' y' hxy
      refine hA _ _ fun q hq => ?_
      unfold merge
      by_cases hR : q ∈ R
      · rw [if_pos hR, if_pos hR]
      · rw [if_neg hR, if_neg hR]
        refine hxy _ ?_
        rcases hq with hq | hq
        · exact Or.inl ((measured_stripped hc.ok hc2.ok h h2 hR).2 hq)
        · refine Or.inr ?_
          rw [← max_stripped h h2]
          exact newIndex_mono R hq
    have e1 : ∀ (k : Circ WOp) (k' : Circ WOp), (∀ x', Wide.output k v (merge R (fill b z) x') = Wide.output k' (restrictIn R v (fill b z)) x') →
        (fun x' => (fun x => if x ∈ A then Wide.output k v x else 0) (merge R (fill b z) x')) =
          fun x' => if x' ∈ A' then Wide.output k' (restrictIn R v (fill b z)) x' else 0 := by
      intro k k' hk
      funext x'
      beta_reduce
      rw [hk x']
      rfl
    have k1 := e1 c r fun x' => by rw [output_stripped hacts hc hr h, merge_old, restrictIn_merge]
    have k2 := e1 c2 r2 fun x' => by rw [output_stripped hacts hc2 hr2 h2, merge_old, restrictIn_merge]
    rw [k1, k2, ← chance_probability, ← chance_probability, ← size_sq]
    refine he (restrictIn R v (fill b z)) ?_ A' hA' (z ∘ oldIndex R)
    intro y' hy' q' hq'
    have := hz _ hy' (oldIndex R q') ((hF (oldIndex_kept R q')).1 (by rwa [newIndex_oldIndex]))
    rwa [if_neg (oldIndex_kept R q'), newIndex_oldIndex] at this
  · simp

theorem near_congr {c1 c2 r1 r2 : Circ WOp} (h1 : ∀ v x, Wide.output r1 v x = Wide.output c1 v x) (h2 : ∀ v x, Wide.output r2 v x = Wide.output c2 v x)
    {F F' : Nat → Prop} (hf : ∀ q, F' q ↔ F q) (hm : ∀ q, Measured r1 r2 q ↔ Measured c1 c2 q)
    (hw : max r1.nqubits r2.nqubits = max c1.nqubits c2.nqubits) {e : ℝ} (h : PartiallyNear F' e r1 r2) : PartiallyNear F e c1 c2 := by
  have e1 : Wide.output r1 = Wide.output c1 := funext fun v => funext fun x => h1 v x
  have e2 : Wide.output r2 = Wide.output c2 := funext fun v => funext fun x => h2 v x
  have e3 : F' = F := funext fun q => propext (hf q)
  have e4 : Measured r1 r2 = Measured c1 c2 := funext fun q => propext (hm q)
  unfold PartiallyNear at h ⊢
  rwa [e1, e2, e3, e4, hw] at h

/-- Also for inputs that are not normalised. -/
theorem partiallyWithin_scaled {e : ℝ} {g anc : List Bool} {qc1 qc2 : QC n} {ω1 ω2 : Equiv.Perm (Fin n)} (h : PartiallyWithin e g anc qc1 ω1 qc2 ω2)
    {v : Basis n → ℂ} (hv : AncillasZero anc v) {A : Finset (Basis n)} (hA : Observable g A) :
    |likelihood A (Spec.output qc1 ω1 v) - likelihood A (Spec.output qc2 ω2 v)| ≤ e * nrm v ^ 2 := by
  by_cases h0 : nrm v = 0
  · have hv0 : v = fun _ => 0 := by
      funext x
      have : Complex.normSq (v x) = 0 := by
        unfold nrm at h0
        rw [Real.sqrt_eq_zero (Finset.sum_nonneg fun x _ => Complex.normSq_nonneg _)] at h0
        exact (Finset.sum_eq_zero_iff_of_nonneg fun x _ => Complex.normSq_nonneg _).1 h0 x (Finset.mem_univ _)
      exact Complex.normSq_eq_zero.1 this
    rw [hv0, finite_output_zero, finite_output_zero, sub_self, abs_zero, ← hv0, h0]
    simp
  · have hp : 0 < nrm v := lt_of_le_of_ne (nrm_nonneg v) (Ne.symm h0)
    let u : Basis n → ℂ := ((nrm v : ℂ)⁻¹) • v
    have hvu : v = (nrm v : ℂ) • u := by
      simp only [u, smul_smul]
      rw [mul_inv_cancel₀ (by exact_mod_cast h0), one_smul]
    have hu : Normalised u := by
      have hn : nrm u = 1 := by
        simp only [u]
        rw [nrm_smul, norm_inv, Complex.norm_real, Real.norm_eq_abs, abs_of_pos hp, inv_mul_cancel₀ h0]
      unfold nrm at hn
      unfold Normalised
      have := Real.sqrt_eq_one.1 hn
      unfold Spec.inner
      have e : ∀ x, star (u x) * u x = ((Complex.normSq (u x) : ℝ) : ℂ) := fun x => by
        rw [Complex.star_def, mul_comm, Complex.mul_conj]
      simp only [e]
      exact_mod_cast this
    have hz : AncillasZero anc u := fun x hx q hq => hv x (fun h0 => hx (by simp [u, h0])) q hq
    have key := h u hz hu A hA
    have scale : ∀ (qc : QC n) (ω : Equiv.Perm (Fin n)), likelihood A (Spec.output qc ω v) = nrm v ^ 2 * likelihood A (Spec.output qc ω u) := by
      intro qc ω
      conv_lhs => rw [hvu]
      rw [output_eq, Matrix.mulVec_smul, ← output_eq]
      unfold likelihood
      rw [Finset.mul_sum]
      refine Finset.sum_congr rfl fun x _ => ?_
      rw [Pi.smul_apply, smul_eq_mul, norm_mul, mul_pow, Complex.norm_real, Real.norm_eq_abs, sq_abs]
    rw [scale, scale, ← mul_sub, abs_mul, abs_of_nonneg (sq_nonneg _), mul_comm e]
    exact mul_le_mul_of_nonneg_left key (sq_nonneg _)

/-- Visible events are about as likely for the two circuits if they are for their counted versions. -/
theorem near_numbered {e1 e2 : Nat → Fin n} {c1 c2 : Circ WOp} {qc1 qc2 : QC n} (hc1 : Wired c1) (hc2 : Wired c2)
    (h1 : Numbered e1 c1 qc1) (h2 : Numbered e2 c2 qc2) (g anc : List Bool) {F : Nat → Prop}
    (ha : ∀ q, q < n → (anc.getD q false = true ↔ F q)) (hg : ∀ q : Fin n, Measured c1 c2 q.val ↔ g.getD q.val false = false) {d : ℝ}
    (h : PartiallyWithin d g anc qc1 (finalLabels qc1) qc2 (finalLabels qc2)) : PartiallyNear F d c1 c2 := by
  classical
  intro v hz A hA z
  have hmax : max c1.nqubits c2.nqubits = n := by rw [h1.width, h2.width, Nat.max_self]
  rw [hmax] at hA ⊢
  have hv : AncillasZero anc (fun y : Basis n => v (join y z)) := by
    intro y hy q hq
    have := hz _ hy q.val ((ha q.val q.isLt).1 hq)
    unfold join at this
    rwa [dif_pos q.isLt] at this
  let A' : Finset (Basis n) := Finset.univ.filter fun y => join y z ∈ A
  have hA' : Observable g A' := by
    intro x y hxy
    simp only [A', Finset.mem_filter, Finset.mem_univ, true_and]
    refine hA _ _ fun q hq => ?_
    unfold join
    by_cases hl : q < n
    · rw [dif_pos hl, dif_pos hl]
      rcases hq with hq | hq
      · exact hxy ⟨q, hl⟩ ((hg ⟨q, hl⟩).1 hq)
      · omega
    · rw [dif_neg hl, dif_neg hl]
  have key := partiallyWithin_scaled h hv hA'
  have e0 : size n v z = nrm (fun y : Basis n => v (join y z)) := by
    unfold size nrm
    congr 1
    refine Finset.sum_congr rfl fun y _ => ?_
    rw [Complex.normSq_eq_norm_sq, fill_eq_join]
  have ev : ∀ {c : Circ WOp} {qc : QC n} {e : Nat → Fin n}, Wired c → Numbered e c qc →
      chance n A (Wide.output c v) z = likelihood A' (Spec.output qc (finalLabels qc) fun y => v (join y z)) := by
    intro c qc e hc hn
    unfold chance likelihood
    simp only [A', Finset.sum_filter]
    refine Finset.sum_congr rfl fun y _ => ?_
    have e1 : (fun y' => v (join y' (join y z))) = fun y' => v (join y' z) := funext fun y' => by rw [join_join]
    rw [fill_eq_join, output_numbered hc hn, low_join, e1]
  rw [ev hc1 h1, ev hc2 h2, e0]
  exact key

theorem near_prepared (hacts : Reliable acts) {cfg : Configuration} {c1 c2 : Circ WOp} (h1 : Runnable c1)
    (h2 : Runnable c2) {m : Made WOp} (h : prepare acts cfg (c1, c2) = .made m) {F : Circ WOp → Circ WOp → Nat → Prop} (hF : Stable F)
    {e : ℝ} (hw : PartiallyNear (F m.qc1 m.qc2) e m.qc1 m.qc2) : PartiallyNear (F c1 c2) e c1 c2 := by
  obtain ⟨s1, s2, g1, g2, _⟩ := prepare_made h
  obtain ⟨R, t1, t2, g0, hR, k1, k2, ok1, ok2⟩ := strip_idle_qubits acts h1.ok h2.ok
  rw [g1] at g0
  cases g0
  refine near_stripped hacts h1 h2 k1 k2 ok1 ok2 (F := F c1 c2) (F' := F s1 s2) (fun hq => hF.stripped h1.ok h2.ok k1 k2 ok1 ok2 hq) ?_
  have r1 := runnable_stripped hacts h1 ok1 k1
  have r2 := runnable_stripped hacts h2 ok2 k2
  obtain ⟨_, _, w1, w2, o1, o2, _, _⟩ := setup_preserves r1 r2 g2
  obtain ⟨u1, u2, g3, _, _, ga, gb⟩ := setup_ancillaries ok1 ok2
  rw [g2] at g3
  cases g3
  refine near_congr o1 o2 ?_ ?_ (by rw [w1, w2, Nat.max_self]) hw
  · intro q
    by_cases hn : s1.nqubits > s2.nqubits
    · obtain ⟨hs, hp⟩ := ga hn
      exact (hF.comm q).trans ((hF.setup (by omega) hp hs q).trans (hF.comm q))
    · obtain ⟨hp, hs⟩ := gb (by omega)
      exact hF.setup (by omega) hp hs q
  · intro q
    by_cases hn : s1.nqubits > s2.nqubits
    · obtain ⟨hs, hp⟩ := ga hn
      exact (measured_comm q).trans ((measured_setup ok1 (by omega) hp hs q).trans (measured_comm q))
    · obtain ⟨hp, hs⟩ := gb (by omega)
      exact measured_setup ok2 (by omega) hp hs q

/-- **If visible events are about as likely for the circuits the manager keeps, so are they for the circuits handed to it.** -/
theorem near_constructed (hacts : Reliable acts) {P : Passes (Circ WOp)} {cfg : Configuration}
    {c1 c2 : Circ WOp} (h1 : Runnable c1) (h2 : Runnable c2) (hP : ∀ p ∈ planned cfg.optimizations true, Faithful P p ∧ KeepsGarbage P p) {m : Made WOp}
    (h : Prep.construct acts P cfg c1 c2 = .made m) {F : Circ WOp → Circ WOp → Nat → Prop} (hF : Stable F)
    {e : ℝ} (hw : PartiallyNear (F m.qc1 m.qc2) e m.qc1 m.qc2) : PartiallyNear (F c1 c2) e c1 c2 := by
  have sub : ∀ d, ∀ p ∈ planned cfg.optimizations d, Faithful P p ∧ KeepsGarbage P p := by
    intro d p hp
    refine hP p ?_
    cases d
    · simp only [planned, Bool.false_eq_true, if_false, List.nil_append] at hp
      simp only [planned, if_true]
      exact List.mem_append_right _ hp
    · exact hp
  unfold Prep.construct at h
  split at h
  · rw [passes_exact] at h
    by_cases he' : P.empty c1 = true ∧ P.empty c2 = true
    · rw [if_pos he'] at h
      exact near_prepared hacts h1 h2 h hF hw
    · rw [if_neg he'] at h
      by_cases hd : (P.dynamic c1 = true ∨ P.dynamic c2 = true) ∧ cfg.optimizations.transformDynamicCircuit = false
      · rw [if_pos hd] at h
        exact absurd h (by simp)
      · rw [if_neg hd] at h
        obtain ⟨a1, a2, a3, a4⟩ := faithful_list _ (fun p hp => (sub (P.dynamic c1) p hp).1) c1 h1
        obtain ⟨b1, b2, b3, b4⟩ := faithful_list _ (fun p hp => (sub (P.dynamic c2) p hp).1) c2 h2
        have ag := garbage_list _ (sub (P.dynamic c1)) c1 h1
        have bg := garbage_list _ (sub (P.dynamic c2)) c2 h2
        refine near_congr a4 b4 (hF.congr a2 b2 a3 b3) ?_ (by rw [a2, b2]) (near_prepared hacts a1 b1 h hF hw)
        intro q
        unfold Measured Reads
        rw [a2, b2, (ag q).1, (bg q).1, (ag q).2, (bg q).2]
  · exact near_prepared hacts h1 h2 h hF hw

end QCEC.Wide
