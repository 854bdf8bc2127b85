import Verif.Spec.RoundingPartial
import Verif.Lemmas.RoundingProj
import Verif.Lemmas.Garbage
import Verif.Props.Rounding
/-!
# Helper lemmas: garbage qubits and rounding errors
-/
namespace QCEC.Sem
open QCEC QCEC.DD QCEC.Spec QCEC.Props Matrix

variable {n : Nat}

/-! ## Events -/

theorem likelihood_nrm (A : Finset (Basis n)) (v : Basis n → ℂ) : likelihood A v = nrm ((indic A).mulVec v) ^ 2 := by
  unfold nrm
  rw [Real.sq_sqrt (Finset.sum_nonneg fun x _ => Complex.normSq_nonneg _)]
  unfold likelihood indic
  rw [← Finset.sum_subset (Finset.subset_univ A)]
  · refine Finset.sum_congr rfl fun x hx => ?_
    rw [Matrix.mulVec_diagonal, if_pos hx, one_mul, Complex.normSq_eq_norm_sq]
  · intro x _ hx
    rw [Matrix.mulVec_diagonal, if_neg hx, zero_mul, Complex.normSq_zero]

theorem likelihood_sum (g : List Bool) (A : Finset (Basis n)) (hA : Observable g A) (v : Basis n → ℂ) :
    likelihood A v = ∑ k ∈ A, reported g v k := by
  have e : ∀ k, reported g v k = ∑ z : Basis n, if k = clearGarbage g z then ‖v z‖ ^ 2 else 0 := by
    intro k
    unfold reported
    by_cases h : GarbageZero g k
    · rw [if_pos (show ∀ q : Fin n, g.getD q.val false = true → k q = false from h)]
      unfold prob
      refine Finset.sum_congr rfl fun z _ => ?_
      by_cases hz : Agree g z k
      · rw [if_pos (show ∀ q : Fin n, g.getD q.val false = false → z q = k q from hz), if_pos ((agree_clear g z k).mp ⟨h, hz⟩)]
      · rw [if_neg (show ¬ ∀ q : Fin n, g.getD q.val false = false → z q = k q from hz), if_neg fun e => hz ((agree_clear g z k).mpr e).2]
    · rw [if_neg (show ¬ ∀ q : Fin n, g.getD q.val false = true → k q = false from h)]
      symm
      refine Finset.sum_eq_zero fun z _ => ?_
      rw [if_neg fun e => h ((agree_clear g z k).mpr e).1]
  simp only [e]
  rw [Finset.sum_comm]
  unfold likelihood
  rw [← Finset.sum_subset (Finset.subset_univ A)]
  · refine Finset.sum_congr rfl fun z hz => ?_
    have hc : clearGarbage g z ∈ A :=
      (hA z _ ((agree_clear g z _).mpr rfl).2).mp hz
    rw [Finset.sum_eq_single_of_mem _ hc]
    · rw [if_pos rfl]
    · intro k _ hk; rw [if_neg hk]
  · intro z _ hz
    refine Finset.sum_eq_zero fun k hk => ?_
    rw [if_neg]
    rintro rfl
    exact hz ((hA z _ ((agree_clear g z _).mpr rfl).2).mpr hk)

theorem blocks_commute {g : List Bool} {B : Mat n} (hB : Blocks g B) {A : Finset (Basis n)} (hA : Observable g A) :
    indic A * B = B * indic A := by
  funext x y
  unfold indic
  rw [Matrix.diagonal_mul, Matrix.mul_diagonal]
  by_cases h0 : B x y = 0
  · simp [h0]
  · have hxy := hA x y (hB x y h0)
    by_cases hx : x ∈ A
    · rw [if_pos hx, if_pos (hxy.mp hx)]; ring
    · rw [if_neg hx, if_neg fun hy => hx (hxy.mpr hy)]; ring

theorem blocks_ct {g : List Bool} {B : Mat n} (hB : Blocks g B) : Blocks g Bᴴ := fun x y h q hq => by
  rw [Matrix.conjTranspose_apply] at h
  exact (hB y x (fun h0 => h (by rw [h0, star_zero])) q hq).symm

/-- If `W` is within `e` of a matrix with blocks and takes `w` to `u`, observable events are about as likely for `u` as for `w`. -/
theorem event_step {g : List Bool} {W B : Mat n} {e : ℝ} (hW : Stretch 1 W) (hB : Blocks g B) (h : Stretch e (W - B)) {u w : Basis n → ℂ}
    (hu : W.mulVec w = u) {A : Finset (Basis n)} (hA : Observable g A) :
    nrm ((indic A).mulVec u) ≤ nrm ((indic A).mulVec w) + 2 * e * nrm w := by
  have he := stretch_nonneg h
  have h1 : nrm ((indic A).mulVec u - (indic A).mulVec (B.mulVec w)) ≤ e * nrm w := by
    rw [← Matrix.mulVec_sub, ← hu, ← Matrix.sub_mulVec]
    exact le_trans (nrm_indic A _) (h w)
  have h2 : (indic A).mulVec (B.mulVec w) = B.mulVec ((indic A).mulVec w) := by
    rw [Matrix.mulVec_mulVec, Matrix.mulVec_mulVec, blocks_commute hB hA]
  have h3 : nrm (B.mulVec ((indic A).mulVec w)) ≤ (e + 1) * nrm ((indic A).mulVec w) :=
    (h.comm.close hW) _
  have h4 := nrm_le_of_close ((indic A).mulVec u) ((indic A).mulVec (B.mulVec w))
  rw [h2] at h4 h1
  have h5 := mul_le_mul_of_nonneg_left (nrm_indic A w) he
  linarith

theorem product_outputs {anc : List Bool} {qc1 qc2 : QC n} {ω1 ω2 : Equiv.Perm (Fin n)} (h2 : ∀ o ∈ qc2.ops, o.Valid) {v : Basis n → ℂ}
    (hv : AncillasZero anc v) : (funcOf qc1 ω1 * ancProj anc * (funcOf qc2 ω2)ᴴ).mulVec (output qc2 ω2 v) = output qc1 ω1 v := by
  have u2 := funcOf_unitary qc2 ω2 h2
  rw [output_eq, output_eq, Matrix.mulVec_mulVec, Matrix.mul_assoc, unitary_comm _ u2, Matrix.mul_one, ← Matrix.mulVec_mulVec, ancProj_apply anc v hv]

/-- The circuits whose product is within `e` of a matrix with blocks are partially equivalent up to `4 e`. -/
theorem near_block_sound {g anc : List Bool} {qc1 qc2 : QC n} {ω1 ω2 : Equiv.Perm (Fin n)} (h1 : ∀ o ∈ qc1.ops, o.Valid)
    (h2 : ∀ o ∈ qc2.ops, o.Valid) {B : Mat n} (hB : Blocks g B) {e : ℝ}
    (h : Stretch e (funcOf qc1 ω1 * ancProj anc * (funcOf qc2 ω2)ᴴ - B)) : PartiallyWithin (4 * e) g anc qc1 ω1 qc2 ω2 := by
  intro v hv hn A hA
  have u1 := funcOf_unitary qc1 ω1 h1
  have u2 := funcOf_unitary qc2 ω2 h2
  have n1 := nrm_normalised (output_normalised qc1 ω1 h1 v hn)
  have n2 := nrm_normalised (output_normalised qc2 ω2 h2 v hn)
  have hW : Stretch 1 (funcOf qc1 ω1 * ancProj anc * (funcOf qc2 ω2)ᴴ) :=
    ((stretch_ancProj anc).unitaryL _ u1).unitaryR _ (ct_unitary u2)
  have a := event_step hW hB h (product_outputs h2 hv) hA
  have h' := stretch_ct h
  rw [Matrix.conjTranspose_sub] at h'
  have hW' := stretch_ct hW
  have e' : (funcOf qc1 ω1 * ancProj anc * (funcOf qc2 ω2)ᴴ)ᴴ = funcOf qc2 ω2 * ancProj anc * (funcOf qc1 ω1)ᴴ := by
    rw [Matrix.conjTranspose_mul, Matrix.conjTranspose_mul, Matrix.conjTranspose_conjTranspose, ancProj_ct, Matrix.mul_assoc]
  rw [e'] at h' hW'
  have b := event_step hW' (blocks_ct hB) h' (product_outputs h1 hv) hA
  rw [n2, mul_one] at a
  rw [n1, mul_one] at b
  have a1 := nrm_indic A (output qc1 ω1 v)
  have a2 := nrm_indic A (output qc2 ω2 v)
  rw [n1] at a1
  rw [n2] at a2
  have p1 := nrm_nonneg ((indic A).mulVec (output qc1 ω1 v))
  have p2 := nrm_nonneg ((indic A).mulVec (output qc2 ω2 v))
  have he := stretch_nonneg h
  rw [likelihood_nrm, likelihood_nrm, abs_le]
  generalize nrm ((indic A).mulVec (output qc1 ω1 v)) = p at *
  generalize nrm ((indic A).mulVec (output qc2 ω2 v)) = q at *
  constructor <;> nlinarith

/-! ## The garbage reduction -/

theorem nrm_reduced (g : List Bool) (r : Bool) (v : Basis n → ℂ) : nrm (reduceGarbageVec g r v) = nrm v := by
  unfold nrm
  congr 1
  rw [← Finset.sum_congr rfl fun x _ => (Complex.normSq_eq_norm_sq (v x)).symm, ← sum_reported g v]
  refine Finset.sum_congr rfl fun x _ => ?_
  rw [reduceGarbageVec_eq, Complex.normSq_ofReal, Real.mul_self_sqrt (reported_nonneg g v _)]

/-- The reduction brings no two vectors further apart. -/
theorem reduced_lipschitz (g : List Bool) (r : Bool) (v w : Basis n → ℂ) :
    nrm (reduceGarbageVec g r v - reduceGarbageVec g r w) ≤ nrm (v - w) := by
  rw [← nrm_reduced g r (v - w)]
  unfold nrm
  refine Real.sqrt_le_sqrt (Finset.sum_le_sum fun x _ => ?_)
  rw [Pi.sub_apply]
  unfold reduceGarbageVec
  by_cases h : GarbageZero g x
  · simp only [if_pos h]
    rw [← Complex.ofReal_sub, Complex.normSq_ofReal, Complex.normSq_ofReal]
    have key : ∀ u : Basis n → ℂ, combined g u x = nrm (fun z => if Agree g z x then u z else 0) := by
      intro u
      unfold combined nrm
      congr 1
      refine Finset.sum_congr rfl fun z _ => ?_
      by_cases hz : Agree g z x
      · rw [if_pos hz]; simp only [if_pos hz]; rw [Complex.normSq_eq_norm_sq]
      · rw [if_neg hz]; simp only [if_neg hz]; simp
    have hs : (fun z => if Agree g z x then (v - w) z else 0) =
        (fun z => if Agree g z x then v z else 0) - (fun z => if Agree g z x then w z else 0) := by
      funext z
      simp only [Pi.sub_apply]
      split <;> simp
    rw [key v, key w, key (v - w), hs]
    generalize (fun z => if Agree g z x then v z else 0) = a
    generalize (fun z => if Agree g z x then w z else 0) = b
    have h1 := nrm_le_of_close a b
    have h2 := nrm_le_of_close b a
    rw [nrm_comm] at h2
    have h3 := nrm_nonneg (a - b)
    have : |nrm a - nrm b| ≤ |nrm (a - b)| := by
      rw [abs_of_nonneg h3, abs_le]
      constructor <;> linarith
    have := sq_le_sq.mpr this
    nlinarith
  · simp [if_neg h]

variable {M D : Type} {b : Backend (Op n) (Equiv.Perm (Fin n)) (List (Fin n × Fin n)) M D}

theorem vec_finalObject_reduced {val : D → Basis n → ℂ} {ε δ : ℝ} (hb : RoundedVector b val ε) (hg : RoundedGarbage b val ε) {qc : QC n}
    {ω : Equiv.Perm (Fin n)} (hq : WellFormed qc ω) (d : D) (x : Basis n → ℂ) (hx : Normalised x) (h : nrm (val d - x) ≤ δ) :
    nrm (val (finalObject b true qc d) - reduceGarbageVec qc.garbage true (output qc ω x)) ≤ accumulated ε δ (cost qc + 1) := by
  have h1 := vec_finalObject hb hq d x hx h
  have e : finalObject b true qc d = b.reduceGarbage qc.garbage true (finalObject b false qc d) := by
    unfold finalObject
    simp only [if_true, Bool.false_eq_true, if_false]
  rw [e]
  generalize finalObject b false qc d = u at *
  have n1 := nrm_normalised (output_normalised qc ω hq.ops x hx)
  have h2 := hg qc.garbage true u
  have h3 := nrm_tri (val (b.reduceGarbage qc.garbage true u)) (reduceGarbageVec qc.garbage true (val u)) (reduceGarbageVec qc.garbage true (output qc ω x))
  have h4 := reduced_lipschitz qc.garbage true (val u) (output qc ω x)
  have h5 := nrm_le_of_close (val u) (output qc ω x)
  rw [n1] at h5
  have h6 := mul_le_mul_of_nonneg_left (show nrm (val u) ≤ accumulated ε δ (cost qc) + 1 by linarith) hb.nonneg
  have h7 := accumulated_add ε δ (cost qc) 1
  rw [pow_one] at h7
  rw [← h7]
  have : 1 + ε - 1 = ε := by ring
  rw [this]
  linarith

end QCEC.Sem
