import Verif.Spec.EndToEnd
/-!
# Stimuli are normalised states with the ancillary qubits in |0⟩
-/
namespace QCEC.Props
open QCEC QCEC.DD QCEC.Sem QCEC.Gen QCEC.ZX QCEC.Spec QCEC.Spec.ZX QCEC.Mgr QCEC.Prep Matrix

theorem flags_get (m n : Nat) (h : m ≤ n) (q : Fin n) : (flags m n).getD q.val false = decide (m ≤ q.val) := by
  unfold flags
  have hq := q.isLt
  by_cases hm : m ≤ q.val
  · rw [List.getD_append_right _ _ _ _ (by simpa using hm)]
    simp only [List.length_replicate, hm, decide_true]
    rw [List.getD_eq_getElem _ _ (by simp; omega)]
    simp
  · rw [List.getD_append _ _ _ _ (by simp; omega), List.getD_eq_getElem _ _ (by simp; omega)]
    simp [hm]

theorem sqrt_two_sq : (Real.sqrt 2 : ℂ) * (Real.sqrt 2 : ℂ) = 2 := by
  rw [← Complex.ofReal_mul, Real.mul_self_sqrt (by norm_num)]; norm_num

theorem amp_normalised (b : Basis1) : star (amp b false) * amp b false + star (amp b true) * amp b true = 1 := by
  have hs := sqrt_two_sq
  have h0 : (Real.sqrt 2 : ℂ) ≠ 0 := by
    intro h; rw [h] at hs; norm_num at hs
  cases b <;> simp [amp, Complex.conj_ofReal] <;> field_simp <;> simp [pow_two, hs] <;> norm_num

theorem stimulus_state {R : Rng} {g g' : Generator R} {st : Stim} {m n : Nat} {t : StateType} (hm : m ≤ n)
    (h : Generate g (checkerReq n m t) st g') {cliff : (k seed : Nat) → Basis k → ℂ} (hc : ∀ k seed, Normalised (cliff k seed))
    {x : Basis n → ℂ} (hx : Denotes cliff st x) : Normalised x ∧ AncillasZero (flags m n) x := by
  classical
  have hsh := stimulus_shape h (by simp [checkerReq])
  have hz : ∀ q : Fin n, (flags m n).getD q.val false = true → zeroAt st q.val := by
    intro q hq
    rw [flags_get m n hm q] at hq
    refine hsh.2 _ ?_ q.isLt
    have := of_decide_eq_true hq
    simp only [checkerReq]; omega
  cases hx with
  | basis bits =>
    refine ⟨?_, ?_⟩
    · unfold Normalised Spec.inner
      rw [Finset.sum_eq_single (fun q : Fin n => bits.getD q.val false)]
      · simp
      · intro z _ hne
        beta_reduce
        rw [if_neg (fun hall => hne (funext hall))]; simp
      · intro h; exact absurd (Finset.mem_univ _) h
    · intro z hne q hq
      have hall : ∀ q : Fin n, z q = bits.getD q.val false := by
        by_contra hcon; exact hne (if_neg hcon)
      rw [hall q, List.getD_eq_getElem?_getD]
      have := hz q hq
      simp only [zeroAt] at this
      rw [this]; rfl
  | product l =>
    refine ⟨?_, ?_⟩
    · unfold Normalised Spec.inner
      have : ∀ z : Basis n, star (∏ q : Fin n, amp (l.getD q.val .zero) (z q)) * (∏ q : Fin n, amp (l.getD q.val .zero) (z q)) =
          ∏ q : Fin n, (star (amp (l.getD q.val .zero) (z q)) * amp (l.getD q.val .zero) (z q)) := by
        intro z
        rw [Finset.prod_mul_distrib, star_prod]
      simp only [this]
      have hp := (Finset.prod_univ_sum (fun _ : Fin n => (Finset.univ : Finset Bool))
        (fun q b => star (amp (l.getD q.val .zero) b) * amp (l.getD q.val .zero) b))
      rw [Fintype.piFinset_univ] at hp
      rw [← hp]
      apply Finset.prod_eq_one
      intro q _
      rw [Fintype.sum_bool, add_comm]
      exact amp_normalised _
    · intro z hne q hq
      have hq0 := hz q hq
      simp only [zeroAt] at hq0
      have : amp (l.getD q.val .zero) (z q) ≠ 0 := fun h0 => hne (Finset.prod_eq_zero (Finset.mem_univ q) h0)
      rw [List.getD_eq_getElem?_getD, hq0] at this
      cases hzq : z q with
      | false => rfl
      | true => rw [hzq] at this; exact absurd (by simp [amp]) this
  | stabilizer k seed zeros hk =>
    refine ⟨?_, ?_⟩
    · have := hc k seed
      unfold Normalised Spec.inner at this ⊢
      have hi := Fin.castLE_injective hk
      rw [← this]
      symm
      apply Fintype.sum_of_injective (embed (Fin.castLE hk)) (embed_inj hi)
      · intro z hz
        beta_reduce
        rw [if_neg]
        · simp
        · intro hall
          exact hz ⟨z ∘ Fin.castLE hk, Eq.symm <| embed_of_off hi fun w hw => hall w (by
            by_contra hlt
            exact hw ⟨⟨w.val, by omega⟩, rfl⟩)⟩
      · intro y
        beta_reduce
        rw [if_pos]
        · congr 2
          · congr 1; funext i; exact (embed_apply hi y i).symm
          · funext i; exact (embed_apply hi y i).symm
        · intro q hq
          apply embed_off
          rintro ⟨i, rfl⟩
          have := i.isLt
          simp at hq
          omega
    · intro z hne q hq
      have hq0 := hz q hq
      simp only [zeroAt] at hq0
      by_contra hcon
      apply hne
      beta_reduce
      rw [if_neg]
      intro hall
      exact hcon (hall q hq0.1)

end QCEC.Props
