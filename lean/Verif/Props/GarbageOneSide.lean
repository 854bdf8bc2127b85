import Verif.Props.PartialWitness
/-!
# C62: qubits that are garbage in one circuit only

The alternating checker leaves out the qubits that are garbage in both circuits (`src/checker/dd/DDAlternatingChecker.cpp:100-104`), the
construction and simulation checkers reduce each circuit's own garbage qubits (`src/checker/dd/DDEquivalenceChecker.cpp:202-206`).  A
qubit that is garbage in one circuit only is therefore compared with the constant `0`.
-/
namespace QCEC.Props
open QCEC QCEC.DD QCEC.Sem QCEC.Spec Matrix

variable {n : Nat}

/-- **C62** (construction checker, garbage in one circuit only): if qubit `q` is garbage in the first circuit but not in the second,
`Equivalent` means that the second circuit never measures a `1` on qubit `q`, whatever basis state (ancillary qubits `0`) it is given.
So with such a qubit `Equivalent` is the answer only for circuits that leave this qubit in `|0⟩`. -/
theorem construction_one_sided_garbage (qc1 qc2 : QC n) (ω1 ω2 : Equiv.Perm (Fin n)) (h1 : WellFormed qc1 ω1)
    (h2 : WellFormed qc2 ω2) (T : ExactTests n) (sch) (hs : Configured qc1 qc2 sch) (prev : Criterion)
    (hanc : ∀ q : Fin n, qc1.ancillary.getD q.val false = qc2.ancillary.getD q.val false)
    (q : Fin n) (hq1 : qc1.garbage.getD q.val false = true) (hq2 : qc2.garbage.getD q.val false = false) :
    ∃ v s, runTwo (exactMatrix n reduceGarbageMat) sch true (equalsMatrix T.ptrEq T.wEq T.close fun e f => e * fᴴ) (fun _ => false) prev
        qc1 qc2 (constructionInit (exactMatrix n reduceGarbageMat) 1 qc1) (constructionInit (exactMatrix n reduceGarbageMat) 1 qc2)
        (qc1.ops.length + qc2.ops.length + 2) = .ok (v, s) ∧
      (v ≠ .notEquivalent → ∀ y : Basis n, AncillasZero qc1.ancillary (ket y) → ∀ x : Basis n, x q = true →
        output qc2 ω2 (ket y) x = 0) := by
  obtain ⟨v, s, hr, _, hv⟩ := construction_partial_exact qc1 qc2 ω1 ω2 h1 h2 T sch hs prev hanc
  refine ⟨v, s, hr, fun hne y hy x hx => ?_⟩
  have hb : BasisEquivalent qc1.ancillary qc1.garbage qc2.garbage qc1 ω1 qc2 ω2 := by
    by_contra hb
    exact hne (hv.mpr hb)
  -- the outcome of `x` in which the second circuit's garbage qubits are reported as `0`
  have key := hb y hy fun r => if qc2.garbage.getD r.val false then false else x r
  have l : reported qc1.garbage (output qc1 ω1 (ket y)) (fun r => if qc2.garbage.getD r.val false then false else x r) = 0 := by
    unfold reported
    rw [if_neg]
    intro h
    have := h q hq1
    simp only [hq2, Bool.false_eq_true, if_false] at this
    rw [hx] at this
    cases this
  rw [l] at key
  unfold reported at key
  rw [if_pos (by intro r hr; simp only [hr, if_true])] at key
  unfold prob at key
  have z := (Finset.sum_eq_zero_iff_of_nonneg (by intro x _; split <;> positivity)).mp key.symm x (Finset.mem_univ x)
  rw [if_pos (by intro r hr; simp only [hr, Bool.false_eq_true, if_false])] at z
  simpa using z

/-! ## The two complete checkers contradict each other -/

/-- An X gate; the only qubit is garbage if `g`. -/
noncomputable def flipG (g : Bool) : QC 1 where
  ops := [.simple (.gate (gX 0))]
  initialLayout := 1
  outputPermutation := if g then [] else [(0, 0)]
  garbage := [g]

theorem flipG_wf (g : Bool) : WellFormed (flipG g) 1 := by
  refine ⟨?_, ⟨by cases g <;> simp [flipG], by cases g <;> simp [flipG]⟩, ?_⟩
  · intro o ho
    simp only [flipG, List.mem_cons, List.not_mem_nil, or_false] at ho
    subst ho
    exact gX_valid 0
  · cases g <;> rfl

theorem flipG_cancel : CancelSafe exactOpEq (flipG true) (flipG false) := by
  refine .static exactOpEq_sound rfl ?_ ?_ <;>
  · intro o ho
    simp only [flipG, List.mem_cons, List.not_mem_nil, or_false] at ho
    subst ho; trivial

theorem flipG_output (g : Bool) (v : Basis 1 → ℂ) (b : Bool) : output (flipG g) 1 v (bit b) = v (bit (!b)) := by
  simp only [output, readOut, execute, flipG, Op.phys, SOp.phys, load]
  rw [gX_mulVec, update1]
  rfl

/-- **C62 fails for qubits that are garbage in one circuit only**: the same X gate twice, but only the first circuit does not measure its
qubit.  With partial equivalence switched on, the alternating checker accepts the pair and the construction checker reports
`NotEquivalent` – for the same circuits and the same option.  Measured on the qubits that are garbage in neither circuit, or on all
qubits, the circuits are partially equivalent. -/
theorem one_sided_garbage_contradiction (T : ExactTests 1) (G : GarbageTest 1) :
    (∃ s, runTwo (exactMatrix 1 reduceGarbageMat) oneToOneScheme true (equalsMatrix T.ptrEq T.wEq T.close fun e f => e * fᴴ)
        (fun _ => false) .noInformation (flipG true) (flipG false) (constructionInit (exactMatrix 1 reduceGarbageMat) 1 (flipG true))
        (constructionInit (exactMatrix 1 reduceGarbageMat) 1 (flipG false)) 4 = .ok (.notEquivalent, s)) ∧
    (∃ v s, runAlt (exactMatrix 1 reduceGarbageMat) T.isId exactOpEq (.counts oneToOneScheme)
        (altCheck true G.closeG T.close T.wOne 1 (flipG true) (flipG false)) (fun _ => false) .noInformation (flipG true) (flipG false)
        (altInit (exactMatrix 1 reduceGarbageMat) 1 1 (flipG true) (flipG false)) 4 = .ok (v, s) ∧
        (v = .equivalent ∨ v = .equivalentUpToGlobalPhase)) ∧
    WellFormed (flipG true) 1 ∧ WellFormed (flipG false) 1 ∧ ∀ g, PartiallyEquivalent g [] (flipG true) 1 (flipG false) 1 := by
  have hp : ∀ g anc, PartiallyEquivalent g anc (flipG true) 1 (flipG false) 1 := by
    intro g anc v _ k
    have : output (flipG true) 1 v = output (flipG false) 1 v := by
      funext x
      rw [basis1 x, flipG_output, flipG_output]
    rw [this]
  refine ⟨?_, ?_, flipG_wf _, flipG_wf _, fun g => hp g _⟩
  · obtain ⟨v, s, hr, hv⟩ := construction_one_sided_garbage (flipG true) (flipG false) 1 1 (flipG_wf _) (flipG_wf _) T oneToOneScheme
      (oneToOneConfigured _ _) .noInformation (fun _ => rfl) 0 rfl rfl
    have : v = .notEquivalent := by
      by_contra hne
      have := hv hne (bit false) ((ket_anc _ _).mpr fun q hq => by simp [flipG] at hq) (bit true) rfl
      rw [flipG_output] at this
      simp [ket] at this
    subst this
    exact ⟨s, hr⟩
  · obtain ⟨v, s, hr, hv, h3⟩ := alternating_partial_exact_partial reduceGarbageMat (flipG true) (flipG false) 1 1 (flipG_wf _) (flipG_wf _)
      T G exactOpEq (.counts oneToOneScheme) (fun _ => flipG_cancel.skipSafe) (.counts _ ⟨oneToOneConfigured _ _⟩) .noInformation
      (Or.inl fun q hq => by simp [flipG] at hq)
    refine ⟨v, s, hr, ?_⟩
    have := hv.mpr (hp _ _)
    rcases h3 with h | h | h
    · exact Or.inl h
    · exact Or.inr h
    · exact absurd h this

/-- The hypotheses of `construction_one_sided_garbage` are met, in a case with verdict `Equivalent`: no operation, the qubit stays `|0⟩`
because it is ancillary. -/
noncomputable def idleG (g : Bool) : QC 1 := { flipG g with ops := [], ancillary := [true] }

theorem idleG_wf (g : Bool) : WellFormed (idleG g) 1 := by
  refine ⟨?_, ⟨by cases g <;> simp [idleG, flipG], by cases g <;> simp [idleG, flipG]⟩, ?_⟩
  · intro o ho
    simp [idleG] at ho
  · cases g <;> rfl

theorem one_sided_garbage_accepted (T : ExactTests 1) :
    ∃ s, runTwo (exactMatrix 1 reduceGarbageMat) oneToOneScheme true (equalsMatrix T.ptrEq T.wEq T.close fun e f => e * fᴴ)
        (fun _ => false) .noInformation (idleG true) (idleG false) (constructionInit (exactMatrix 1 reduceGarbageMat) 1 (idleG true))
        (constructionInit (exactMatrix 1 reduceGarbageMat) 1 (idleG false)) 2 = .ok (.equivalent, s) := by
  obtain ⟨v, s, hr, hv, _⟩ := construction_partial_exact (idleG true) (idleG false) 1 1 (idleG_wf _) (idleG_wf _) T oneToOneScheme
    (oneToOneConfigured _ _) .noInformation (fun _ => rfl)
  have : v = .equivalent := by
    rw [hv]
    intro y hy k
    have y0 : y = bit false := by
      rw [basis1 y, (ket_anc _ _).mp hy 0 rfl]
    have o : ∀ g, output (idleG g) 1 (ket y) = ket y := by
      intro g
      funext x
      simp only [output, readOut, execute, idleG, flipG, load]
      rfl
    rw [o, o, y0, basis1 k]
    have e : ∀ x : Basis 1, x 0 = true → (ket (bit false) : Basis 1 → ℂ) x = 0 := by
      intro x hx
      unfold ket
      rw [if_neg]
      rintro rfl
      cases hx
    unfold reported prob
    cases k 0
    · rw [if_pos (by intro q _; rfl), if_pos (by intro q _; rfl)]
      refine Finset.sum_congr rfl fun x _ => ?_
      rw [if_pos (by intro q hq; rw [Subsingleton.elim q 0] at hq; cases hq)]
      by_cases hx : x 0 = false
      · rw [if_pos (by intro q _; rw [Subsingleton.elim q 0]; exact hx)]
      · rw [e x (by simpa using hx)]
        simp
    · rw [if_neg (by intro h; cases h 0 rfl), if_pos (by intro q hq; rw [Subsingleton.elim q 0] at hq; cases hq)]
      symm
      refine Finset.sum_eq_zero fun x _ => ?_
      split
      · rename_i h
        rw [e x (h 0 rfl)]
        simp
      · rfl
  subst this
  exact ⟨s, hr⟩

end QCEC.Props
