import Verif.Props.Rerun
import Verif.Props.PartialWitness
/-!
# C75: concrete circuits – the hypotheses are satisfiable, and a second run of a lookahead checker that is wrong
-/
namespace QCEC.Props
open QCEC QCEC.DD QCEC.Sem QCEC.Spec Matrix
namespace RerunWitness

/-- Matrix of a phase gate. -/
noncomputable def mP (w : ℂ) : Bool → Bool → ℂ
  | false, false => 1
  | true, true => w
  | _, _ => 0

/-- A phase gate as an operation. -/
noncomputable def phase (w : ℂ) : Op 1 := .simple (.gate (gate1 (mP w) 0))

/-- A one-qubit circuit of phase gates. -/
noncomputable def phases (l : List ℂ) : QC 1 where
  ops := l.map phase
  initialLayout := 1
  outputPermutation := [(0, 0)]

/-- `S; S; S`. -/
noncomputable def sss : QC 1 := phases [Complex.I, Complex.I, Complex.I]
/-- `S; Z`. -/
noncomputable def sz : QC 1 := phases [Complex.I, -1]

open Classical in
/-- The size of a one-qubit decision diagram: a multiple of the identity is a terminal, everything else has one node. -/
noncomputable def nodes (d : Mat 1) : Nat := if ∃ c : ℂ, d = c • (1 : Mat 1) then 0 else 1

/-- The matrix of a phase gate. -/
noncomputable def ph (w : ℂ) : Mat 1 := Matrix.diagonal fun x => if x 0 then w else 1

theorem phase_mat (w : ℂ) : (gate1 (mP w) (0 : Fin 1)).mat = ph w := by
  ext x y
  rw [gate1_mat, if_pos (by intro q hq; exact absurd (Subsingleton.elim q 0) hq), ph, Matrix.diagonal_apply]
  by_cases h : x = y
  · subst h
    rw [if_pos rfl]
    cases x 0 <;> simp [mP]
  · rw [if_neg h]
    have : x 0 ≠ y 0 := by
      intro h0; apply h; rw [basis1 x, basis1 y, h0]
    cases hx : x 0 <;> cases hy : y 0 <;> simp_all [mP]

theorem ph_mul (a b : ℂ) : ph a * ph b = ph (a * b) := by
  unfold ph
  rw [Matrix.diagonal_mul_diagonal]
  congr 1
  funext x
  split <;> simp

theorem ph_conj (a : ℂ) : (ph a)ᴴ = ph (star a) := by
  unfold ph
  rw [Matrix.diagonal_conjTranspose]
  congr 1
  funext x
  simp only [Pi.star_apply]
  split <;> simp

theorem ph_one : ph 1 = 1 := by
  unfold ph
  rw [← Matrix.diagonal_one]
  congr 1
  funext x
  simp

theorem ph_scalar (w : ℂ) : (∃ c : ℂ, ph w = c • (1 : Mat 1)) ↔ w = 1 := by
  constructor
  · rintro ⟨c, h⟩
    have h0 := congrFun (congrFun h (bit false)) (bit false)
    have h1 := congrFun (congrFun h (bit true)) (bit true)
    simp [ph, bit] at h0 h1
    rw [h1, h0]
  · rintro rfl
    exact ⟨1, by rw [ph_one, one_smul]⟩

theorem nodes_ph (w : ℂ) [Decidable (w = 1)] : nodes (ph w) = if w = 1 then 0 else 1 := by
  unfold nodes
  by_cases h : w = 1
  · rw [if_pos ((ph_scalar w).2 h), if_pos h]
  · rw [if_neg (fun h' => h ((ph_scalar w).1 h')), if_neg h]

theorem getDD_phase (garb) (w : ℂ) : (exactMatrix 1 garb).getDD (phase w) 1 = (ph w, 1) := by
  show (((gate1 (mP w) (0 : Fin 1)).map 1).mat, _) = _
  rw [map_one_perm, phase_mat]

theorem getInv_phase (garb) (w : ℂ) : (exactMatrix 1 garb).getInv (phase w) 1 = (ph (star w), 1) := by
  show (((gate1 (mP w) (0 : Fin 1)).map 1).matᴴ, _) = _
  rw [map_one_perm, phase_mat, ph_conj]

theorem swaps_phase (garb) (dir : Dir) (w : ℂ) (r : List (Op 1)) (d : Mat 1) :
    applySwaps (exactMatrix 1 garb) dir ⟨phase w :: r, 1⟩ d = (⟨phase w :: r, 1⟩, d) := by
  show applySwapsAux (exactMatrix 1 garb) dir (phase w :: r) 1 d = _
  rw [applySwapsAux, if_neg]
  show ¬ (phase w).isSwap = true
  simp [phase, Op.isSwap, gate1]

open Classical in
/-- One round of the lookahead checker on phase gates. -/
theorem round (garb) (isId : Mat 1 → Bool) (a b e : ℂ) (r1 r2 : List (Op 1)) (k1 k2 : Option ℂ) (p fuel : Nat) :
    altLoop (exactMatrix 1 garb) isId exactOpEq (.lookahead nodes) (fun _ => false) (fuel + 1)
      { c1 := ⟨phase a :: r1, 1⟩, c2 := ⟨phase b :: r2, 1⟩, d := ph e, cached1 := k1.map ph, cached2 := k2.map ph, polls := p } =
    if e * k2.getD (star b) = 1 ∧ k1.getD a * e ≠ 1 then
      altLoop (exactMatrix 1 garb) isId exactOpEq (.lookahead nodes) (fun _ => false) fuel
        { c1 := ⟨phase a :: r1, 1⟩, c2 := ⟨r2, 1⟩, d := ph (e * k2.getD (star b)), cached1 := (some (k1.getD a)).map ph,
          cached2 := (none : Option ℂ).map ph, polls := p + 4 }
    else
      altLoop (exactMatrix 1 garb) isId exactOpEq (.lookahead nodes) (fun _ => false) fuel
        { c1 := ⟨r1, 1⟩, c2 := ⟨phase b :: r2, 1⟩, d := ph (k1.getD a * e), cached1 := (none : Option ℂ).map ph,
          cached2 := (some (k2.getD (star b))).map ph, polls := p + 4 } := by
  rw [altLoop]
  simp only [swaps_phase]
  rw [if_neg (by simp [Cur.finished]), if_neg (by simp), if_neg (by simp [Cur.finished]), if_neg (by simp)]
  have c1 : cachedOr (k1.map ph) (1 : Equiv.Perm (Fin 1)) ((exactMatrix 1 garb).getDD (phase a) 1) = (ph (k1.getD a), 1) := by
    cases k1 <;> simp [cachedOr, getDD_phase]
  have c2 : cachedOr (k2.map ph) (1 : Equiv.Perm (Fin 1)) ((exactMatrix 1 garb).getInv (phase b) 1) = (ph (k2.getD (star b)), 1) := by
    cases k2 <;> simp [cachedOr, getInv_phase]
  have m1 : (exactMatrix 1 garb).mulL (ph (k1.getD a)) (ph e) = ph (k1.getD a * e) := ph_mul _ _
  have m2 : (exactMatrix 1 garb).mulR (ph e) (ph (k2.getD (star b))) = ph (e * k2.getD (star b)) := ph_mul _ _
  simp only [lookaheadStep, c1, c2, m1, m2, nodes_ph]
  clear c1 c2 m1 m2
  generalize k2.getD (star b) = w2
  generalize k1.getD a = w1
  by_cases h2 : e * w2 = 1
  · by_cases h1 : w1 * e = 1
    · rw [if_pos h1, if_pos h2, if_pos (Nat.le_refl _), if_neg (by simp [h1])]
      rfl
    · rw [if_neg h1, if_pos h2, if_neg (by simp), if_pos ⟨h2, h1⟩]
      rfl
  · rw [if_neg h2, if_pos (by split <;> simp), if_neg (by simp [h2])]
    rfl

theorem finish_phase (garb) (b e : ℂ) (k1 k2 : Option (Mat 1)) (p : Nat) :
    altFinish (exactMatrix 1 garb) (fun _ => false)
      { c1 := ⟨[], 1⟩, c2 := ⟨[phase b], 1⟩, d := ph e, cached1 := k1, cached2 := k2, polls := p } =
    { c1 := ⟨[], 1⟩, c2 := ⟨[], 1⟩, d := ph (e * star b), cached1 := k1, cached2 := k2, polls := p + 1 } := by
  unfold altFinish
  have e1 : finishTask (exactMatrix 1 garb) .right ⟨[phase b], 1⟩ (ph e) = (⟨[], 1⟩, ph (e * star b)) := by
    rw [finishTask, dif_pos (by simp [Cur.finished])]
    have : advance (exactMatrix 1 garb) .right 1 ⟨[phase b], 1⟩ (ph e) = (⟨[], 1⟩, ph (e * star b)) := by
      rw [advance, if_neg (by simp [Cur.finished])]
      simp only [applyGate, Backend.applyOp, getInv_phase, applySwaps, applySwapsAux, advance]
      rw [show (exactMatrix 1 garb).mulR (ph e) (ph (star b)) = ph (e * star b) from ph_mul _ _]
    rw [this, finishTask, dif_neg (by simp [Cur.finished])]
  have e0 : finishTask (exactMatrix 1 garb) .left ⟨[], 1⟩ (ph e) = (⟨[], 1⟩, ph e) := by
    rw [finishTask, dif_neg (by simp [Cur.finished])]
  simp only [e0, e1]
  rfl

theorem post_phase (garb) (l m : List ℂ) (e : ℂ) (k1 k2 : Option (Mat 1)) (p : Nat) :
    altPostprocess (exactMatrix 1 garb) (fun _ => false) (phases l) (phases m)
      { c1 := ⟨[], 1⟩, c2 := ⟨[], 1⟩, d := ph e, cached1 := k1, cached2 := k2, polls := p } =
    { c1 := ⟨[], 1⟩, c2 := ⟨[], 1⟩, d := ph e, cached1 := k1, cached2 := k2, polls := p + 1 } := by
  have h : ∀ reg d, (exactMatrix 1 garb).changePerm reg d 1 [((0 : Fin 1), (0 : Fin 1))] = (d, 1) := by
    intro reg d
    simp [exactMatrix, changePerm, changePermStep]
  unfold altPostprocess
  simp only [phases, h]
  rfl

theorem I_ne : Complex.I ≠ 1 ∧ (-1 : ℂ) ≠ 1 ∧ -Complex.I ≠ 1 := by
  refine ⟨?_, by norm_num, ?_⟩ <;> (intro h; have := congrArg Complex.re h; simp at this)

/-- The first run. -/
theorem first (garb) (T : ExactTests 1) :
    ({} : AltObject (Mat 1)).run (exactMatrix 1 garb) T.isId exactOpEq (.lookahead nodes) (altVerdict T.close T.wOne) (fun _ => false)
      sss sz 1 7 =
      .ok (.equivalent, { equivalence := .equivalent, cached1 := none, cached2 := some (ph (-1)), polls := 19 }) := by
  obtain ⟨i1, i2, i3⟩ := I_ne
  have hl : altLoop (exactMatrix 1 garb) T.isId exactOpEq (.lookahead nodes) (fun _ => false) 7
      { c1 := .start sss, c2 := .start sz, d := 1, cached1 := none, cached2 := none, polls := 0 } =
      .ok { c1 := ⟨[], 1⟩, c2 := ⟨[phase (-1)], 1⟩, d := ph (-1), cached1 := none, cached2 := some (ph (-1)), polls := 16 } := by
    show altLoop (exactMatrix 1 garb) T.isId exactOpEq (.lookahead nodes) (fun _ => false) 7
      { c1 := ⟨phase Complex.I :: [phase Complex.I, phase Complex.I], 1⟩, c2 := ⟨phase Complex.I :: [phase (-1)], 1⟩, d := 1,
        cached1 := (none : Option ℂ).map ph, cached2 := (none : Option ℂ).map ph, polls := 0 } = _
    rw [← ph_one, round, if_neg (by simp [i1, i3]), round, if_pos (by simp [i2]), round, if_neg (by simp [i2]), round,
      if_neg (by simp [i2, i3]), altLoop, if_pos (by simp [Cur.finished])]
    simp
  unfold AltObject.run
  simp only [hl]
  have hf := finish_phase garb (-1) (-1) none (some (ph (-1))) 16
  have hp := post_phase garb [Complex.I, Complex.I, Complex.I] [Complex.I, -1] (-1 * star (-1)) none (some (ph (-1))) 17
  rw [hf]
  unfold sss sz
  rw [hp]
  have hd : ph (-1 * star (-1)) = 1 := by rw [← ph_one]; congr 1; simp
  simp only [hd, verdict_one T]
  rfl

theorem second (garb) (T : ExactTests 1) :
    (⟨.equivalent, none, some (ph (-1)), 19⟩ : AltObject (Mat 1)).run (exactMatrix 1 garb) T.isId exactOpEq (.lookahead nodes)
      (altVerdict T.close T.wOne) (fun _ => false) sss sz 1 7 =
      .ok (.notEquivalent, { equivalence := .notEquivalent, cached1 := none, cached2 := some (ph (-1)), polls := 38 }) := by
  obtain ⟨i1, i2, i3⟩ := I_ne
  have hl : altLoop (exactMatrix 1 garb) T.isId exactOpEq (.lookahead nodes) (fun _ => false) 7
      { c1 := .start sss, c2 := .start sz, d := 1, cached1 := none, cached2 := some (ph (-1)), polls := 0 } =
      .ok { c1 := ⟨[], 1⟩, c2 := ⟨[phase (-1)], 1⟩, d := ph Complex.I, cached1 := none, cached2 := some (ph (-1)), polls := 16 } := by
    show altLoop (exactMatrix 1 garb) T.isId exactOpEq (.lookahead nodes) (fun _ => false) 7
      { c1 := ⟨phase Complex.I :: [phase Complex.I, phase Complex.I], 1⟩, c2 := ⟨phase Complex.I :: [phase (-1)], 1⟩, d := 1,
        cached1 := (none : Option ℂ).map ph, cached2 := (some (-1) : Option ℂ).map ph, polls := 0 } = _
    rw [← ph_one, round, if_neg (by simp [i2]), round, if_neg (by simp [i3]), round, if_pos (by simp [i3]), round,
      if_neg (by simp [i2]), altLoop, if_pos (by simp [Cur.finished])]
    simp
  unfold AltObject.run
  simp only [hl]
  have hf := finish_phase garb (-1) Complex.I none (some (ph (-1))) 16
  have hp := post_phase garb [Complex.I, Complex.I, Complex.I] [Complex.I, -1] (Complex.I * star (-1)) none (some (ph (-1))) 17
  rw [hf]
  unfold sss sz
  rw [hp]
  have hd : ph (Complex.I * star (-1)) = ph (-Complex.I) := by congr 1; simp
  have hc : T.close (ph (-Complex.I)) = false := by
    cases h : T.close (ph (-Complex.I)) with
    | false => rfl
    | true =>
      exfalso
      obtain ⟨c, S, hc, _, he⟩ := T.close_sound _ h
      have h0 := congrFun (congrFun he (bit false)) (bit false)
      have h1 := congrFun (congrFun he (bit true)) (bit true)
      simp [ph, bit] at h0 h1
      split_ifs at h0 h1
      · rw [← h0] at h1; exact i3 h1
      · simp at h1
      · simp at h0
      · simp at h0
  simp only [hd, altVerdict, hc]
  rfl

theorem phases_wf (l : List ℂ) (h : ∀ w ∈ l, w * star w = 1) : WellFormed (phases l) 1 := by
  refine .of_total ?_ ⟨by simp [phases], by simp [phases]⟩ ?_ ?_
  · intro o ho
    simp only [phases, List.mem_map] at ho
    obtain ⟨w, hw, rfl⟩ := ho
    have hv : (gate1 (mP w) (0 : Fin 1)).Valid :=
      gate1_valid (mP w) 0 (by intro a b; cases a <;> cases b <;> simp [mP]; simpa using h w hw)
    exact hv
  · intro q; exact ⟨(0, 0), by simp [phases], by rw [Subsingleton.elim q 0]⟩
  · intro t ht
    simp only [phases, List.mem_cons, List.not_mem_nil, or_false] at ht
    subst ht; rfl

theorem sss_wf : WellFormed sss 1 := phases_wf _ (by simp)
theorem sz_wf : WellFormed sz 1 := phases_wf _ (by simp)

theorem ph_mulVec (w : ℂ) (v : Basis 1 → ℂ) : (ph w).mulVec v = fun x => (if x 0 then w else 1) * v x := by
  funext x
  rw [ph, Matrix.mulVec_diagonal]

theorem sss_same_sz : Same [] sss 1 sz 1 := by
  intro v _
  funext x
  simp only [output, readOut, execute, sss, sz, phases, phase, List.map, Op.phys, SOp.phys, load, phase_mat, ph_mulVec, one_smul]
  show (if x 0 then Complex.I else 1) * ((if x 0 then Complex.I else 1) * ((if x 0 then Complex.I else 1) * v _)) =
    (if x 0 then -1 else 1) * ((if x 0 then Complex.I else 1) * v _)
  cases x 0
  · simp
  · simp only [if_true]
    rw [← mul_assoc, Complex.I_mul_I]

/-- **C75 fails for lookahead**: `S; S; S` and `S; Z` have the same functionality; the first run of an alternating checker with the
lookahead scheme reports `Equivalent`, the second run of the same checker object reports `NotEquivalent`, because the scheme still
holds the inverse of the second gate of the second circuit and applies it in place of that of the first. -/
theorem rerun_lookahead_wrong (garb) (T : ExactTests 1) :
    (∃ o', runsOf (AltObject.run (exactMatrix 1 garb) T.isId exactOpEq (.lookahead nodes) (altVerdict T.close T.wOne) (fun _ => false)
      sss sz 1 7) 2 ({} : AltObject (Mat 1)) = .ok ([.equivalent, .notEquivalent], o')) ∧
    WellFormed sss 1 ∧ WellFormed sz 1 ∧ Same [] sss 1 sz 1 :=
  ⟨⟨_, by simp only [runsOf, first garb T, second garb T]; rfl⟩, sss_wf, sz_wf, sss_same_sz⟩

/-- The hypotheses of `rerun_alternating` can be met: a checker object with the one-to-one scheme answers `Equivalent` three times about
these two circuits. -/
theorem rerun_alternating_thrice (garb) :
    ∃ o', runsOf (AltObject.run (exactMatrix 1 garb) (idealTests 1).isId exactOpEq (.counts oneToOneScheme)
      (altVerdict (idealTests 1).close (idealTests 1).wOne) (fun _ => false) sss sz (altInit (exactMatrix 1 garb) 1 1 sss sz) 7) 3
      ({} : AltObject (Mat 1)) = .ok ([.equivalent, .equivalent, .equivalent], o') := by
  obtain ⟨v, hv, h⟩ := rerun_alternating_correct garb sss sz 1 1 sss_wf sz_wf (idealTests 1) exactOpEq
    (CancelSafe.skipSafe (qc1 := sss) (qc2 := sz) (.static exactOpEq_sound rfl (by simp [sss, phases, phase, NoSwap]) (by simp [sz, phases, phase, NoSwap])))
    oneToOneScheme
    (.counts _ ⟨oneToOneConfigured _ _⟩) (by intro q h; simp [sss, phases] at h) 3
  rw [← hv.equivalent.2 (fun v _ => sss_same_sz v (by intro x _ q hq; simp at hq))]
  exact h

end RerunWitness
end QCEC.Props
