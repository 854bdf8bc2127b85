import Mathlib.Algebra.BigOperators.Group.List.Basic
import Mathlib.Data.List.Basic
import Verif.Props.Parameterized
/-!
# C46: the equations extracted from parameterised circuits, and the instantiations made from them
-/
namespace QCEC.Props
open QCEC QCEC.Param QCEC.Spec.Param

/-- Scalar product of a row with the first entries of a vector. -/
def rowDot (row : List ℝ) (x : Nat → ℝ) : ℝ := (row.mapIdx fun j a => a * x j).sum

/-- What is assumed of `pinv`: it solves every solvable system. -/
def Solves (w : World) : Prop :=
  ∀ (mat : List (List ℝ)) (b : List ℝ) (x : Nat → ℝ), mat.map (fun row => rowDot row x) = b → mat.map (fun row => rowDot row (w.pinv mat b)) = b

theorem parameters_nodup (c : Circuit) : c.parameters.Nodup := List.nodup_dedup _

/-- **C46.** The parameters extracted are those of the circuits, each once, ordered by name. -/
theorem extract_parameters (c₁ c₂ : Circuit) :
    (extractParams c₁ c₂).1.Nodup ∧ (∀ p, p ∈ (extractParams c₁ c₂).1 ↔ p ∈ c₁.parameters ∨ p ∈ c₂.parameters) ∧
    (extractParams c₁ c₂).1.Pairwise (fun p q => p.name ≤ q.name) := by
  refine ⟨?_, ?_, ?_⟩
  · exact (List.mergeSort_perm _ _).nodup_iff.2 ((parameters_nodup c₂).union _)
  · intro p
    simp [extractParams, symbParams, List.mem_mergeSort, List.mem_union_iff]
  · have := List.pairwise_mergeSort (le := fun p q : Parameter => decide (p.name ≤ q.name))
      (by intro a b c h1 h2; simp only [decide_eq_true_eq] at *; exact String.le_trans h1 h2)
      (by intro a b; simp only [Bool.or_eq_true, decide_eq_true_eq]; exact String.le_total _ _) (c₁.parameters ∪ c₂.parameters)
    exact this.imp (by simp)

theorem mem_symbExprs {c₁ c₂ : Circuit} {e : Expr} (h : e ∈ symbExprs c₁ c₂) :
    (∃ g, (g ∈ c₁ ∨ g ∈ c₂) ∧ e ∈ g.params) ∧ ∀ p ∈ e.parameters, p ∈ symbParams c₁ c₂ := by
  simp only [symbExprs, List.mem_filter, List.mem_flatMap, List.mem_append] at h
  obtain ⟨⟨g, hg, he⟩, -⟩ := h
  refine ⟨⟨g, hg, he⟩, fun p hp => ?_⟩
  simp only [symbParams, List.mem_mergeSort, List.mem_union_iff, Circuit.parameters, List.mem_dedup, List.mem_flatMap]
  exact hg.imp (fun hg => ⟨g, hg, e, he, hp⟩) (fun hg => ⟨g, hg, e, he, hp⟩)

theorem sum_if (l s : List Parameter) (f : Parameter → ℝ) :
    (l.map fun p => if p ∈ s then f p else 0).sum = ((l.filter fun p => decide (p ∈ s)).map f).sum := by
  induction l with
  | nil => simp
  | cons a l ih =>
    by_cases ha : a ∈ s <;> simp [ha, ih]

theorem sum_restrict {l s : List Parameter} (hl : l.Nodup) (hs : s.Nodup) (hsub : ∀ p ∈ s, p ∈ l) (f : Parameter → ℝ) :
    (l.map fun p => if p ∈ s then f p else 0).sum = (s.map f).sum := by
  rw [sum_if]
  apply List.Perm.sum_eq
  apply List.Perm.map
  rw [List.perm_ext_iff_of_nodup (hl.filter _) hs]
  intro p
  simp only [List.mem_filter, decide_eq_true_eq]
  exact ⟨fun h => h.2, fun h => ⟨hsub p h, h⟩⟩

theorem angles_eq (c₁ c₂ : Circuit) (v : Parameter → ℝ) : angles c₁ c₂ v = (symbExprs c₁ c₂).map (Expr.eval v) := by
  unfold angles symbExprs
  congr 1
  refine List.filter_congr fun e _ => ?_
  cases e <;> simp [Expr.isExpr]

/-- An affine expression is an affine combination of the parameters that occur in it. -/
theorem affine_parameters {e : Expr} (he : Affine e) : ∃ (a : Parameter → ℝ) (c : ℝ), ∀ v, e.eval v = c + (e.parameters.dedup.map fun p => a p * v p).sum := by
  obtain ⟨ps, a, c, hn, h⟩ := he
  refine ⟨fun p => if p ∈ ps then a p else 0, c, fun v => ?_⟩
  rw [eval_only_parameters (u := fun p => if p ∈ e.parameters.dedup then v p else 0) (fun p hp => by simp [hp]), h]
  congr 1
  have e1 : (ps.map fun p => a p * if p ∈ e.parameters.dedup then v p else 0) = ps.map fun p => if p ∈ e.parameters.dedup then a p * v p else 0 :=
    List.map_congr_left fun p _ => by split <;> simp
  have e2 : (e.parameters.dedup.map fun p => (if p ∈ ps then a p else 0) * v p) = e.parameters.dedup.map fun p => if p ∈ ps then a p * v p else 0 :=
    List.map_congr_left fun p _ => by split <;> simp
  rw [e1, e2, sum_if, sum_if]
  apply List.Perm.sum_eq
  apply List.Perm.map
  rw [List.perm_ext_iff_of_nodup (hn.filter _) ((List.nodup_dedup _).filter _)]
  intro p
  simp only [List.mem_filter, decide_eq_true_eq]
  exact And.comm

theorem affine_row {e : Expr} (he : Affine e) {l : List Parameter} (hl : l.Nodup) (hsub : ∀ p ∈ e.parameters, p ∈ l) (v : Parameter → ℝ) :
    (l.map fun p => coefficient e p * v p).sum - offset e = e.eval v := by
  obtain ⟨a, c, h⟩ := affine_parameters he
  have hz : e.eval (fun _ => 0) = c := by
    rw [h]; simp
  have hsing : ∀ p ∈ e.parameters, (e.parameters.dedup.map fun q => a q * (if q = p then (1 : ℝ) else 0)).sum = a p := by
    intro p hp
    have := sum_restrict (List.nodup_dedup e.parameters) (List.nodup_singleton p) (by simpa using hp) a
    simpa [mul_ite] using this
  have hc : ∀ p, coefficient e p = if p ∈ e.parameters.dedup then a p else 0 := by
    intro p
    simp only [coefficient, List.mem_dedup]
    split
    · rename_i hp
      rw [offset, hz, h, hsing p hp]
      ring
    · rfl
  have h2 : (l.map fun p => coefficient e p * v p).sum = (e.parameters.dedup.map fun p => a p * v p).sum := by
    rw [← sum_restrict hl (List.nodup_dedup e.parameters) (by simpa using hsub) (fun p => a p * v p)]
    congr 1
    refine List.map_congr_left fun p _ => ?_
    rw [hc]
    split <;> simp
  rw [h2, offset, hz, h]
  ring

/-- **C46.** For affine expressions the extracted equations give every angle of both circuits at every values of the parameters: the matrix times the
values minus the offsets. -/
theorem extract_affine {c₁ c₂ : Circuit} (h₁ : AffineCircuit c₁) (h₂ : AffineCircuit c₂) (v : Parameter → ℝ) :
    angles c₁ c₂ v = List.zipWith (fun row o => (List.zipWith (fun a p => a * v p) row (extractParams c₁ c₂).1).sum - o)
      (extractParams c₁ c₂).2.1 (extractParams c₁ c₂).2.2 := by
  rw [angles_eq]
  simp only [extractParams, List.zipWith_map_left, List.zipWith_map_right, List.zipWith_self]
  change (symbExprs c₁ c₂).map (Expr.eval v) = _
  refine List.map_congr_left fun e he => ?_
  obtain ⟨⟨g, hg, heg⟩, hsub⟩ := mem_symbExprs he
  have ha : Affine e := hg.elim (fun hg => h₁ g hg e heg) (fun hg => h₂ g hg e heg)
  exact (affine_row ha (extract_parameters c₁ c₂).1 hsub v).symm

theorem rowDot_map (l : List Parameter) (f : Parameter → ℝ) (x : Nat → ℝ) (hl : l.Nodup) :
    rowDot (l.map f) x = (l.map fun p => f p * valuation l x p).sum := by
  unfold rowDot
  congr 1
  apply List.ext_getElem (by simp)
  intro i h1 h2
  simp only [List.getElem_mapIdx, List.getElem_map, valuation]
  rw [List.Nodup.idxOf_getElem hl]

/-- **C46.** If some values of the parameters give the angles `θ`, the values computed for the targets `offsets + θ` give them too (for affine
expressions, and a `pinv` that solves solvable systems). -/
theorem instantiation_hits {w : World} (hw : Solves w) {c₁ c₂ : Circuit} (h₁ : AffineCircuit c₁) (h₂ : AffineCircuit c₂) {θ : List ℝ} {v : Parameter → ℝ}
    (hv : angles c₁ c₂ v = θ) :
    angles c₁ c₂ (valuation (extractParams c₁ c₂).1 (w.pinv (extractParams c₁ c₂).2.1 (List.zipWith (· + ·) θ (extractParams c₁ c₂).2.2))) = θ := by
  have hnd : (symbParams c₁ c₂).Nodup := (extract_parameters c₁ c₂).1
  have row : ∀ (u : Parameter → ℝ), ∀ e ∈ symbExprs c₁ c₂, ((symbParams c₁ c₂).map fun p => coefficient e p * u p).sum - offset e = e.eval u := by
    intro u e he
    obtain ⟨⟨g, hg, heg⟩, hsub⟩ := mem_symbExprs he
    have ha : Affine e := hg.elim (fun hg => h₁ g hg e heg) (fun hg => h₂ g hg e heg)
    exact affine_row ha hnd hsub u
  subst hv
  have hb : List.zipWith (· + ·) (angles c₁ c₂ v) (extractParams c₁ c₂).2.2 = (symbExprs c₁ c₂).map fun e => e.eval v + offset e := by
    rw [angles_eq]
    simp only [extractParams]
    change List.zipWith (· + ·) ((symbExprs c₁ c₂).map (Expr.eval v)) ((symbExprs c₁ c₂).map offset) = _
    simp only [List.zipWith_map_left, List.zipWith_map_right, List.zipWith_self]
  rw [hb]
  have val : valuation (symbParams c₁ c₂) (fun i => if h : i < (symbParams c₁ c₂).length then v ((symbParams c₁ c₂)[i]) else 0) = fun p =>
      if p ∈ symbParams c₁ c₂ then v p else 0 := by
    funext p
    simp only [valuation]
    by_cases hp : p ∈ symbParams c₁ c₂
    · rw [dif_pos (List.idxOf_lt_length_of_mem hp), if_pos hp, List.getElem_idxOf]
    · rw [dif_neg (by rw [List.idxOf_eq_length_iff.2 hp]; exact lt_irrefl _), if_neg hp]
  have hsolve := hw ((symbExprs c₁ c₂).map (fun e => (symbParams c₁ c₂).map (coefficient e))) ((symbExprs c₁ c₂).map fun e => e.eval v + offset e)
    (fun i => if h : i < (symbParams c₁ c₂).length then v ((symbParams c₁ c₂)[i]) else 0) (by
      simp only [List.map_map]
      refine List.map_congr_left fun e he => ?_
      simp only [Function.comp]
      rw [rowDot_map _ _ _ hnd, val, ← row v e he]
      have : ((symbParams c₁ c₂).map fun p => coefficient e p * if p ∈ symbParams c₁ c₂ then v p else 0) = (symbParams c₁ c₂).map fun p => coefficient e p * v p :=
        List.map_congr_left fun p hp => by simp [hp]
      rw [this]
      ring)
  simp only [List.map_map] at hsolve
  rw [angles_eq, angles_eq]
  change (symbExprs c₁ c₂).map (Expr.eval _) = (symbExprs c₁ c₂).map (Expr.eval v)
  refine List.map_congr_left fun e he => ?_
  have := (List.map_inj_left.1 hsolve) e he
  simp only [Function.comp] at this
  rw [rowDot_map _ _ _ hnd] at this
  have r1 := row (valuation (symbParams c₁ c₂) (w.pinv ((symbExprs c₁ c₂).map (fun e => (symbParams c₁ c₂).map (coefficient e))) ((symbExprs c₁ c₂).map fun e => e.eval v + offset e))) e he
  refine r1.symm.trans ?_
  linarith [this]

/-- **C46.** In particular the first instantiation makes all angles 0 if any values of the parameters do. -/
theorem zero_instantiation {w : World} (hw : Solves w) {c₁ c₂ : Circuit} (h₁ : AffineCircuit c₁) (h₂ : AffineCircuit c₂) {v : Parameter → ℝ}
    (hv : ∀ a ∈ angles c₁ c₂ v, a = 0) :
    ∀ a ∈ angles c₁ c₂ (valuation (extractParams c₁ c₂).1 (w.pinv (extractParams c₁ c₂).2.1 (extractParams c₁ c₂).2.2)), a = 0 := by
  have h := instantiation_hits hw h₁ h₂ (θ := angles c₁ c₂ v) rfl
  have hlen : (angles c₁ c₂ v).length = (extractParams c₁ c₂).2.2.length := by simp [angles_eq, extractParams, symbExprs]
  have : List.zipWith (· + ·) (angles c₁ c₂ v) (extractParams c₁ c₂).2.2 = (extractParams c₁ c₂).2.2 := by
    apply List.ext_getElem (by simp [hlen])
    intro i h1 h2
    rw [List.getElem_zipWith, hv _ (List.getElem_mem _), zero_add]
  rw [this] at h
  rw [h]
  exact hv

/-- **C46.** In the additional instantiation `i` every angle becomes the one of the six phases drawn for it, if any values of the parameters do
that. -/
theorem phase_instantiation {w : World} (hw : Solves w) {c₁ c₂ : Circuit} (h₁ : AffineCircuit c₁) (h₂ : AffineCircuit c₂) {v : Parameter → ℝ} {i : Nat}
    (hv : ∀ row (h : row < (angles c₁ c₂ v).length), (angles c₁ c₂ v)[row] = sixPhases (w.choice i row)) :
    angles c₁ c₂ (valuation (extractParams c₁ c₂).1 (w.pinv (extractParams c₁ c₂).2.1 (phaseTargets w i (extractParams c₁ c₂).2.2))) =
      angles c₁ c₂ v := by
  have h := instantiation_hits hw h₁ h₂ (θ := angles c₁ c₂ v) rfl
  have hlen : (angles c₁ c₂ v).length = (extractParams c₁ c₂).2.2.length := by simp [angles_eq, extractParams, symbExprs]
  have : List.zipWith (· + ·) (angles c₁ c₂ v) (extractParams c₁ c₂).2.2 = phaseTargets w i (extractParams c₁ c₂).2.2 := by
    apply List.ext_getElem (by simp [hlen, phaseTargets])
    intro row r1 r2
    have hr : row < (angles c₁ c₂ v).length := by simp at r1; omega
    simp only [phaseTargets, List.getElem_zipWith, List.getElem_mapIdx]
    rw [hv row hr]
    congr 1
    generalize w.choice i row = k
    fin_cases k <;> simp [sixPhases, phases, neg_div]
  rw [this] at h
  exact h

/-- The check of an instantiation, in the loop. -/
theorem loop_checks {w : World} {x : Ctx} : ∀ (n i : Nat) (t rt : Rat) (s : Stats), ∀ e ∈ (loop w x n i t rt s).1, ∀ j l r res, e = .check j l r res →
    ∃ k b₁ b₂, j = k + 1 ∧ l = .bound b₁ ∧ r = .bound b₂ ∧
      instantiate w x.tol x.params x.mat (phaseTargets w k x.offsets) x.c₁ x.c₂ = .ok (b₁, b₂) := by
  intro n
  induction n with
  | zero => intro i t rt s e he; simp [loop] at he
  | succ n ih =>
    intro i t rt s e he j l r res hj
    unfold loop at he
    split at he
    · cases he
    rename_i b₁ b₂ hi
    dsimp only at he
    have head : e ∈ [Event.instantiate (w.clock (i + 1)), .check (i + 1) (.bound b₁) (.bound b₂) (checkInstantiated w x.cfg (i + 2) b₁ b₂)] →
        ∃ k b₁ b₂, j = k + 1 ∧ l = .bound b₁ ∧ r = .bound b₂ ∧
          instantiate w x.tol x.params x.mat (phaseTargets w k x.offsets) x.c₁ x.c₂ = .ok (b₁, b₂) := by
      intro he
      subst hj
      simp only [List.mem_cons, reduceCtorEq, Event.check.injEq, List.not_mem_nil, or_false, false_or] at he
      obtain ⟨rfl, rfl, rfl, _⟩ := he
      exact ⟨i, b₁, b₂, rfl, rfl, rfl, hi⟩
    split at he
    · exact head he
    · split at he
      · exact head he
      · split at he
        · exact head he
        · dsimp only at he
          rcases List.mem_append.1 he with he | he
          · exact head he
          · exact ih _ _ _ _ e he j l r res hj

/-- **C46.** What is checked: check number 0 is made for values of the parameters under which all angles vanish (if there are any), check number
`k + 1` for values under which every angle is the phase drawn for it (if there are any); both circuits get the same values, and angles below the
tolerance are replaced by 0. -/
theorem parameterized_checks {w : World} (hw : Solves w) {cfg : Configuration} {c₁ c₂ : Circuit} (h₁ : AffineCircuit c₁) (h₂ : AffineCircuit c₂)
    {j : Nat} {l r : Subject} {res : Except Err Res} (h : .check j l r res ∈ (checkParameterized w cfg (.circuit c₁) (.circuit c₂)).1) :
    ∃ u, l = .bound (rounded (cfg.parameterized.parameterizedTol : ℚ) (at_ c₁ u)) ∧
      r = .bound (rounded (cfg.parameterized.parameterizedTol : ℚ) (at_ c₂ u)) ∧
      (j = 0 → ∀ v, (∀ a ∈ angles c₁ c₂ v, a = 0) → ∀ a ∈ angles c₁ c₂ u, a = 0) ∧
      (∀ k, j = k + 1 → ∀ v, (∀ row (h : row < (angles c₁ c₂ v).length), (angles c₁ c₂ v)[row] = sixPhases (w.choice k row)) →
        angles c₁ c₂ u = angles c₁ c₂ v) := by
  have key : (j = 0 ∧ ∃ b₁ b₂, l = .bound b₁ ∧ r = .bound b₂ ∧
        instantiate w (Ctx.tol ⟨cfg, c₁, c₂⟩) (Ctx.params ⟨cfg, c₁, c₂⟩) (Ctx.mat ⟨cfg, c₁, c₂⟩) (Ctx.offsets ⟨cfg, c₁, c₂⟩) c₁ c₂ = .ok (b₁, b₂)) ∨
      ∃ k b₁ b₂, j = k + 1 ∧ l = .bound b₁ ∧ r = .bound b₂ ∧
        instantiate w (Ctx.tol ⟨cfg, c₁, c₂⟩) (Ctx.params ⟨cfg, c₁, c₂⟩) (Ctx.mat ⟨cfg, c₁, c₂⟩) (phaseTargets w k (Ctx.offsets ⟨cfg, c₁, c₂⟩)) c₁ c₂ = .ok (b₁, b₂) := by
    unfold checkParameterized at h
    dsimp only at h
    split at h
    · simp at h
    rename_i res0 _
    split at h
    · simp at h
    rw [List.mem_append] at h
    rcases h with h | h
    · simp at h
    unfold instantiated at h
    dsimp only at h
    split at h
    · simp at h
    rename_i b₁ b₂ hi
    split at h
    · simp at h
    have head : Event.check j l r res ∈ [Event.instantiate (w.clock 0)] ++ [Event.check 0 (Subject.bound b₁) (.bound b₂) (checkInstantiated w cfg 1 b₁ b₂)] →
        j = 0 ∧ ∃ b₁ b₂, l = .bound b₁ ∧ r = .bound b₂ ∧
        instantiate w (Ctx.tol ⟨cfg, c₁, c₂⟩) (Ctx.params ⟨cfg, c₁, c₂⟩) (Ctx.mat ⟨cfg, c₁, c₂⟩) (Ctx.offsets ⟨cfg, c₁, c₂⟩) c₁ c₂ = .ok (b₁, b₂) := by
      intro h
      simp only [List.cons_append, List.nil_append, List.mem_cons, reduceCtorEq, Event.check.injEq, List.not_mem_nil, or_false, false_or] at h
      obtain ⟨rfl, rfl, rfl, _⟩ := h
      exact ⟨rfl, b₁, b₂, rfl, rfl, hi⟩
    split at h
    · exact .inl (head h)
    split at h
    · exact .inl (head h)
    split at h
    · rw [List.mem_append] at h
      rcases h with h | h
      · exact .inl (head h)
      · exact .inr (loop_checks _ _ _ _ _ _ h _ _ _ _ rfl)
    · rw [List.mem_append, List.mem_append] at h
      rcases h with (h | h) | h
      · exact .inl (head h)
      · exact .inr (loop_checks _ _ _ _ _ _ h _ _ _ _ rfl)
      · unfold randomPart at h
        split at h
        · cases h
        · cases h
        · dsimp only at h
          split at h <;> simp at h
  rcases key with ⟨rfl, b₁, b₂, rfl, rfl, hi⟩ | ⟨k, b₁, b₂, rfl, rfl, rfl, hi⟩
  · obtain ⟨e1, e2⟩ := instantiate_ok hi
    refine ⟨_, congrArg _ e1, congrArg _ e2, ?_, ?_⟩
    · intro _ v hv
      exact zero_instantiation hw h₁ h₂ hv
    · intro k hk; cases hk
  · obtain ⟨e1, e2⟩ := instantiate_ok hi
    refine ⟨_, congrArg _ e1, congrArg _ e2, ?_, ?_⟩
    · intro hk; cases hk
    · intro k' hk v hv
      cases hk
      exact phase_instantiation hw h₁ h₂ hv

end QCEC.Props
