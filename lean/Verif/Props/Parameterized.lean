import Verif.Lemmas.Parameterized
/-!
# C44, C45, C47: verification of parameterised circuits
-/
namespace QCEC.Props
open QCEC QCEC.Param QCEC.Spec.Param

variable {w : World} {cfg : Configuration} {i₁ i₂ : Input} {c₁ c₂ : Circuit} {ev : List Event} {r : Res}

theorem assign_ok {c : Circuit} {keys : List Parameter} {v : Parameter → ℝ} {b : Bound} (h : assign c keys v = .ok b) :
    b = at_ c v ∧ ∀ k ∈ keys, k ∈ c.parameters := by
  unfold assign at h
  split at h
  · rename_i hk
    simp only [Except.ok.injEq] at h
    exact ⟨h.symm, by simpa using hk⟩
  · cases h

theorem instantiate_ok {tol : ℝ} {params : List Parameter} {mat : List (List ℝ)} {b : List ℝ} {b₁ b₂ : Bound}
    (h : instantiate w tol params mat b c₁ c₂ = .ok (b₁, b₂)) :
    b₁ = rounded tol (at_ c₁ (valuation params (w.pinv mat b))) ∧ b₂ = rounded tol (at_ c₂ (valuation params (w.pinv mat b))) := by
  unfold instantiate at h
  cases h1 : assign c₁ params (valuation params (w.pinv mat b)) with
  | error e => rw [h1] at h; cases h
  | ok a₁ =>
    cases h2 : assign c₂ params (valuation params (w.pinv mat b)) with
    | error e => rw [h1, h2] at h; cases h
    | ok a₂ =>
      rw [h1, h2] at h
      simp only [bind, Except.bind, pure, Except.pure, Except.ok.injEq, Prod.mk.injEq] at h
      rw [← h.1, ← h.2, (assign_ok h1).1, (assign_ok h2).1]
      exact ⟨rfl, rfl⟩

theorem randomPart_spec {x : Ctx} {t rt : Rat} {s : Stats} {out : Except Err Res} (h : randomPart w x t rt s = (ev, out)) :
    (∃ e, out = .error e ∧ (∀ e ∈ ev, refuted e = false) ∧ (elapsed ev = 0)) ∨
    ∃ b₁ b₂ res, w.manager (x.cfg.parameterized.nAdditionalInstantiations + 2) x.cfg [.zx false] (.bound b₁) (.bound b₂) = .ok res ∧ ev = [.random (.bound b₁) (.bound b₂) (.ok res)] ∧
      b₁ = at_ x.c₁ w.uniform ∧ b₂ = at_ x.c₂ w.uniform ∧
      ∃ q, out = .ok ((s.update res).write (x.cfg.parameterized.nAdditionalInstantiations + 2) q) ∧
        (q.equivalence = res.equivalence ∨ (q.equivalence = .noInformation ∧ adjust t rt < 0)) := by
  unfold randomPart at h
  split at h
  · cases h; exact Or.inl ⟨_, rfl, by simp, by simp⟩
  · cases h; exact Or.inl ⟨_, rfl, by simp, by simp⟩
  · rename_i b₁ b₂ h1 h2
    dsimp only at h
    split at h
    · rename_i e he
      cases h
      exact Or.inl ⟨_, rfl, by simp [he, refuted], by simp [he, elapsed, duration, result?]⟩
    · rename_i res he
      cases h
      refine Or.inr ⟨b₁, b₂, res, he, by simp [he], (assign_ok h1).1, (assign_ok h2).1, ?_⟩
      by_cases hn : adjust t rt < 0
      · refine ⟨{ res with equivalence := .noInformation }, ?_, Or.inr ⟨rfl, hn⟩⟩
        simp [hn, Stats.update, Stats.write]
      · exact ⟨res, by simp [hn], Or.inl rfl⟩

theorem randomPart_ok {x : Ctx} {t rt : Rat} {s : Stats} (h : (randomPart w x t rt s).2 = .ok r) :
    ∃ b₁ b₂ res, w.manager (x.cfg.parameterized.nAdditionalInstantiations + 2) x.cfg [.zx false] (.bound b₁) (.bound b₂) = .ok res ∧
      (randomPart w x t rt s).1 = [.random (.bound b₁) (.bound b₂) (.ok res)] ∧
      b₁ = at_ x.c₁ w.uniform ∧ b₂ = at_ x.c₂ w.uniform ∧
      ∃ q, r = (s.update res).write (x.cfg.parameterized.nAdditionalInstantiations + 2) q ∧
        (q.equivalence = res.equivalence ∨ (q.equivalence = .noInformation ∧ adjust t rt < 0)) := by
  rcases randomPart_spec (ev := (randomPart w x t rt s).1) (out := .ok r) (Prod.ext rfl h) with ⟨e, he, -⟩ | ⟨b₁, b₂, res, a, b, c, d, q, hq, hv⟩
  · cases he
  · exact ⟨b₁, b₂, res, a, b, c, d, q, by simpa using hq, hv⟩

/-- **C44.** A parameterised check that reports non-equivalence ran a manager, not the ZX-calculus, that reported non-equivalence for both circuits
with the same values of the parameters (angles below the tolerance set to 0 in both). -/
theorem parameterized_refuted (h : checkParameterized w cfg i₁ i₂ = (ev, .ok r)) (hr : r.equivalence = .notEquivalent) :
    ∃ (c₁ c₂ : Circuit) (v : Parameter → ℝ) (b₁ b₂ : Bound) (k : Nat) (res : Res), i₁ = .circuit c₁ ∧ i₂ = .circuit c₂ ∧
      w.manager k cfg [.zx false] (.bound b₁) (.bound b₂) = .ok res ∧ res.equivalence = .notEquivalent ∧
      ((b₁ = at_ c₁ v ∧ b₂ = at_ c₂ v) ∨
       (b₁ = rounded (cfg.parameterized.parameterizedTol : ℚ) (at_ c₁ v) ∧ b₂ = rounded (cfg.parameterized.parameterizedTol : ℚ) (at_ c₂ v))) := by
  unfold checkParameterized at h
  dsimp only at h
  split at h
  · cases h
  rename_i res0 h0
  split at h
  · rename_i hc
    simp only [Prod.mk.injEq, Except.ok.injEq] at h
    rw [h.2, hr] at hc
    cases hc
  split at h
  swap
  · cases h
  rename_i c₁ c₂
  simp only [Prod.mk.injEq] at h
  obtain ⟨-, h⟩ := h
  refine ⟨c₁, c₂, ?_⟩
  unfold instantiated at h
  dsimp only at h
  split at h
  · cases h
  rename_i b₁ b₂ hb
  split at h
  · simp only [Except.ok.injEq] at h
    rw [← h] at hr
    cases hr
  split at h
  · cases h
  rename_i res1 h1
  split at h
  · rename_i hne
    obtain ⟨e1, e2⟩ := instantiate_ok hb
    exact ⟨_, b₁, b₂, 1, res1, rfl, rfl, h1, hne, Or.inr ⟨e1, e2⟩⟩
  split at h
  · rename_i o ho
    simp only at h
    subst h
    obtain ⟨ev', j, b₁', b₂', res', b, -, hm, hi, -, hv⟩ := (loop_verdict _ _ _ _ _ _ _).2 _ ho
    obtain ⟨e1, e2⟩ := instantiate_ok hi
    rcases hv with ⟨-, hv⟩ | ⟨hv, -⟩
    · exact ⟨_, b₁', b₂', j + 2, res', rfl, rfl, hm, hv, Or.inr ⟨e1, e2⟩⟩
    · rw [hv] at hr; cases hr
  · rename_i t rt s ho
    simp only at h
    obtain ⟨b₁', b₂', res', hm, -, e1, e2, q, hq, hv⟩ := randomPart_ok h
    · skip
      rw [hq] at hr
      simp only [Stats.write] at hr
      rcases hv with hv | ⟨hv, -⟩
      · exact ⟨_, b₁', b₂', _, res', rfl, rfl, hm, hv ▸ hr, Or.inl ⟨e1, e2⟩⟩
      · rw [hv] at hr; cases hr

theorem rounded_nonpos {tol : ℝ} (h : tol ≤ 0) (b : Bound) : rounded tol b = b := by
  unfold rounded
  conv_rhs => rw [← List.map_id b]
  refine List.map_congr_left fun g _ => ?_
  split
  · rfl
  · have : (fun x : ℝ => if |x| < tol then 0 else x) = id := by
      funext x
      have := abs_nonneg x
      rw [if_neg (by linarith)]
      rfl
    simp [this]

/-- **C44.** With a tolerance of 0 and managers whose verdict of non-equivalence is right, a verdict of non-equivalence on parameterised circuits is
right: there are values of the parameters for which the circuits differ. -/
theorem parameterized_not_equivalent_sound {eqv : Bound → Bound → Prop} (hs : SoundNegative w eqv)
    (ht : cfg.parameterized.parameterizedTol ≤ 0) (h : checkParameterized w cfg i₁ i₂ = (ev, .ok r)) (hr : r.equivalence = .notEquivalent) :
    ∃ c₁ c₂, i₁ = .circuit c₁ ∧ i₂ = .circuit c₂ ∧ ¬ EquivalentForAll eqv c₁ c₂ := by
  obtain ⟨c₁, c₂, v, b₁, b₂, k, res, hi1, hi2, hm, hv, hb⟩ := parameterized_refuted h hr
  refine ⟨c₁, c₂, hi1, hi2, fun hall => hs _ _ _ _ _ _ hm hv ?_⟩
  have ht' : ((cfg.parameterized.parameterizedTol : ℚ) : ℝ) ≤ 0 := by exact_mod_cast ht
  rcases hb with ⟨e1, e2⟩ | ⟨e1, e2⟩
  · rw [e1, e2]; exact hall v
  · rw [e1, e2, rounded_nonpos ht', rounded_nonpos ht']; exact hall v

/-- **C44.** With any tolerance: the circuits differ for some values of the parameters, or they do once all small angles are set to 0. -/
theorem parameterized_not_equivalent_tolerance {eqv : Bound → Bound → Prop} (hs : SoundNegative w eqv)
    (h : checkParameterized w cfg i₁ i₂ = (ev, .ok r)) (hr : r.equivalence = .notEquivalent) :
    ∃ c₁ c₂ v, i₁ = .circuit c₁ ∧ i₂ = .circuit c₂ ∧ (¬ eqv (at_ c₁ v) (at_ c₂ v) ∨
      ¬ eqv (rounded (cfg.parameterized.parameterizedTol : ℚ) (at_ c₁ v)) (rounded (cfg.parameterized.parameterizedTol : ℚ) (at_ c₂ v))) := by
  obtain ⟨c₁, c₂, v, b₁, b₂, k, res, hi1, hi2, hm, hv, hb⟩ := parameterized_refuted h hr
  refine ⟨c₁, c₂, v, hi1, hi2, ?_⟩
  have := hs _ _ _ _ _ _ hm hv
  rcases hb with ⟨e1, e2⟩ | ⟨e1, e2⟩
  · left; rwa [← e1, ← e2]
  · right; rwa [← e1, ← e2]

/-- **C44.** A non-equivalence found for some values of the parameters is reported, unless the time has run out; without a timeout it always is. -/
theorem parameterized_reports (h : checkParameterized w cfg i₁ i₂ = (ev, .ok r)) {e : Event} (he : e ∈ ev) (hr : refuted e = true) :
    r.equivalence = .notEquivalent ∨ (r.equivalence = .noInformation ∧ cfg.execution.timeout ≠ 0) := by
  unfold checkParameterized at h
  dsimp only at h
  split at h
  · cases h
  rename_i res0 h0
  split at h
  · simp only [Prod.mk.injEq] at h
    rw [← h.1] at he
    simp only [List.mem_singleton] at he
    rw [he] at hr; cases hr
  split at h
  swap
  · cases h
  simp only [Prod.mk.injEq] at h
  obtain ⟨hev, h⟩ := h
  rw [← hev] at he
  simp only [List.cons_append, List.nil_append, List.mem_cons] at he
  rcases he with rfl | he
  · cases hr
  unfold instantiated at h he
  dsimp only at h he
  split at h
  · cases h
  rename_i b₁ b₂ hb
  simp only [hb] at he
  split at h
  · rename_i hneg
    simp only [hneg, if_true, List.mem_singleton] at he
    rw [he] at hr; cases hr
  rename_i hneg
  simp only [hneg, if_false] at he
  split at h
  · cases h
  rename_i res1 h1
  simp only [h1] at he
  split at h
  · rename_i hne
    simp only [Except.ok.injEq] at h
    left
    rw [← h]
    exact hne
  rename_i hne
  simp only [hne, if_false] at he
  have first : ∀ e ∈ [Event.instantiate (w.clock 0)] ++ [.check 0 (.bound b₁) (.bound b₂) (.ok res1)], refuted e = false := by
    simp [refuted, hne]
  have ztime : cfg.execution.timeout = 0 → adjust (adjust cfg.execution.timeout res0.time) (w.clock 0) = 0 := by
    intro hz; simp [hz, adjust_zero]
  split at h
  · rename_i o ho
    simp only at h
    subst h
    obtain ⟨ev', j, b₁', b₂', res', b, -, hm, hi, -, hv⟩ := (loop_verdict _ _ _ _ _ _ _).2 _ ho
    rcases hv with ⟨hv, -⟩ | ⟨hv, ht⟩
    · exact Or.inl hv
    · exact Or.inr ⟨hv, fun hz => ht (ztime hz)⟩
  · rename_i t rt s ho
    simp only at h
    have hl := (loop_verdict _ _ _ _ _ _ _).1 _ _ _ ho
    simp only [ho] at he
    rcases List.mem_append.1 he with he | he
    · rcases List.mem_append.1 he with he | he
      · rw [first e he] at hr; cases hr
      · rw [hl e he] at hr; cases hr
    · obtain ⟨b₁', b₂', res', hm, hev', e1, e2, q, hq, hv⟩ := randomPart_ok h
      · rw [hev'] at he
        simp only [List.mem_singleton] at he
        subst he
        simp only [refuted, decide_eq_true_eq] at hr
        rw [hq]
        simp only [Stats.write]
        rcases hv with hv | ⟨hv, ht⟩
        · left; rw [hv, hr]
        · right
          refine ⟨hv, fun hz => ?_⟩
          have : t = 0 := loop_unlimited _ _ _ _ (ztime hz) _ _ _ _ _ ho
          rw [this, adjust_zero] at ht
          exact lt_irrefl _ ht

/-- **C44.** A positive verdict comes from the ZX-calculus, or else from the manager run on the random instantiation, after the zero instantiation
and all additional ones had been checked and none of these checks had reported non-equivalence. -/
theorem parameterized_positive (h : checkParameterized w cfg i₁ i₂ = (ev, .ok r)) (hr : r.equivalence.consideredEquivalent = true) :
    w.manager 0 cfg [.disableAll, .zx true] (.given i₁) (.given i₂) = .ok r ∨
    ∃ c₁ c₂ res, i₁ = .circuit c₁ ∧ i₂ = .circuit c₂ ∧ (∀ e ∈ ev, refuted e = false) ∧
      (results ev).length = cfg.parameterized.nAdditionalInstantiations + 3 ∧
      w.manager (cfg.parameterized.nAdditionalInstantiations + 2) cfg [.zx false] (.bound (at_ c₁ w.uniform)) (.bound (at_ c₂ w.uniform)) = .ok res ∧
      r.equivalence = res.equivalence := by
  unfold checkParameterized at h
  dsimp only at h
  split at h
  · cases h
  rename_i res0 h0
  split at h
  · simp only [Prod.mk.injEq, Except.ok.injEq] at h
    left
    rw [h0, h.2]
  split at h
  swap
  · cases h
  rename_i c₁ c₂
  simp only [Prod.mk.injEq] at h
  obtain ⟨hev, h⟩ := h
  right
  refine ⟨c₁, c₂, ?_⟩
  unfold instantiated at h hev
  dsimp only at h hev
  split at h
  · cases h
  rename_i b₁ b₂ hb
  simp only [hb] at hev
  split at h
  · simp only [Except.ok.injEq] at h
    rw [← h] at hr
    cases hr
  rename_i hneg
  simp only [hneg, if_false] at hev
  split at h
  · cases h
  rename_i res1 h1
  simp only [h1] at hev
  split at h
  · rename_i hne
    simp only [Except.ok.injEq] at h
    rw [← h] at hr
    simp only [Stats.write, hne] at hr
    cases hr
  rename_i hne
  simp only [hne, if_false] at hev
  split at h
  · rename_i o ho
    simp only at h
    subst h
    obtain ⟨ev', j, b₁', b₂', res', b, -, hm, hi, -, hv⟩ := (loop_verdict _ _ _ _ _ _ _).2 _ ho
    rcases hv with ⟨hv, -⟩ | ⟨hv, ht⟩ <;> rw [hv] at hr <;> cases hr
  · rename_i t rt s ho
    simp only at h
    have hl := (loop_verdict _ _ _ _ _ _ _).1 _ _ _ ho
    have hn := loop_results _ _ _ _ _ _ _ _ _ _ ho
    simp only [ho] at hev
    obtain ⟨b₁', b₂', res', hm, hev', e1, e2, q, hq, hv⟩ := randomPart_ok h
    rw [hq] at hr ⊢
    simp only [Stats.write] at hr ⊢
    rcases hv with hv | ⟨hv, ht⟩
    swap
    · rw [hv] at hr; cases hr
    rw [hev'] at hev
    rw [e1, e2] at hm
    refine ⟨res', trivial, trivial, ?_, ?_, hm, hv⟩
    · intro e he
      rw [← hev] at he
      simp only [List.cons_append, List.nil_append, List.append_assoc, List.mem_cons, List.mem_append, List.not_mem_nil, or_false] at he
      rcases he with rfl | rfl | rfl | he | rfl
      · rfl
      · rfl
      · simp [refuted, hne]
      · exact hl e he
      · rw [hv] at hr
        cases hq' : res'.equivalence <;> simp_all [refuted, Criterion.consideredEquivalent]
    · rw [← hev, h0]
      simp only [results_append, List.length_append, List.append_assoc, List.cons_append, List.nil_append, results_zx, results_inst, results_check,
        results_random, results_nil, List.length_cons, List.length_nil, hn]

/-- **C44.** If the ZX-calculus does not settle it and some parameter occurs in only one of the circuits, no verdict is given: Qiskit refuses to assign
values to parameters a circuit does not have. -/
theorem parameterized_different_parameters {c₁ c₂ : Circuit} {res : Res}
    (hz : w.manager 0 cfg [.disableAll, .zx true] (.given (.circuit c₁)) (.given (.circuit c₂)) = .ok res)
    (hn : res.equivalence.consideredEquivalent = false) {p : Parameter} (hp : p ∈ c₁.parameters ∧ p ∉ c₂.parameters ∨ p ∉ c₁.parameters ∧ p ∈ c₂.parameters) :
    (checkParameterized w cfg (.circuit c₁) (.circuit c₂)).2 = .error .circuit := by
  have hmem : p ∈ symbParams c₁ c₂ := by
    simp only [symbParams, List.mem_mergeSort, List.mem_union_iff]
    tauto
  have hi : ∀ b, instantiate w (cfg.parameterized.parameterizedTol : ℚ) (symbParams c₁ c₂) ((extractParams c₁ c₂).2.1) b c₁ c₂ = .error .circuit := by
    intro b
    unfold instantiate assign
    by_cases h1 : (symbParams c₁ c₂).all (fun k => decide (k ∈ c₁.parameters)) = true
    · by_cases h2 : (symbParams c₁ c₂).all (fun k => decide (k ∈ c₂.parameters)) = true
      · exfalso
        simp only [List.all_eq_true, decide_eq_true_eq] at h1 h2
        have := h1 p hmem
        have := h2 p hmem
        tauto
      · simp [h1, h2, bind, Except.bind]
    · simp [h1, bind, Except.bind]
  unfold checkParameterized
  simp only [hz, hn, Bool.false_eq_true, if_false]
  unfold instantiated
  simp only [Ctx.tol, Ctx.params, Ctx.mat, Ctx.offsets]
  rw [show (extractParams c₁ c₂).1 = symbParams c₁ c₂ from rfl, hi]

/-- **C44.** The same holds if one of the circuits is given as a file. -/
theorem parameterized_file {s : String} {i : Input} {res : Res} :
    (w.manager 0 cfg [.disableAll, .zx true] (.given (.file s)) (.given i) = .ok res → res.equivalence.consideredEquivalent = false →
      (checkParameterized w cfg (.file s) i).2 = .error .attribute) ∧
    (w.manager 0 cfg [.disableAll, .zx true] (.given i) (.given (.file s)) = .ok res → res.equivalence.consideredEquivalent = false →
      (checkParameterized w cfg i (.file s)).2 = .error .attribute) := by
  refine ⟨fun h hn => ?_, fun h hn => ?_⟩
  · simp [checkParameterized, h, hn]
  · cases i <;> simp [checkParameterized, h, hn]

/-- **C44, C46**: `expr.parameters` are the parameters that occur in the expression. -/
theorem mem_parameters (p : Parameter) (e : Expr) : p ∈ e.parameters ↔ Occurs p e := by
  induction e with
  | num r => exact ⟨fun h => by simp [Expr.parameters] at h, fun h => by cases h⟩
  | var q => 
    constructor
    · intro h
      simp only [Expr.parameters, List.mem_singleton] at h
      subst h
      exact .var
    · intro h
      cases h
      simp [Expr.parameters]
  | add a b iha ihb =>
    simp only [Expr.parameters, List.mem_append, iha, ihb]
    constructor
    · rintro (h | h)
      · exact .addLeft _ _ h
      · exact .addRight _ _ h
    · intro h
      cases h with
      | addLeft _ _ h => exact .inl h
      | addRight _ _ h => exact .inr h
  | mul a b iha ihb =>
    simp only [Expr.parameters, List.mem_append, iha, ihb]
    constructor
    · rintro (h | h)
      · exact .mulLeft _ _ h
      · exact .mulRight _ _ h
    · intro h
      cases h with
      | mulLeft _ _ h => exact .inl h
      | mulRight _ _ h => exact .inr h
  | neg a ih =>
    simp only [Expr.parameters, ih]
    exact ⟨.neg _, fun h => by cases h; assumption⟩
  | app f a ih =>
    simp only [Expr.parameters, ih]
    exact ⟨.app _ _, fun h => by cases h; assumption⟩

/-- **C46**: binding gives the value of the expression, and nothing else is its value. -/
theorem eval_value (v : Parameter → ℝ) (e : Expr) (r : ℝ) : Value v e r ↔ r = e.eval v := by
  constructor
  · intro h
    induction h with
    | num r => rfl
    | var p => rfl
    | add _ _ iha ihb => rw [iha, ihb]; rfl
    | mul _ _ iha ihb => rw [iha, ihb]; rfl
    | neg _ ih => rw [ih]; rfl
    | app f _ ih => rw [ih]; rfl
  · rintro rfl
    induction e with
    | num r => exact .num r
    | var p => exact .var p
    | add a b iha ihb => exact .add iha ihb
    | mul a b iha ihb => exact .mul iha ihb
    | neg a ih => exact .neg ih
    | app f a ih => exact .app f ih

/-- **C46**: the value of an expression depends on its parameters only. -/
theorem eval_only_parameters {v u : Parameter → ℝ} {e : Expr} (h : ∀ p ∈ e.parameters, v p = u p) : e.eval v = e.eval u := by
  induction e with
  | num r => rfl
  | var p => exact h p (by simp [Expr.parameters])
  | add a b iha ihb =>
    simp only [Expr.eval]
    rw [iha fun p hp => h p (List.mem_append_left _ hp), ihb fun p hp => h p (List.mem_append_right _ hp)]
  | mul a b iha ihb =>
    simp only [Expr.eval]
    rw [iha fun p hp => h p (List.mem_append_left _ hp), ihb fun p hp => h p (List.mem_append_right _ hp)]
  | neg a ih =>
    simp only [Expr.eval]
    rw [ih h]
  | app f a ih =>
    simp only [Expr.eval]
    rw [ih h]

theorem isParameterized_iff (i : Input) : (i.isParameterized = .ok true ↔ Symbolic i) ∧
    (i.isParameterized = .ok false ↔ Verifiable i ∧ ¬ Symbolic i) ∧ (i.isParameterized = .error .attribute ↔ ¬ Verifiable i) := by
  cases i with
  | file _ => simp [Input.isParameterized, Symbolic, Verifiable]
  | other => simp [Input.isParameterized, Symbolic, Verifiable]
  | circuit c =>
    have key : (!c.parameters.isEmpty) = true ↔ Symbolic (.circuit c) := by
      simp only [Symbolic, Bool.not_eq_true', List.isEmpty_eq_false_iff, ne_eq]
      constructor
      · intro h
        obtain ⟨p, hp⟩ := List.exists_mem_of_ne_nil _ h
        simp only [Circuit.parameters, List.mem_dedup, List.mem_flatMap] at hp
        obtain ⟨g, hg, e, he, hp⟩ := hp
        exact ⟨g, hg, e, he, p, (mem_parameters p e).1 hp⟩
      · rintro ⟨g, hg, e, he, p, hp⟩
        have hp := (mem_parameters p e).2 hp
        refine List.ne_nil_of_mem (a := p) ?_
        simp only [Circuit.parameters, List.mem_dedup, List.mem_flatMap]
        exact ⟨g, hg, e, he, hp⟩
    simp only [← key, Input.isParameterized, Verifiable]
    cases c.parameters.isEmpty <;> simp

/-- **C44.** Without symbolic parameters, `verify` is one manager run with the configuration as it is; with a symbolic parameter in either
circuit it is the flow above. An object that is neither a circuit nor the name of a file is refused before anything is run; but as the second
argument, after a circuit with a symbolic parameter, only by the manager. -/
theorem verify_choice :
    (Verifiable i₁ → Verifiable i₂ → ¬ Symbolic i₁ → ¬ Symbolic i₂ → verify w cfg i₁ i₂ = w.manager 0 cfg [] (.given i₁) (.given i₂)) ∧
    (Verifiable i₁ → (Symbolic i₁ ∨ Symbolic i₂) → verify w cfg i₁ i₂ = (checkParameterized w cfg i₁ i₂).2) ∧
    (¬ Verifiable i₁ ∨ ¬ Verifiable i₂ ∧ ¬ Symbolic i₁ → verify w cfg i₁ i₂ = .error .attribute) := by
  obtain ⟨a1, a2, a3⟩ := isParameterized_iff i₁
  obtain ⟨b1, b2, b3⟩ := isParameterized_iff i₂
  refine ⟨fun v1 v2 h1 h2 => by simp [verify, a2.2 ⟨v1, h1⟩, b2.2 ⟨v2, h2⟩], fun v1 h => ?_, fun h => ?_⟩
  · by_cases h1 : Symbolic i₁
    · simp [verify, a1.2 h1]
    · have h2 : Symbolic i₂ := h.resolve_left h1
      simp [verify, a2.2 ⟨v1, h1⟩, b1.2 h2]
  · by_cases v1 : Verifiable i₁
    · have h := h.resolve_left (fun x => x v1)
      simp [verify, a2.2 ⟨v1, h.2⟩, b3.2 h.1]
    · simp [verify, a3.2 v1]

/-- Both cases occur. -/
example : Symbolic (.circuit [{ label := "rz", params := [.num 1, .var { name := "a" }] }]) ∧
    ¬ Symbolic (.circuit [{ label := "rz", params := [.num 1] }]) ∧ ¬ Symbolic (.file "a.qasm") ∧ Verifiable (.file "a.qasm") ∧ ¬ Verifiable .other := by
  simp [Symbolic, ← mem_parameters, Expr.parameters, Verifiable]

/-! ## Statistics -/

/-- **C45.** The times and simulation counts of the result are the sums over all manager runs; only if the time ran out during an additional
instantiation, the last run is missing from them. The number of instantiations is that of the instantiations made, unless the ZX-calculus
settled the matter, in which case its result is returned as it is. -/
theorem parameterized_stats (h : checkParameterized w cfg i₁ i₂ = (ev, .ok r)) :
    (w.manager 0 cfg [.disableAll, .zx true] (.given i₁) (.given i₂) = .ok r ∧ results ev = [r] ∧ instantiations ev = 0 ∨
     r.instantiations = instantiations ev ∧ 0 < instantiations ev) ∧
    (Sums r (results ev) ∨
      (r.equivalence = .noInformation ∧ cfg.execution.timeout ≠ 0 ∧
        ∃ ev' i l l' res, ev = ev' ++ [.check (i + 1) l l' (.ok res)] ∧ Sums r (results ev'))) := by
  unfold checkParameterized at h
  dsimp only at h
  split at h
  · cases h
  rename_i res0 h0
  split at h
  · simp only [Prod.mk.injEq, Except.ok.injEq] at h
    obtain ⟨he, h⟩ := h
    subst h
    subst he
    refine ⟨Or.inl ⟨h0, by simp [h0], rfl⟩, Or.inl ?_⟩
    simp [h0, Sums]
  split at h
  swap
  · cases h
  rename_i c₁ c₂
  simp only [Prod.mk.injEq] at h
  obtain ⟨hev, h⟩ := h
  unfold instantiated at h hev
  dsimp only at h hev
  split at h
  · cases h
  rename_i b₁ b₂ hb
  simp only [hb] at hev
  split at h
  · rename_i hneg
    simp only [hneg, if_true] at hev
    simp only [Except.ok.injEq] at h
    subst h
    subst hev
    refine ⟨Or.inr ⟨by simp [Stats.write, instantiations], by simp [instantiations]⟩, Or.inl ?_⟩
    have := sums_write [res0] 1 res0
    simpa [h0, Sums, total] using this
  rename_i hneg
  simp only [hneg, if_false] at hev
  split at h
  · cases h
  rename_i res1 h1
  simp only [h1] at hev
  split at h
  · rename_i hne
    simp only [hne, if_true] at hev
    simp only [Except.ok.injEq] at h
    subst h
    subst hev
    refine ⟨Or.inr ⟨by simp [Stats.write, instantiations], by simp [instantiations]⟩, Or.inl ?_⟩
    have := sums_write [res0, res1] 1 res1
    simpa [h0, Sums, total] using this
  rename_i hne
  simp only [hne, if_false] at hev
  split at h
  · rename_i o ho
    simp only [ho] at h hev
    subst h
    obtain ⟨a, b⟩ := (loop_stats _ _ _ _ _ _ _).2 _ ho
    subst hev
    refine ⟨Or.inr ⟨?_, ?_⟩, ?_⟩
    · simp only [instantiations_append, instantiations, a]; omega
    · simp only [instantiations_append, instantiations]; omega
    · rcases b with ⟨q, b⟩ | ⟨b1, b2, ev', j, l, l', res', k, q, b3, b4⟩
      · left
        rw [b]
        have := sums_write (res0 :: res1 :: results (loop w ⟨cfg, c₁, c₂⟩ cfg.parameterized.nAdditionalInstantiations 0
          (adjust (adjust cfg.execution.timeout res0.time) (w.clock 0)) (w.clock 0) ((Stats.update {} res0).update res1)).1)
        simpa [h0, results_append, total] using this _ q
      · right
        refine ⟨b1, ?_, [.zx (.given (.circuit c₁)) (.given (.circuit c₂)) (.ok res0), .instantiate (w.clock 0), .check 0 (.bound b₁) (.bound b₂) (.ok res1)] ++ ev', j, l, l', res', ?_, ?_⟩
        · intro hz
          exact b2 (by rw [hz, adjust_zero, adjust_zero])
        · rw [b3, h0]; simp
        · rw [b4]
          have := sums_write (res0 :: res1 :: results ev') k q
          simpa [total, Sums, Stats.write] using this
  · rename_i t rt s ho
    simp only [ho] at h hev
    obtain ⟨a, b⟩ := (loop_stats _ _ _ _ _ _ _).1 _ _ _ ho
    obtain ⟨b₁', b₂', res', hm, hev', e1, e2, q, hq, hv⟩ := randomPart_ok h
    rw [hev'] at hev
    subst hev
    subst hq
    refine ⟨Or.inr ⟨?_, ?_⟩, Or.inl ?_⟩
    · simp only [instantiations_append, instantiations, b, Stats.write]; omega
    · simp only [instantiations_append, instantiations]; omega
    · have := sums_write (res0 :: res1 :: (results (loop w ⟨cfg, c₁, c₂⟩ cfg.parameterized.nAdditionalInstantiations 0
          (adjust (adjust cfg.execution.timeout res0.time) (w.clock 0)) (w.clock 0) ((Stats.update {} res0).update res1)).1 ++ [res']))
          (cfg.parameterized.nAdditionalInstantiations + 2) q
      rw [a]
      simpa [h0, results_append, total] using this

/-! ## Time -/

/-- A manager run takes at most `d`, an instantiation at most `c`. -/
def Bounded (w : World) (d c : Rat) : Prop :=
  (∀ k cfg st l r res, w.manager k cfg st l r = .ok res → 0 ≤ res.preprocessing ∧ 0 ≤ res.check ∧ res.preprocessing + res.check ≤ d) ∧
  0 ≤ d ∧ ∀ k, 0 ≤ w.clock k ∧ w.clock k ≤ c

/-- **C47.** With a timeout `T` the whole flow takes at most `T` plus two manager runs and one instantiation, unless the charged time meets `T`
exactly. (The first instantiated check and the last check are not charged, and a run that overruns the budget is not interrupted by it.) -/
theorem parameterized_time {d c : Rat} (hb : Bounded w d c) (hT : 0 < cfg.execution.timeout) (h : checkParameterized w cfg i₁ i₂ = (ev, .ok r)) :
    elapsed ev ≤ cfg.execution.timeout + 2 * d + c ∨ ∃ p, p <+: ev ∧ spent p = cfg.execution.timeout := by
  obtain ⟨hm, hd0, hc⟩ := hb
  have hc0 : 0 ≤ c := (hc 0).1.trans (hc 0).2
  unfold checkParameterized at h
  dsimp only at h
  split at h
  · cases h
  rename_i res0 h0
  obtain ⟨q1, q2, q3⟩ := hm _ _ _ _ _ _ h0
  split at h
  · simp only [Prod.mk.injEq, Except.ok.injEq] at h
    left
    rw [← h.1]
    simp only [elapsed_cons, duration, result?, h0, elapsed_nil]
    linarith
  split at h
  swap
  · cases h
  rename_i c₁ c₂
  simp only [Prod.mk.injEq] at h
  obtain ⟨hev, h⟩ := h
  unfold instantiated at h hev
  dsimp only at h hev
  obtain ⟨k0, k1⟩ := hc 0
  split at h
  · cases h
  rename_i b₁ b₂ hbb
  simp only [hbb] at hev
  split at h
  · rename_i hneg
    simp only [hneg, if_true] at hev
    left
    rw [← hev]
    simp only [elapsed_append, elapsed_cons, duration, result?, h0, elapsed_nil]
    linarith
  rename_i hneg
  simp only [hneg, if_false] at hev
  split at h
  · cases h
  rename_i res1 h1
  obtain ⟨p1, p2, p3⟩ := hm _ _ _ _ _ _ h1
  simp only [h1] at hev
  have e0 : elapsed [Event.zx (.given (.circuit c₁)) (.given (.circuit c₂)) (.ok res0)] = res0.preprocessing + res0.check := by
    simp [elapsed_cons, duration, result?]
  -- the budget after the first instantiation
  have key : (∃ p, p <+: ev ∧ spent p = cfg.execution.timeout) ∨
      (adjust (adjust cfg.execution.timeout res0.time) (w.clock 0) = cfg.execution.timeout - (res0.preprocessing + res0.check) - w.clock 0 ∧
       cfg.execution.timeout - (res0.preprocessing + res0.check) - w.clock 0 ≠ 0) := by
    have hpre1 : [Event.zx (.given (.circuit c₁)) (.given (.circuit c₂)) (.ok res0)] <+: ev := by
      rw [← hev, h0]; exact List.prefix_append _ _
    have hpre2 : [Event.zx (.given (.circuit c₁)) (.given (.circuit c₂)) (.ok res0), .instantiate (w.clock 0)] <+: ev := by
      rw [← hev, h0]
      split
      · exact ⟨_, by rfl⟩
      · split
        · exact ⟨[.check 0 (.bound b₁) (.bound b₂) (.ok res1)] ++ _, by simp only [List.append_assoc, List.cons_append, List.nil_append]; rfl⟩
        · exact ⟨[.check 0 (.bound b₁) (.bound b₂) (.ok res1)] ++ (_ ++ _), by simp only [List.append_assoc, List.cons_append, List.nil_append]; rfl⟩
    by_cases z1 : cfg.execution.timeout - res0.time = 0
    · left
      refine ⟨_, hpre1, ?_⟩
      simp only [spent, List.filter, charged, e0]
      simp only [Res.time] at z1
      linarith
    · by_cases z2 : cfg.execution.timeout - res0.time - w.clock 0 = 0
      · left
        refine ⟨_, hpre2, ?_⟩
        simp only [spent, List.filter, charged]
        simp only [elapsed_cons, duration, result?, elapsed_nil]
        simp only [Res.time] at z2
        linarith
      · right
        simp only [Res.time] at z1 z2
        refine ⟨?_, fun hz => z2 (by linarith)⟩
        simp only [adjust, hT.ne', if_false, Res.time, z1]
        ring
  rcases key with hp | ⟨hk, hk0⟩
  · exact Or.inr hp
  rw [hk] at hneg
  split at h
  · rename_i hne
    simp only [hne, if_true] at hev
    left
    rw [← hev]
    simp only [elapsed_append, elapsed_cons, duration, result?, h0, elapsed_nil]
    linarith
  rename_i hne
  simp only [hne, if_false] at hev
  obtain ⟨l1, l2, l3⟩ := loop_time w ⟨cfg, c₁, c₂⟩ hm hd0 hc cfg.parameterized.nAdditionalInstantiations 0
    (adjust (adjust cfg.execution.timeout res0.time) (w.clock 0)) (w.clock 0) ((Stats.update {} res0).update res1) (by rw [hk]; exact not_lt.1 hneg)
  -- a prefix of the loop that uses up the budget
  have exact : ∀ p, p <+: (loop w ⟨cfg, c₁, c₂⟩ cfg.parameterized.nAdditionalInstantiations 0
      (adjust (adjust cfg.execution.timeout res0.time) (w.clock 0)) (w.clock 0) ((Stats.update {} res0).update res1)).1 →
      elapsed p = adjust (adjust cfg.execution.timeout res0.time) (w.clock 0) →
      spent ([Event.zx (.given (.circuit c₁)) (.given (.circuit c₂)) (.ok res0), .instantiate (w.clock 0), .check 0 (.bound b₁) (.bound b₂) (.ok res1)] ++ p)
        = cfg.execution.timeout := by
    intro p hp he
    have hf : p.filter charged = p := List.filter_eq_self.2 fun e hep => l3 e (hp.subset hep)
    simp only [spent, List.filter_append, hf, elapsed_append, he, hk]
    simp only [List.filter, charged, elapsed_cons, duration, result?, elapsed_nil]
    ring
  split at h
  · rename_i o ho
    simp only [ho] at h hev
    rcases l2 with l2 | l2 | ⟨p, hp, he⟩
    · left
      rw [← hev]
      simp only [elapsed_append, elapsed_cons, duration, result?, h0, elapsed_nil]
      linarith [hk]
    · exact absurd (hk ▸ l2) hk0
    · right
      refine ⟨_, ?_, exact p hp he⟩
      rw [← hev, h0]
      obtain ⟨q, hq⟩ := hp
      exact ⟨q, by rw [← hq]; simp⟩
  · rename_i t rt s ho
    simp only [ho] at h hev
    obtain ⟨b₁', b₂', res', hm', hev', -, -, -, -, -⟩ := randomPart_ok h
    obtain ⟨s1, s2, s3⟩ := hm _ _ _ _ _ _ hm'
    rw [hev'] at hev
    rcases l1 _ _ _ ho with ⟨l1, l1'⟩ | l1 | ⟨p, hp, he⟩
    · left
      rw [← hev]
      simp only [elapsed_append, elapsed_cons, duration, result?, h0, elapsed_nil]
      linarith [hk]
    · exact absurd (hk ▸ l1) hk0
    · right
      refine ⟨_, ?_, exact p hp he⟩
      rw [← hev, h0]
      obtain ⟨q, hq⟩ := hp
      exact ⟨q ++ [.random (.bound b₁') (.bound b₂') (.ok res')], by rw [← hq]; simp⟩

/-- **C47.** Without a timeout, running out of time is never the reason for the verdict: the verdict is that of the last manager run. -/
theorem parameterized_no_timeout (hT : cfg.execution.timeout = 0) (h : checkParameterized w cfg i₁ i₂ = (ev, .ok r)) :
    ∃ res, (results ev).getLast? = some res ∧ r.equivalence = res.equivalence := by
  unfold checkParameterized at h
  dsimp only at h
  split at h
  · cases h
  rename_i res0 h0
  split at h
  · simp only [Prod.mk.injEq, Except.ok.injEq] at h
    refine ⟨r, ?_, rfl⟩
    rw [← h.1, h0, h.2]; rfl
  split at h
  swap
  · cases h
  rename_i c₁ c₂
  simp only [Prod.mk.injEq] at h
  obtain ⟨hev, h⟩ := h
  unfold instantiated at h hev
  simp only [hT, adjust_zero, lt_irrefl, if_false] at h hev
  split at h
  · cases h
  rename_i b₁ b₂ hbb
  simp only [hbb] at hev
  split at h
  · cases h
  rename_i res1 h1
  simp only [h1] at hev
  split at h
  · rename_i hne
    simp only [hne, if_true] at hev
    simp only [Except.ok.injEq] at h
    refine ⟨res1, ?_, by rw [← h]; rfl⟩
    rw [← hev, h0]; rfl
  rename_i hne
  simp only [hne, if_false] at hev
  split at h
  · rename_i o ho
    simp only [ho] at h hev
    subst h
    obtain ⟨ev', j, b₁', b₂', res', b, he, hm, hi, -, hv⟩ := (loop_verdict _ _ _ _ _ _ _).2 _ ho
    rcases hv with ⟨hv, hv'⟩ | ⟨-, hv⟩
    · refine ⟨res', ?_, by rw [hv, hv']⟩
      rw [← hev, he, h0, ← List.append_assoc, ← List.append_assoc, results_append, results_check, results_nil, List.getLast?_concat]
    · exact absurd rfl hv
  · rename_i t rt s ho
    simp only [ho] at h hev
    have ht : t = 0 := loop_unlimited _ _ _ _ rfl _ _ _ _ _ ho
    obtain ⟨b₁', b₂', res', hm', hev', -, -, q, hq, hv⟩ := randomPart_ok h
    refine ⟨res', ?_, ?_⟩
    · rw [← hev, hev', h0, ← List.append_assoc, results_append, results_random, results_nil, List.getLast?_concat]
    · rcases hv with hv | ⟨-, hv⟩
      · rw [hq]; exact hv
      · rw [ht, adjust_zero] at hv
        exact absurd hv (lt_irrefl _)

end QCEC.Props
