import Verif.Props.ParamExtract
/-!
# C44–C47: cases that meet the hypotheses, and limits
-/
namespace QCEC.Props
open QCEC QCEC.Param QCEC.Spec.Param

namespace ParamWitness

/-- The parameter used. -/
def x : Parameter := { name := "x" }
/-- A phase gate. -/
def p (e : Expr) : Gate := { label := "p", qubits := [0], params := [e] }
/-- A circuit with one phase gate whose angle is the parameter. -/
def one : Circuit := [p (.var x)]
/-- The result of a manager. -/
def res (check : Rat) (e : Criterion) : Res := { check := check, equivalence := e }
/-- A world in which the managers answer from a list, whatever they are asked. -/
noncomputable def scripted (answers : Nat → Res) (clock : Nat → Rat) : World where
  manager := fun k _ _ _ _ => .ok (answers k)
  pinv := fun _ _ _ => 0
  choice := fun _ _ => 0
  uniform := fun _ => 0
  clock := clock
/-- A configuration with a timeout and a number of additional instantiations. -/
def config (timeout : Rat) (n : Nat) (tol : Rat := 0) : Configuration :=
  { Configuration.default 8 0 with
    execution := { (Configuration.default 8 0).execution with timeout := timeout }
    parameterized := { parameterizedTol := tol, nAdditionalInstantiations := n } }

end ParamWitness
open ParamWitness

theorem assign_symb {c₁ c₂ : Circuit} (h : ∀ p, p ∈ c₁.parameters ↔ p ∈ c₂.parameters) (v : Parameter → ℝ) :
    assign c₁ (symbParams c₁ c₂) v = .ok (at_ c₁ v) ∧ assign c₂ (symbParams c₁ c₂) v = .ok (at_ c₂ v) := by
  have h1 : (symbParams c₁ c₂).all (fun k => decide (k ∈ c₁.parameters)) = true := by
    simp only [List.all_eq_true, decide_eq_true_eq, symbParams, List.mem_mergeSort, List.mem_union_iff]
    intro p hp
    exact hp.elim id (h p).2
  have h2 : (symbParams c₁ c₂).all (fun k => decide (k ∈ c₂.parameters)) = true := by
    simp only [List.all_eq_true, decide_eq_true_eq, symbParams, List.mem_mergeSort, List.mem_union_iff]
    intro p hp
    exact hp.elim (h p).1 id
  exact ⟨by simp only [assign, h1, if_true]; rfl, by simp only [assign, h2, if_true]; rfl⟩

theorem instantiate_symb {w : World} {tol : ℝ} {mat : List (List ℝ)} {b : List ℝ} {c₁ c₂ : Circuit} (h : ∀ p, p ∈ c₁.parameters ↔ p ∈ c₂.parameters) :
    instantiate w tol (symbParams c₁ c₂) mat b c₁ c₂ = .ok (rounded tol (at_ c₁ (valuation (symbParams c₁ c₂) (w.pinv mat b))),
      rounded tol (at_ c₂ (valuation (symbParams c₁ c₂) (w.pinv mat b)))) := by
  obtain ⟨h1, h2⟩ := assign_symb h (valuation (symbParams c₁ c₂) (w.pinv mat b))
  simp only [instantiate, h1, h2, bind, Except.bind, pure, Except.pure]
  rfl

/-- The flow for a world that answers from a list, with no additional instantiation. -/
theorem scripted_none {a : Nat → Res} {clock : Nat → Rat} {T tol : Rat} (h0 : (a 0).equivalence.consideredEquivalent = false) :
    (checkParameterized (scripted a clock) (config T 0 tol) (.circuit one) (.circuit one)).2 =
      let t := adjust (adjust T (a 0).time) (clock 0)
      let s := (Stats.update {} (a 0)).update (a 1)
      if t < 0 then .ok { (Stats.update {} (a 0)).write 1 (a 0) with equivalence := .noInformation }
      else if (a 1).equivalence = .notEquivalent then .ok (s.write 1 (a 1))
      else .ok ((s.update (a 2)).write 2 (if adjust t (clock 0) < 0 then { a 2 with equivalence := .noInformation } else a 2)) := by
  have hi := instantiate_symb (w := scripted a clock) (tol := Ctx.tol ⟨config T 0 tol, one, one⟩) (mat := Ctx.mat ⟨config T 0 tol, one, one⟩)
    (b := Ctx.offsets ⟨config T 0 tol, one, one⟩) (c₁ := one) (c₂ := one) (fun _ => Iff.rfl)
  have ha := (assign_symb (c₁ := one) (c₂ := one) (fun _ => Iff.rfl) (scripted a clock).uniform).1
  have hm : ∀ k cfg st l r, (scripted a clock).manager k cfg st l r = .ok (a k) := fun _ _ _ _ _ => rfl
  have hp : Ctx.params ⟨config T 0 tol, one, one⟩ = symbParams one one := rfl
  have hT : (config T 0 tol).execution.timeout = T := rfl
  have hn : (config T 0 tol).parameterized.nAdditionalInstantiations = 0 := rfl
  have hc : ∀ k, (scripted a clock).clock k = clock k := fun _ => rfl
  simp only [checkParameterized, hm, h0, Bool.false_eq_true, if_false, instantiated, hp, hi, hT, hc, checkInstantiated, hn, loop, randomPart, ha]
  split
  · rfl
  · split
    · rfl
    · split <;> rfl

theorem scripted_go {a : Nat → Res} {clock : Nat → Rat} {T tol : Rat} (h0 : (a 0).equivalence.consideredEquivalent = false)
    (ht : ¬ adjust (adjust T (a 0).time) (clock 0) < 0) (h1 : (a 1).equivalence ≠ .notEquivalent) :
    (checkParameterized (scripted a clock) (config T 0 tol) (.circuit one) (.circuit one)).2 =
      .ok ((((Stats.update {} (a 0)).update (a 1)).update (a 2)).write 2
        (if adjust (adjust (adjust T (a 0).time) (clock 0)) (clock 0) < 0 then { a 2 with equivalence := .noInformation } else a 2)) := by
  rw [scripted_none h0]
  simp only [ht, h1, if_false]

/-- Answers: nothing from the ZX-calculus after `t₀`, then positive after `t₁` and after `t₂`. -/
def ParamWitness.positive (t₀ t₁ t₂ : Rat) : Nat → Res
  | 0 => res t₀ .noInformation
  | 1 => res t₁ .equivalent
  | _ => res t₂ .equivalent

/-- **C47, limit.** The last instantiation is charged a second time at the end: here 6 of 10 seconds were used, all checks found the circuits
equivalent, and the verdict is that there is no information. -/
theorem late_no_information :
    ∃ r, (checkParameterized (scripted (positive 0 0 0) (fun _ => 6)) (config 10 0) (.circuit one) (.circuit one)).2 = .ok r ∧
      r.equivalence = .noInformation := by
  exact ⟨_, scripted_go (a := positive 0 0 0) (clock := fun _ => 6) (T := 10) (by rfl) (by decide +kernel) (by decide +kernel), by decide +kernel⟩

/-- **C47, limit.** If the time used meets the timeout exactly, there is no limit any more: the first check takes the 10 seconds there are, the
others 1000 each, and the flow goes on to a verdict. -/
theorem exact_budget_is_unlimited :
    ∃ r, (checkParameterized (scripted (positive 10 1000 1000) (fun _ => 5)) (config 10 0) (.circuit one) (.circuit one)).2 = .ok r ∧
      r.equivalence = .equivalent ∧ r.check = 2010 := by
  exact ⟨_, scripted_go (a := positive 10 1000 1000) (clock := fun _ => 5) (T := 10) (by rfl) (by decide +kernel) (by decide +kernel), by decide +kernel,
    by decide +kernel⟩

/-- **C47, limit.** The first instantiated check is not charged: it may take any time. -/
theorem first_check_not_charged (d : Rat) :
    ∃ r, (checkParameterized (scripted (positive 0 d 0) (fun _ => 1)) (config 10 0) (.circuit one) (.circuit one)).2 = .ok r ∧
      r.equivalence = .equivalent ∧ r.check = d := by
  have e : (positive 0 d 0 0).time = 0 := by simp [positive, res, Res.time]
  have e1 : ¬ adjust (adjust 10 0) 1 < 0 := by decide +kernel
  have e2 : ¬ adjust (adjust (adjust 10 0) 1) 1 < 0 := by decide +kernel
  refine ⟨_, scripted_go (a := positive 0 d 0) (clock := fun _ => 1) (T := 10) (by rfl) (by rw [e]; exact e1) (by simp [positive, res]), ?_, ?_⟩
  · rw [e, if_neg e2]; rfl
  change (0 + 0 + d + 0 : Rat) = d
  ring

/-- A circuit bound in the additional instantiation. -/
noncomputable def ParamWitness.bound1 (a : Nat → Res) (clock : Nat → Rat) (T tol : Rat) (b : List ℝ) : Bound :=
  rounded (Ctx.tol ⟨config T 1 tol, one, one⟩) (at_ one (valuation (symbParams one one) ((scripted a clock).pinv (Ctx.mat ⟨config T 1 tol, one, one⟩) b)))

/-- The flow for a world that answers from a list, with one additional instantiation that exceeds the budget. -/
theorem scripted_overrun {a : Nat → Res} {clock : Nat → Rat} {T tol : Rat} (h0 : (a 0).equivalence.consideredEquivalent = false)
    (ht : ¬ adjust (adjust T (a 0).time) (clock 0) < 0) (h1 : (a 1).equivalence ≠ .notEquivalent)
    (ht' : adjust (adjust (adjust (adjust T (a 0).time) (clock 0)) (clock 1)) (a 2).time < 0) :
    ∃ l₁ l₂, checkParameterized (scripted a clock) (config T 1 tol) (.circuit one) (.circuit one) =
      ([.zx (.given (.circuit one)) (.given (.circuit one)) (.ok (a 0)), .instantiate (clock 0), .check 0 l₁ l₁ (.ok (a 1)), .instantiate (clock 1), .check 1 l₂ l₂ (.ok (a 2))],
       .ok { (((Stats.update {} (a 0)).update (a 1)).write 2 (a 2)) with equivalence := .noInformation }) := by
  have hi := fun b => instantiate_symb (w := scripted a clock) (tol := Ctx.tol ⟨config T 1 tol, one, one⟩) (mat := Ctx.mat ⟨config T 1 tol, one, one⟩)
    (b := b) (c₁ := one) (c₂ := one) (fun _ => Iff.rfl)
  have hm : ∀ k cfg st l r, (scripted a clock).manager k cfg st l r = .ok (a k) := fun _ _ _ _ _ => rfl
  have hp : Ctx.params ⟨config T 1 tol, one, one⟩ = symbParams one one := rfl
  have hT : (config T 1 tol).execution.timeout = T := rfl
  have hn : (config T 1 tol).parameterized.nAdditionalInstantiations = 1 := rfl
  have hc : ∀ k, (scripted a clock).clock k = clock k := fun _ => rfl
  refine ⟨.bound (bound1 a clock T tol (Ctx.offsets ⟨config T 1 tol, one, one⟩)),
    .bound (bound1 a clock T tol (phaseTargets (scripted a clock) 0 (Ctx.offsets ⟨config T 1 tol, one, one⟩))), ?_⟩
  simp only [checkParameterized, hm, h0, Bool.false_eq_true, if_false, instantiated, hp, hi, hT, hc, checkInstantiated, hn, loop, ht, h1, ht', if_true]
  rfl

/-- Answers: nothing from the ZX-calculus, a positive check, then a refutation that takes 20 seconds. -/
def ParamWitness.late : Nat → Res
  | 0 => res 1 .noInformation
  | 1 => res 2 .equivalent
  | _ => res 20 .notEquivalent

/-- **C44/C45, limit.** A non-equivalence found when the budget runs out is not reported, and the run that found it is missing from the statistics. -/
theorem refutation_dropped :
    ∃ ev r, checkParameterized (scripted late (fun _ => 1)) (config 10 1) (.circuit one) (.circuit one) = (ev, .ok r) ∧
      (∃ e ∈ ev, refuted e = true) ∧ r.equivalence = .noInformation ∧ r.check = 3 ∧ elapsed ev = 25 := by
  obtain ⟨l₁, l₂, h⟩ := scripted_overrun (a := late) (clock := fun _ => 1) (T := 10) (tol := 0) (by rfl) (by decide +kernel) (by decide +kernel) (by decide +kernel)
  refine ⟨_, _, h, ⟨.check 1 l₂ l₂ (.ok (late 2)), by simp, rfl⟩, rfl, by decide +kernel, ?_⟩
  simp [elapsed_cons, duration, result?, late, res]
  norm_num

/-- The hypotheses of `parameterized_time` are met, and the flow then reaches a verdict in time. -/
example : Bounded (scripted (positive 1 1 1) (fun _ => 1)) 1 1 ∧
    ∃ r, (checkParameterized (scripted (positive 1 1 1) (fun _ => 1)) (config 10 0) (.circuit one) (.circuit one)).2 = .ok r ∧ r.equivalence = .equivalent ∧ r.check = 3 := by
  refine ⟨⟨?_, by norm_num, fun _ => ⟨by simp [scripted], by simp [scripted]⟩⟩, _,
    scripted_go (a := positive 1 1 1) (clock := fun _ => 1) (T := 10) (by rfl) (by decide +kernel) (by decide +kernel), by decide +kernel, by decide +kernel⟩
  intro k cfg st l r rs h
  simp only [scripted, Except.ok.injEq] at h
  subst h
  unfold positive
  split <;> simp [res]

/-! ## Rounding -/

/-- Equivalence of circuits made of phase gates on one qubit, without the period: the sums of the angles agree. -/
def ParamWitness.samePhase (b₁ b₂ : Bound) : Prop := (b₁.flatMap BoundGate.params).sum = (b₂.flatMap BoundGate.params).sum

open Classical in
/-- A world whose managers are right and complete on circuits without parameters. -/
noncomputable def ParamWitness.exact : World where
  manager := fun _ _ _ l r => match l, r with
    | .bound b₁, .bound b₂ => .ok (res 0 (if samePhase b₁ b₂ then .equivalent else .notEquivalent))
    | _, _ => .ok (res 0 .noInformation)
  pinv := fun _ _ _ => 0
  choice := fun _ _ => 0
  uniform := fun _ => 0
  clock := fun _ => 1

theorem exact_sound : SoundNegative exact samePhase ∧ SoundPositive exact samePhase := by
  constructor
  · intro k cfg s b₁ b₂ r h hr
    simp only [exact, Except.ok.injEq] at h
    subst h
    simp only [res] at hr
    split at hr
    · cases hr
    · assumption
  · intro k cfg s b₁ b₂ r h hr
    simp only [exact, Except.ok.injEq] at h
    subst h
    simp only [res] at hr
    split at hr
    · assumption
    · cases hr

/-- Two small rotations and the parameter. -/
noncomputable def ParamWitness.twoSmall (t : ℝ) : Circuit := [p (.num (2 * t / 3)), p (.num (2 * t / 3)), p (.var x)]
/-- Their sum and the parameter. -/
noncomputable def ParamWitness.oneSmall (t : ℝ) : Circuit := [p (.num (4 * t / 3)), p (.var x)]

/-- **C44, limit.** For every positive tolerance there are circuits that agree for all values of the parameter and that are reported to differ, although
all managers are right: constant angles below the tolerance are rounded, too. -/
theorem rounding_refutes (tol : Rat) (h : 0 < tol) :
    ∃ c₁ c₂ r, EquivalentForAll samePhase c₁ c₂ ∧ SoundNegative exact samePhase ∧
      (checkParameterized exact (config 0 0 tol) (.circuit c₁) (.circuit c₂)).2 = .ok r ∧ r.equivalence = .notEquivalent := by
  have ht : (0 : ℝ) < (tol : ℝ) := by exact_mod_cast h
  have hpar : ∀ q, q ∈ Circuit.parameters (twoSmall tol) ↔ q ∈ Circuit.parameters (oneSmall tol) := by
    intro q; simp [twoSmall, oneSmall, Circuit.parameters, p, Expr.parameters]
  have hi := instantiate_symb (w := exact) (tol := Ctx.tol ⟨config 0 0 tol, twoSmall tol, oneSmall tol⟩) (mat := Ctx.mat ⟨config 0 0 tol, twoSmall tol, oneSmall tol⟩)
    (b := Ctx.offsets ⟨config 0 0 tol, twoSmall tol, oneSmall tol⟩) hpar
  have hp : Ctx.params ⟨config 0 0 tol, twoSmall tol, oneSmall tol⟩ = symbParams (twoSmall tol) (oneSmall tol) := rfl
  have htol : Ctx.tol ⟨config 0 0 tol, twoSmall tol, oneSmall tol⟩ = (tol : ℝ) := rfl
  have hT : (config 0 0 tol).execution.timeout = 0 := rfl
  have hv : ∀ q, valuation (symbParams (twoSmall tol) (oneSmall tol)) (exact.pinv (Ctx.mat ⟨config 0 0 tol, twoSmall tol, oneSmall tol⟩)
      (Ctx.offsets ⟨config 0 0 tol, twoSmall tol, oneSmall tol⟩)) q = 0 := fun _ => rfl
  have e1 : |2 * (tol : ℝ) / 3| < tol := by rw [abs_of_pos (by linarith)]; linarith
  have e2 : ¬ |4 * (tol : ℝ) / 3| < tol := by rw [abs_of_pos (by linarith)]; linarith
  have hne : ¬ samePhase (rounded tol (at_ (twoSmall tol) (fun _ => 0))) (rounded tol (at_ (oneSmall tol) (fun _ => 0))) := by
    have : (4 * (tol : ℝ) / 3) ≠ 0 := by intro hz; linarith
    simp only [samePhase, rounded, at_, twoSmall, oneSmall, p, List.map, Expr.eval, Bool.false_eq_true, if_false, List.flatMap_cons, List.flatMap_nil, e1, e2, if_true,
      List.append_nil, List.cons_append, List.nil_append, List.sum_cons, List.sum_nil]
    simp only [ite_self, add_zero, zero_add]
    exact fun hz => this hz.symm
  refine ⟨twoSmall tol, oneSmall tol, ((Stats.update {} (res 0 .noInformation)).update (res 0 .notEquivalent)).write 1 (res 0 .notEquivalent), ?_, exact_sound.1, ?_, rfl⟩
  · intro v
    simp only [samePhase, at_, twoSmall, oneSmall, p, List.map, Expr.eval, List.flatMap_cons, List.flatMap_nil, List.append_nil, List.cons_append, List.nil_append,
      List.sum_cons, List.sum_nil]
    ring
  · have hm0 : exact.manager 0 (config 0 0 tol) [.disableAll, .zx true] (.given (.circuit (twoSmall tol))) (.given (.circuit (oneSmall tol))) = .ok (res 0 .noInformation) := rfl
    have hm1 : exact.manager 1 (config 0 0 tol) [.zx false] (.bound (rounded tol (at_ (twoSmall tol) (fun _ => 0)))) (.bound (rounded tol (at_ (oneSmall tol) (fun _ => 0))))
        = .ok (res 0 .notEquivalent) := by
      simp only [exact, hne, if_false]
    have hz : (res 0 .noInformation).equivalence.consideredEquivalent = false := rfl
    have hvf : valuation (symbParams (twoSmall tol) (oneSmall tol)) (exact.pinv (Ctx.mat ⟨config 0 0 tol, twoSmall tol, oneSmall tol⟩)
      (Ctx.offsets ⟨config 0 0 tol, twoSmall tol, oneSmall tol⟩)) = fun _ => 0 := funext hv
    rw [htol, hvf] at hi
    simp only [checkParameterized, hm0, hz, Bool.false_eq_true, if_false, instantiated, hp, htol, hi, hT, adjust_zero, lt_irrefl, checkInstantiated, hm1]
    rfl

/-! ## Positive verdicts rest on samples -/

/-- Phase gate with twice the parameter. -/
def ParamWitness.double : Circuit := [p (.add (.var x) (.var x))]

/-- **C44, limit.** A positive verdict that does not come from the ZX-calculus is no proof: all instantiations made here set the parameter to 0. -/
theorem positive_is_sampled :
    ∃ r, (checkParameterized exact (config 0 0) (.circuit one) (.circuit double)).2 = .ok r ∧ r.equivalence = .equivalent ∧
      SoundPositive exact samePhase ∧ ¬ EquivalentForAll samePhase one double := by
  have hpar : ∀ q, q ∈ Circuit.parameters one ↔ q ∈ Circuit.parameters double := by
    intro q; simp [one, double, Circuit.parameters, p, Expr.parameters]
  have hi := instantiate_symb (w := exact) (tol := Ctx.tol ⟨config 0 0, one, double⟩) (mat := Ctx.mat ⟨config 0 0, one, double⟩)
    (b := Ctx.offsets ⟨config 0 0, one, double⟩) hpar
  obtain ⟨ha1, ha2⟩ := assign_symb hpar exact.uniform
  have hp : Ctx.params ⟨config 0 0, one, double⟩ = symbParams one double := rfl
  have htol : Ctx.tol ⟨config 0 0, one, double⟩ = 0 := by simp [Ctx.tol, config]
  have hT : (config 0 0).execution.timeout = 0 := rfl
  have hn : (config 0 0).parameterized.nAdditionalInstantiations = 0 := rfl
  have hvf : valuation (symbParams one double) (exact.pinv (Ctx.mat ⟨config 0 0, one, double⟩) (Ctx.offsets ⟨config 0 0, one, double⟩)) = fun _ => 0 := rfl
  have hu : exact.uniform = fun _ => 0 := rfl
  have hs : samePhase (at_ one (fun _ => 0)) (at_ double (fun _ => 0)) := by
    simp [samePhase, at_, one, double, p, Expr.eval]
  rw [htol, hvf, rounded_nonpos le_rfl, rounded_nonpos le_rfl] at hi
  rw [hu] at ha1 ha2
  have hm0 : exact.manager 0 (config 0 0) [.disableAll, .zx true] (.given (.circuit one)) (.given (.circuit double)) = .ok (res 0 .noInformation) := rfl
  have hm : ∀ k, exact.manager k (config 0 0) [.zx false] (.bound (at_ one (fun _ => 0))) (.bound (at_ double (fun _ => 0))) = .ok (res 0 .equivalent) := by
    intro k
    simp only [exact, hs, if_true]
  have hz : (res 0 .noInformation).equivalence.consideredEquivalent = false := rfl
  refine ⟨(((Stats.update {} (res 0 .noInformation)).update (res 0 .equivalent)).update (res 0 .equivalent)).write 2 (res 0 .equivalent), ?_, rfl, exact_sound.2, ?_⟩
  · simp only [checkParameterized, hm0, hz, Bool.false_eq_true, if_false, instantiated, hp, htol, hi, hT, hn, adjust_zero, lt_irrefl, checkInstantiated, hm,
      show (res 0 .equivalent).equivalence = .equivalent from rfl, reduceCtorEq, loop, randomPart, hu, ha1, ha2]
  · intro hall
    have := hall (fun _ => 1)
    simp [samePhase, at_, one, double, p, Expr.eval] at this

/-! ## Extraction -/

/-- **C46, limit.** For an expression that is not affine the extracted equations are wrong: `x · x` at 2. -/
theorem extract_nonaffine :
    let c : Circuit := [p (.mul (.var x) (.var x))]
    let v : Parameter → ℝ := fun _ => 2
    angles c c v ≠ List.zipWith (fun row o => (List.zipWith (fun a p => a * v p) row (extractParams c c).1).sum - o)
      (extractParams c c).2.1 (extractParams c c).2.2 := by
  intro c v
  have h1 : symbExprs c c = [.mul (.var x) (.var x), .mul (.var x) (.var x)] := rfl
  have h2 : symbParams c c = [x] := by
    simp [symbParams, c, Circuit.parameters, p, Expr.parameters]
  simp only [extractParams, h1, h2]
  rw [angles_eq, h1]
  simp [Expr.eval, v, coefficient, offset, Expr.parameters]

/-- The hypotheses of `extract_affine` and `zero_instantiation` are met by `2·x + 1` and `x - 1/2`. -/
example : ∃ c₁ c₂ : Circuit, AffineCircuit c₁ ∧ AffineCircuit c₂ ∧ ∃ v, angles c₁ c₂ v ≠ [] ∧ (∃ a ∈ angles c₁ c₂ v, a ≠ 0) ∧
    angles c₁ c₂ (fun _ => -1 / 2) = [0, 0] := by
  refine ⟨[p (.add (.mul (.num 2) (.var x)) (.num 1))], [p (.add (.var x) (.num (1 / 2)))], ?_, ?_, fun _ => 0, ?_, ?_, ?_⟩
  · intro g hg e he
    simp only [List.mem_singleton] at hg
    subst hg
    simp only [p, List.mem_singleton] at he
    subst he
    refine ⟨[x], fun _ => 2, 1, by simp, fun v => ?_⟩
    simp [Expr.eval, Expr.parameters]
    ring
  · intro g hg e he
    simp only [List.mem_singleton] at hg
    subst hg
    simp only [p, List.mem_singleton] at he
    subst he
    refine ⟨[x], fun _ => 1, 1 / 2, by simp, fun v => ?_⟩
    simp [Expr.eval, Expr.parameters]
    ring
  · simp [angles, p]
  · rw [angles_eq]
    refine ⟨_, List.mem_cons_self, ?_⟩
    simp [Expr.eval]
  · rw [angles_eq]
    change [Expr.eval _ _, Expr.eval _ _] = _
    simp [Expr.eval]
    norm_num

/-- There are worlds whose `pinv` solves all solvable systems. -/
theorem solver_exists : ∃ w : World, Solves w := by
  classical
  refine ⟨{ manager := fun _ _ _ _ _ => .ok {}, choice := fun _ _ => 0, uniform := fun _ => 0, clock := fun _ => 0,
            pinv := fun mat b => if h : ∃ x : Nat → ℝ, mat.map (fun row => rowDot row x) = b then h.choose else fun _ => 0 }, ?_⟩
  intro mat b x hx
  have h : ∃ x : Nat → ℝ, mat.map (fun row => rowDot row x) = b := ⟨x, hx⟩
  simp only [dif_pos h]
  exact h.choose_spec

end QCEC.Props
