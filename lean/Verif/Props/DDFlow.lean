import Verif.Lemmas.DDFlow
/-!
# C01, C02 (control-flow part), C43, C50: what the DD checkers do with the operations of the two circuits

All theorems hold for every decision-diagram package (`Backend`), every circuit, every application scheme and every instant
at which the checker is told to stop.
-/
namespace QCEC.Props
open QCEC QCEC.DD

section
variable {α π ρ M D : Type}

/-! ## C43: the schemes -/

/-- C43: the ratio of the proportional scheme is the size ratio rounded to the nearest integer. -/
theorem gateRatio_rounds (size1 size2 : Nat) (h1 : 0 < size1) (h2 : 0 < size2) :
    1 ≤ gateRatio size1 size2 ∧
    2 * (gateRatio size1 size2 * min size1 size2) ≤ 2 * max size1 size2 + min size1 size2 ∧
    2 * max size1 size2 < 2 * (gateRatio size1 size2 * min size1 size2) + min size1 size2 + 1 := by
  unfold gateRatio
  generalize hM : max size1 size2 = M
  generalize hm : min size1 size2 = m
  have hm0 : 0 < m := by omega
  have hle : m ≤ M := by omega
  have hq1 : 1 ≤ (M + m / 2) / m := (Nat.one_le_div_iff hm0).mpr (by omega)
  rw [Nat.max_eq_left hq1]
  have hd := Nat.div_add_mod (M + m / 2) m
  have hr := Nat.mod_lt (M + m / 2) hm0
  have : (M + m / 2) / m * m = m * ((M + m / 2) / m) := Nat.mul_comm _ _
  refine ⟨hq1, ?_, ?_⟩ <;> omega

/-- C43: exchanging the two circuits exchanges the roles (unless both have the same number of operations left). -/
theorem gateRatio_symm (size1 size2 : Nat) : gateRatio size1 size2 = gateRatio size2 size1 := by
  unfold gateRatio
  rw [Nat.max_comm size1, Nat.min_comm size1]

/-- C43: the proportional scheme asked in the loop (both circuits unfinished) never divides by zero nor reads past the end,
and advances the circuit with fewer remaining operations by exactly one. -/
theorem proportional_defined (info : α → OpInfo) (fusion : Bool) (c1 c2 : Cur α π) (h1 : c1.rest ≠ []) (h2 : c2.rest ≠ []) :
    ∃ a1 a2, proportionalScheme info fusion c1 c2 = some (a1, a2) ∧ 1 ≤ a1 ∧ 1 ≤ a2 ∧
      (c1.rest.length ≥ c2.rest.length → a2 = 1) ∧ (c1.rest.length < c2.rest.length → a1 = 1) ∧
      (fusion = false → max a1 a2 = gateRatio c1.rest.length c2.rest.length) := by
  unfold proportionalScheme
  have p1 := List.length_pos_iff.mpr h1
  have p2 := List.length_pos_iff.mpr h2
  have hr := (gateRatio_rounds _ _ p1 p2).1
  cases hc : c1.rest with
  | nil => exact absurd hc h1
  | cons op r =>
    rw [hc] at p1 hr
    simp only
    by_cases hfus : fusion = true ∧ (info op).nused = 1
    · rw [if_pos hfus]
      refine ⟨1, 1, rfl, Nat.le_refl _, Nat.le_refl _, fun _ => rfl, fun _ => rfl, fun h => ?_⟩
      rw [h] at hfus; exact absurd hfus.1 (by simp)
    · rw [if_neg hfus, if_neg (by omega)]
      split
      · exact ⟨_, _, rfl, hr, Nat.le_refl _, fun _ => rfl, fun h => by omega, fun _ => by omega⟩
      · exact ⟨_, _, rfl, Nat.le_refl _, hr, fun h => by omega, fun _ => rfl, fun _ => by omega⟩

/-- Outside the loop guard (a finished circuit) the proportional scheme would be undefined: the guard is needed. -/
theorem proportional_undefined_at_end (info : α → OpInfo) (c2 : Cur α π) (p : π) :
    proportionalScheme info false { rest := [], perm := p } c2 = none ∧
    (∀ op r, proportionalScheme info false { rest := op :: r, perm := p } ({ rest := [], perm := p } : Cur α π) = none) := by
  constructor
  · rfl
  · intro op r; simp [proportionalScheme]

/-- C01: every scheme the checkers can be configured with makes progress and is defined wherever it is asked. -/
theorem initScheme_good (info : α → OpInfo) (opOf : String → Option OpType) (file : Option (List Char)) (cfg : Configuration)
    (matrix : Bool) (qc1 qc2 : Circuit α π ρ) (t : SchemeType) (sch : Scheme α π)
    (h : initScheme info opOf file cfg matrix qc1 qc2 t = .counts sch) :
    sch.Good qc1.ops.length qc2.ops.length := by
  intro c1 c2 h1 h2 l1 l2
  have p1 := List.length_pos_iff.mpr h1
  have gc : ∀ fus table, ∃ a1 a2, gateCostScheme info fus table c1 c2 = some (a1, a2) ∧ (0 < a1 ∨ 0 < a2) := by
    intro fus table
    unfold gateCostScheme
    split
    · exact ⟨1, 1, rfl, Or.inl (by omega)⟩
    · cases hc : c1.rest with
      | nil => exact absurd hc h1
      | cons op r =>
        simp only
        split
        · exact ⟨1, 1, rfl, Or.inl (by omega)⟩
        · exact ⟨1, _, rfl, Or.inl (by omega)⟩
  unfold initScheme at h
  cases t with
  | sequential =>
    simp only [SchemeInit.counts.injEq] at h; subst h
    exact ⟨_, _, rfl, Or.inl (by omega)⟩
  | oneToOne =>
    simp only [SchemeInit.counts.injEq] at h; subst h
    exact ⟨1, 1, rfl, Or.inl (by omega)⟩
  | lookahead => simp only at h; split at h <;> simp at h
  | proportional =>
    simp only [SchemeInit.counts.injEq] at h; subst h
    obtain ⟨a1, a2, h, ha, _⟩ := proportional_defined info cfg.optimizations.fuseSingleQubitGates c1 c2 h1 h2
    exact ⟨a1, a2, h, Or.inl ha⟩
  | gateCost =>
    simp only at h
    split at h
    · split at h
      · simp only [SchemeInit.counts.injEq] at h; subst h; exact gc _ _
      · simp at h
    · simp only [SchemeInit.counts.injEq] at h; subst h; exact gc _ _

/-! ## C01 -/

/-- A package that only records which operations it is asked to apply, in which order. -/
def recorder (isSwap : α → Bool) : Backend α π ρ α (List α) where
  isSwap := isSwap
  getDD op p := (op, p)
  getInv op p := (op, p)
  mulL m d := d ++ [m]
  mulR d m := d ++ [m]
  changePerm _ d p _ := (d, p)
  reduceAncillae _ _ d := d
  reduceGarbage _ _ d := d

theorem recorder_all (isSwap : α → Bool) (l : List α) (p : π) (d : List α) :
    (applyAll (recorder (ρ := ρ) isSwap) .left l p d).2 = d ++ l := by
  induction l generalizing d with
  | nil => simp [applyAll]
  | cons op r ih =>
    unfold applyAll
    simp only [Backend.applyOp, recorder] at ih ⊢
    rw [ih]
    simp

/-- **C01** (exactly once, in order): with any configured scheme an uninterrupted construction/simulation check terminates
within `|ops1| + |ops2| + 2` rounds, and the operations it applied to each of the two objects are exactly the circuit's
operations, each once, in circuit order. -/
theorem each_operation_once_in_order (isSwap : α → Bool) (info : α → OpInfo) (opOf : String → Option OpType)
    (file : Option (List Char)) (cfg : Configuration) (matrix : Bool) (t : SchemeType) (sch : Scheme α π)
    (qc1 qc2 : Circuit α π ρ) (hs : initScheme info opOf file cfg matrix qc1 qc2 t = .counts sch)
    (partialEq : Bool) (verdict : List α → List α → Criterion) (prev : Criterion) :
    ∃ s, runTwo (recorder isSwap) sch partialEq verdict (fun _ => false) prev qc1 qc2 [] []
        (qc1.ops.length + qc2.ops.length + 2) = .ok (verdict qc1.ops qc2.ops, s) ∧
      s.d1 = qc1.ops ∧ s.d2 = qc2.ops := by
  have fo : ∀ qc : Circuit α π ρ, finalObject (recorder isSwap) partialEq qc [] = qc.ops := by
    intro qc
    have := recorder_all (ρ := ρ) isSwap qc.ops qc.initialLayout []
    unfold finalObject
    simp only [recorder] at this ⊢
    rw [this]
    simp
  obtain ⟨s, h | h⟩ := runTwo_spec (recorder isSwap) sch partialEq verdict (fun _ => false) (fun _ _ _ h => h) prev qc1 qc2
    (initScheme_good info opOf file cfg matrix qc1 qc2 t sch hs) [] [] _ (Nat.le_refl _)
  · exact absurd h.1 (by simp)
  · rw [fo, fo] at h
    exact ⟨s, h.2.1, h.2.2.2.2.1, h.2.2.2.2.2⟩

/-- **C01** (independence of the scheme): for every package, any two configured schemes lead to the same verdict and the same
final objects. -/
theorem verdict_scheme_independent (b : Backend α π ρ M D) (info : α → OpInfo) (opOf : String → Option OpType)
    (file file' : Option (List Char)) (cfg cfg' : Configuration) (matrix : Bool) (t t' : SchemeType) (sch sch' : Scheme α π)
    (qc1 qc2 : Circuit α π ρ) (hs : initScheme info opOf file cfg matrix qc1 qc2 t = .counts sch)
    (hs' : initScheme info opOf file' cfg' matrix qc1 qc2 t' = .counts sch')
    (partialEq : Bool) (verdict : D → D → Criterion) (prev : Criterion) (i1 i2 : D) (fuel fuel' : Nat)
    (hf : qc1.ops.length + qc2.ops.length + 2 ≤ fuel) (hf' : qc1.ops.length + qc2.ops.length + 2 ≤ fuel') :
    ∃ v s s', runTwo b sch partialEq verdict (fun _ => false) prev qc1 qc2 i1 i2 fuel = .ok (v, s) ∧
      runTwo b sch' partialEq verdict (fun _ => false) prev qc1 qc2 i1 i2 fuel' = .ok (v, s') ∧
      s.d1 = s'.d1 ∧ s.d2 = s'.d2 := by
  obtain ⟨s, h | h⟩ := runTwo_spec b sch partialEq verdict (fun _ => false) (fun _ _ _ h => h) prev qc1 qc2
    (initScheme_good info opOf file cfg matrix qc1 qc2 t sch hs) i1 i2 fuel hf
  · exact absurd h.1 (by simp)
  obtain ⟨s', h' | h'⟩ := runTwo_spec b sch' partialEq verdict (fun _ => false) (fun _ _ _ h => h) prev qc1 qc2
    (initScheme_good info opOf file' cfg' matrix qc1 qc2 t' sch' hs') i1 i2 fuel' hf'
  · exact absurd h'.1 (by simp)
  refine ⟨_, s, s', h.2.1, h'.2.1, ?_, ?_⟩
  · rw [h.2.2.2.2.1, h'.2.2.2.2.1]
  · rw [h.2.2.2.2.2, h'.2.2.2.2.2]

/-! ## C50: stopping -/

/-- **C50** (construction and simulation checkers): a checker that is told to stop at an arbitrary instant either returns the
verdict of the completely processed circuits – the same as if it had never been told to stop – or the value stored from
before the run. -/
theorem stopped_checker_verdict (b : Backend α π ρ M D) (info : α → OpInfo) (opOf : String → Option OpType)
    (file : Option (List Char)) (cfg : Configuration) (matrix : Bool) (t : SchemeType) (sch : Scheme α π)
    (qc1 qc2 : Circuit α π ρ) (hs : initScheme info opOf file cfg matrix qc1 qc2 t = .counts sch)
    (partialEq : Bool) (verdict : D → D → Criterion) (stop : Nat → Bool) (hm : Mono stop) (prev : Criterion) (i1 i2 : D)
    (fuel : Nat) (hf : qc1.ops.length + qc2.ops.length + 2 ≤ fuel) :
    ∃ v s s', runTwo b sch partialEq verdict stop prev qc1 qc2 i1 i2 fuel = .ok (v, s) ∧
      (v = prev ∨ runTwo b sch partialEq verdict (fun _ => false) prev qc1 qc2 i1 i2 fuel = .ok (v, s')) := by
  obtain ⟨s', h' | h'⟩ := runTwo_spec b sch partialEq verdict (fun _ => false) (fun _ _ _ h => h) prev qc1 qc2
    (initScheme_good info opOf file cfg matrix qc1 qc2 t sch hs) i1 i2 fuel hf
  · exact absurd h'.1 (by simp)
  obtain ⟨s, h | h⟩ := runTwo_spec b sch partialEq verdict stop hm prev qc1 qc2
    (initScheme_good info opOf file cfg matrix qc1 qc2 t sch hs) i1 i2 fuel hf
  · exact ⟨prev, s, s', h.2, Or.inl rfl⟩
  · exact ⟨_, s, s', h.2.1, Or.inr h'.2.1⟩

/-- **C50** for a fresh checker object (stored value `NoInformation`). -/
theorem fresh_stopped_checker_partial (b : Backend α π ρ M D) (info : α → OpInfo) (opOf : String → Option OpType)
    (file : Option (List Char)) (cfg : Configuration) (matrix : Bool) (t : SchemeType) (sch : Scheme α π)
    (qc1 qc2 : Circuit α π ρ) (hs : initScheme info opOf file cfg matrix qc1 qc2 t = .counts sch)
    (partialEq : Bool) (verdict : D → D → Criterion) (stop : Nat → Bool) (hm : Mono stop) (i1 i2 : D)
    (fuel : Nat) (hf : qc1.ops.length + qc2.ops.length + 2 ≤ fuel) :
    ∃ v s s', runTwo b sch partialEq verdict stop .noInformation qc1 qc2 i1 i2 fuel = .ok (v, s) ∧
      (v = .noInformation ∨
       runTwo b sch partialEq verdict (fun _ => false) .noInformation qc1 qc2 i1 i2 fuel = .ok (v, s')) :=
  stopped_checker_verdict b info opOf file cfg matrix t sch qc1 qc2 hs partialEq verdict stop hm _ i1 i2 fuel hf

/-- **C50 fails for a re-used checker** (the simulation checker is re-used for all stimuli,
`EquivalenceCheckingManager.cpp:436-451`): stopped before anything was applied, it returns the verdict of an earlier stimulus,
whatever the circuits are. -/
theorem reused_checker_stale_verdict (b : Backend α π ρ M D) (sch : Scheme α π) (partialEq : Bool)
    (verdict : D → D → Criterion) (prev : Criterion) (qc1 qc2 : Circuit α π ρ) (i1 i2 : D) :
    ∃ s, runTwo b sch partialEq verdict (fun _ => true) prev qc1 qc2 i1 i2 1 = .ok (prev, s) ∧
      s.c1.rest = qc1.ops ∧ s.c2.rest = qc2.ops ∧ s.d1 = i1 ∧ s.d2 = i2 := by
  unfold runTwo
  obtain ⟨k, _, hk⟩ := executeLoop_stopped b sch (fun _ => true) 0
    { c1 := .start qc1, d1 := i1, c2 := .start qc2, d2 := i2, polls := 0 } rfl
  rw [hk]
  exact ⟨_, rfl, rfl, rfl, rfl, rfl⟩

/-- **C50** (alternating checker): stopped at an arbitrary instant it returns the stored value or a verdict on the object with
all operations applied; it always terminates. -/
theorem stopped_alternating_verdict (b : Backend α π ρ M D) (isId : D → Bool) (opEq : α → α → Bool)
    (hcomm : ∀ m d m', b.mulR (b.mulL m d) m' = b.mulL m (b.mulR d m'))
    (info : α → OpInfo) (opOf : String → Option OpType) (file : Option (List Char)) (cfg : Configuration) (t : SchemeType)
    (sch : Scheme α π) (qc1 qc2 : Circuit α π ρ) (hs : initScheme info opOf file cfg true qc1 qc2 t = .counts sch)
    (hskip : ∀ o ∈ qc1.ops, ∀ o' ∈ qc2.ops, opEq o o' = false)
    (verdict : D → Criterion) (stop : Nat → Bool) (hm : Mono stop) (prev : Criterion) (init : D)
    (fuel : Nat) (hf : qc1.ops.length + qc2.ops.length + 2 ≤ fuel) :
    let full1 := applyAll b .left qc1.ops qc1.initialLayout init
    let full2 := applyAll b .right qc2.ops qc2.initialLayout full1.2
    let res := (b.changePerm false (b.changePerm true full2.2 full1.1 qc1.outputPermutation).1 full2.1 qc2.outputPermutation).1
    ∃ v s, runAlt b isId opEq (.counts sch) verdict stop prev qc1 qc2 init fuel = .ok (v, s) ∧
      (stop s.polls = true ∧ v = prev ∨ stop s.polls = false ∧ v = verdict res ∧ s.d = res) := by
  intro full1 full2 res
  have comm1 : ∀ (l : List α) (p : π) (d : D) (m : M),
      (applyAll b .right l p (b.mulL m d)).1 = (applyAll b .right l p d).1 ∧
      (applyAll b .right l p (b.mulL m d)).2 = b.mulL m (applyAll b .right l p d).2 := by
    intro l
    induction l with
    | nil => intro p d m; exact ⟨rfl, rfl⟩
    | cons op r ih =>
      intro p d m
      unfold applyAll
      simp only [Backend.applyOp]
      rw [hcomm]
      exact ih _ _ _
  -- everything still to be done, left first
  let I : List α → π → List α → π → D → Prop := fun r1 p1 r2 p2 d =>
    (applyAll b .left r1 p1 d).1 = full1.1 ∧
    applyAll b .right r2 p2 (applyAll b .left r1 p1 d).2 = full2 ∧
    (∀ o ∈ r1, o ∈ qc1.ops) ∧ (∀ o ∈ r2, o ∈ qc2.ops)
  have comm2 : ∀ (l : List α) (p : π) (d : D) (m : M),
      (applyAll b .left l p (b.mulR d m)).1 = (applyAll b .left l p d).1 ∧
      (applyAll b .left l p (b.mulR d m)).2 = b.mulR (applyAll b .left l p d).2 m := by
    intro l
    induction l with
    | nil => intro p d m; exact ⟨rfl, rfl⟩
    | cons op r ih =>
      intro p d m
      unfold applyAll
      simp only [Backend.applyOp]
      rw [← hcomm]
      exact ih _ _ _
  have hI : AltInv b isId opEq I := by
    refine ⟨?_, ?_, ?_⟩
    · rintro op r1 p1 r2 p2 d ⟨h1, h2, h3, h4⟩
      exact ⟨h1, h2, fun o ho => h3 o (List.mem_cons_of_mem _ ho), h4⟩
    · rintro op r1 p1 r2 p2 d ⟨h1, h2, h3, h4⟩
      simp only [I, Backend.applyOp] at h1 h2 ⊢
      rw [(comm2 _ _ _ _).1, (comm2 _ _ _ _).2]
      refine ⟨h1, ?_, h3, fun o ho => h4 o (List.mem_cons_of_mem _ ho)⟩
      simpa [applyAll, Backend.applyOp] using h2
    · rintro o1 o2 r1 p1 r2 p2 d _ he _ _ ⟨_, _, h3, h4⟩
      rw [hskip o1 (h3 _ List.mem_cons_self) o2 (h4 _ List.mem_cons_self)] at he
      exact absurd he (by simp)
  obtain ⟨s, h | h⟩ := runAlt_spec hI (.counts sch) verdict stop hm prev qc1 qc2
    (initScheme_good info opOf file cfg true qc1 qc2 t sch hs) init fuel hf ⟨rfl, rfl, fun _ h => h, fun _ h => h⟩
  · exact ⟨prev, s, h.2, Or.inl ⟨h.1, rfl⟩⟩
  · obtain ⟨h0, h1, p1, p2, d, hII, hd⟩ := h
    have e1 : p1 = full1.1 := hII.1
    have e2 : (p2, d) = full2 := hII.2.1
    have hres : s.d = res := by
      rw [hd, e1]
      simp only [res, ← e2]
    refine ⟨verdict s.d, s, h1, Or.inr ⟨h0, by rw [hres], hres⟩⟩

/-- Witness: the hypotheses are satisfiable by a non-trivial circuit (three operations against two). -/
example : ∃ sch : Scheme Nat Unit,
    initScheme (fun _ => ⟨.H, 0, 1⟩) (fun _ => none) none (Configuration.default 8 0) true
      ({ ops := [1, 2, 3], initialLayout := (), outputPermutation := () } : Circuit Nat Unit Unit)
      { ops := [4, 5], initialLayout := (), outputPermutation := () } .proportional = .counts sch := ⟨_, rfl⟩

end
end QCEC.Props
