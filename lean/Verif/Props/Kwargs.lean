import Verif.Spec.Python
import Mathlib.Tactic.ByContra
import Mathlib.Data.List.Nodup
/-!
# Properties: keyword arguments (C31), `verify_compilation` (C53)
-/
namespace QCEC.Props
open QCEC QCEC.Py QCEC.Spec.Py

variable {V : Type}

/-- All attributes of all sections in the order of the search. -/
def allAttrs : List (String × Opt) :=
  [Section.application, .execution, .functionality, .optimizations, .parameterized, .simulation].flatMap Section.attrs

theorem attrs_names_distinct : (allAttrs.map Prod.fst).Nodup := by decide

theorem attrs_documented : ∀ e, e ∈ allAttrs ↔ e ∈ documented := by
  intro e
  constructor
  · revert e; decide
  · revert e; decide

theorem findAttr_eq (k : String) : findAttr k = (allAttrs.find? fun a => a.1 == k).map (·.2) := by
  have key : ∀ l : List Section, l.findSome? (fun s => (s.attrs.find? fun a => a.1 == k).map (·.2)) =
      ((l.flatMap Section.attrs).find? fun a => a.1 == k).map (·.2) := by
    intro l
    induction l with
    | nil => rfl
    | cons s r ih =>
      rw [List.findSome?_cons, List.flatMap_cons, List.find?_append]
      cases h : s.attrs.find? fun a => a.1 == k with
      | none => simpa using ih
      | some e => simp
  exact key _

/-- **C31.** A keyword is accepted exactly if it is documented, and stands for the documented option; no name occurs in two sections, so the
order in which the sections are searched does not matter. -/
theorem keyword_iff_documented (k : String) (o : Opt) : findAttr k = some o ↔ (k, o) ∈ documented := by
  rw [findAttr_eq, ← attrs_documented]
  constructor
  · intro h
    obtain ⟨⟨k', o'⟩, he, rfl⟩ := Option.map_eq_some_iff.1 h
    have h1 := List.mem_of_find?_eq_some he
    have h2 := List.find?_some he
    simp at h2
    subst h2
    exact h1
  · intro h
    have : allAttrs.find? (fun a => a.1 == k) = some (k, o) := by
      cases hf : allAttrs.find? (fun a => a.1 == k) with
      | none =>
        have := List.find?_eq_none.1 hf (k, o) h
        simp at this
      | some e =>
        have h1 := List.mem_of_find?_eq_some hf
        have h2 := List.find?_some hf
        simp at h2
        have : e = (k, o) := List.inj_on_of_nodup_map attrs_names_distinct h1 h h2
        rw [this]
    rw [this]; rfl

/-- Every option has exactly one keyword. -/
theorem option_has_keyword (o : Opt) : ∃ k, findAttr k = some o ∧ ∀ k', findAttr k' = some o → k' = k := by
  have h1 : ∀ o : Opt, ∃ k, (k, o) ∈ documented := by
    intro o
    cases o <;> exact ⟨_, by simp [documented]; rfl⟩
  have h2 : (documented.map Prod.snd).Nodup := by decide
  obtain ⟨k, hk⟩ := h1 o
  refine ⟨k, (keyword_iff_documented k o).2 hk, ?_⟩
  intro k' hk'
  have := List.inj_on_of_nodup_map h2 ((keyword_iff_documented k' o).1 hk') hk rfl
  exact congrArg Prod.fst this

/-- Assigning an option. -/
theorem setField_spec {c c' : Configuration} {o : Opt} {f : FieldVal} (h : setField c o f = some c') (o' : Opt) :
    read c' o' = if o' = o then f else read c o' := by
  cases o <;> cases f <;> simp only [setField, Option.some.injEq, reduceCtorEq] at h <;> subst h <;> cases o' <;> rfl

theorem setField_defined (c : Configuration) {o : Opt} {f : FieldVal} (h : f.kind = o.kind) : ∃ c', setField c o f = some c' := by
  cases o <;> cases f <;> first | exact ⟨_, rfl⟩ | (simp [FieldVal.kind, Opt.kind] at h)

theorem setField_cost {c c' : Configuration} {o : Opt} {f : FieldVal} (h : setField c o f = some c') :
    c'.application.costFunction = c.application.costFunction := by
  cases o <;> cases f <;> simp only [setField, Option.some.injEq, reduceCtorEq] at h <;> subst h <;> rfl

/-- A configuration is determined by its options and its cost function. -/
theorem config_ext {c c' : Configuration} (h : ∀ o, read c o = read c' o) (hc : c.application.costFunction = c'.application.costFunction) : c = c' := by
  rcases c with ⟨⟨e1, e2, e3, e4, e5, e6, e7, e8⟩, ⟨o1, o2, o3, o4, o5, o6, o7⟩, ⟨a1, a2, a3, a4, a5⟩, ⟨f1, f2⟩, ⟨s1, s2, s3, s4, s5, s6⟩, ⟨p1, p2⟩⟩
  rcases c' with ⟨⟨e1', e2', e3', e4', e5', e6', e7', e8'⟩, ⟨o1', o2', o3', o4', o5', o6', o7'⟩, ⟨a1', a2', a3', a4', a5'⟩, ⟨f1', f2'⟩, ⟨s1', s2', s3', s4', s5', s6'⟩, ⟨p1', p2'⟩⟩
  simp only at hc
  subst hc
  have t1 := h .parallel
  have t2 := h .nthreads
  have t3 := h .timeout
  have t4 := h .runConstruction
  have t5 := h .runSimulation
  have t6 := h .runAlternating
  have t7 := h .runZX
  have t8 := h .numericalTolerance
  have t9 := h .fuseSingleQubitGates
  have t10 := h .reconstructSwaps
  have t11 := h .removeDiagonal
  have t12 := h .transformDynamic
  have t13 := h .reorder
  have t14 := h .backpropagate
  have t15 := h .elide
  have t16 := h .constructionScheme
  have t17 := h .simulationScheme
  have t18 := h .alternatingScheme
  have t19 := h .profile
  have t20 := h .traceThreshold
  have t21 := h .partialEquivalence
  have t22 := h .fidelityThreshold
  have t23 := h .maxSims
  have t24 := h .stateType
  have t25 := h .seed
  have t26 := h .storeCexInput
  have t27 := h .storeCexOutput
  have t28 := h .parameterizedTolerance
  have t29 := h .additionalInstantiations
  simp only [QCEC.Spec.Py.read, FieldVal.bool.injEq, FieldVal.nat.injEq, FieldVal.rat.injEq, FieldVal.str.injEq, FieldVal.scheme.injEq,
    FieldVal.state.injEq] at t1 t2 t3 t4 t5 t6 t7 t8 t9 t10 t11 t12 t13 t14 t15 t16 t17 t18 t19 t20 t21 t22 t23 t24 t25 t26 t27 t28 t29
  subst t1 t2 t3 t4 t5 t6 t7 t8 t9 t10 t11 t12 t13 t14 t15 t16 t17 t18 t19 t20 t21 t22 t23 t24 t25 t26 t27 t28 t29
  rfl

/-- **C31.** If no exception is raised, every keyword is documented and its value convertible, and every option has the value of its keyword,
or its old value if its keyword is not given. -/
theorem augment_spec {conv : Kind → V → Option FieldVal} {kwargs : List (String × V)} (hk : (kwargs.map Prod.fst).Nodup)
    {c c' : Configuration} (h : augment conv c kwargs = (c', none)) :
    (∀ k v, (k, v) ∈ kwargs → ∃ o, (k, o) ∈ documented ∧ conv o.kind v = some (read c' o)) ∧
    (∀ k o, (k, o) ∈ documented → k ∉ kwargs.map Prod.fst → read c' o = read c o) ∧
    c'.application.costFunction = c.application.costFunction := by
  induction kwargs generalizing c with
  | nil =>
    simp only [augment, Prod.mk.injEq] at h
    rw [h.1]
    simp
  | cons e r ih =>
    obtain ⟨k, v⟩ := e
    simp only [List.map_cons, List.nodup_cons] at hk
    rw [augment] at h
    split at h
    · simp at h
    · rename_i o ho
      split at h
      · simp at h
      · rename_i c1 hs
        obtain ⟨i1, i2, i3⟩ := ih hk.2 h
        obtain ⟨f, hf, hset⟩ := Option.bind_eq_some_iff.1 hs
        have hdoc := (keyword_iff_documented k o).1 ho
        refine ⟨?_, ?_, ?_⟩
        · intro k' v' hm
          rcases List.mem_cons.1 hm with e | hm
          · simp only [Prod.mk.injEq] at e
            obtain ⟨rfl, rfl⟩ := e
            refine ⟨o, hdoc, ?_⟩
            rw [i2 k' o hdoc hk.1, setField_spec hset o, if_pos rfl, hf]
          · exact i1 k' v' hm
        · intro k' o' hd hn
          simp only [List.map_cons, List.mem_cons, not_or] at hn
          rw [i2 k' o' hd hn.2, setField_spec hset o', if_neg]
          rintro rfl
          obtain ⟨k0, _, hu⟩ := option_has_keyword o'
          rw [← keyword_iff_documented] at hd
          rw [hu k' hd, ← hu k ho] at hn
          exact hn.1 rfl
        · rw [i3, setField_cost hset]

/-- **C31.** Documented keywords with convertible values raise no exception. -/
theorem augment_accepts {conv : Kind → V → Option FieldVal} (ht : Typed conv) {kwargs : List (String × V)}
    (h : ∀ k v, (k, v) ∈ kwargs → ∃ o, (k, o) ∈ documented ∧ (conv o.kind v).isSome = true) (c : Configuration) :
    ∃ c', augment conv c kwargs = (c', none) := by
  induction kwargs generalizing c with
  | nil => exact ⟨c, rfl⟩
  | cons e r ih =>
    obtain ⟨k, v⟩ := e
    obtain ⟨o, hd, hc⟩ := h k v (by simp)
    obtain ⟨f, hf⟩ := Option.isSome_iff_exists.1 hc
    obtain ⟨c1, h1⟩ := setField_defined c (ht _ _ _ hf)
    obtain ⟨c', h2⟩ := ih (fun k v hm => h k v (by simp [hm])) c1
    refine ⟨c', ?_⟩
    rw [augment, (keyword_iff_documented k o).2 hd]
    simp only [setAttr, hf, Option.bind_some, h1, h2]

/-- **C31.** An undocumented keyword raises `ValueError` if the keywords before it are in order. -/
theorem augment_rejects {conv : Kind → V → Option FieldVal} (ht : Typed conv) {pre post : List (String × V)} {k : String} {v : V}
    (h : ∀ k v, (k, v) ∈ pre → ∃ o, (k, o) ∈ documented ∧ (conv o.kind v).isSome = true) (hk : ∀ o, (k, o) ∉ documented) (c : Configuration) :
    ∃ c', augment conv c pre = (c', none) ∧ augment conv c (pre ++ (k, v) :: post) = (c', some (.valueError k)) := by
  induction pre generalizing c with
  | nil =>
    refine ⟨c, rfl, ?_⟩
    have : findAttr k = none := by
      by_contra hne
      obtain ⟨o, ho⟩ := Option.ne_none_iff_exists'.1 hne
      exact hk o ((keyword_iff_documented k o).1 ho)
    simp [augment, this]
  | cons e r ih =>
    obtain ⟨k1, v1⟩ := e
    obtain ⟨o, hd, hc⟩ := h k1 v1 (by simp)
    obtain ⟨f, hf⟩ := Option.isSome_iff_exists.1 hc
    obtain ⟨c1, h1⟩ := setField_defined c (ht _ _ _ hf)
    obtain ⟨c', h2, h3⟩ := ih (fun k v hm => h k v (by simp [hm])) c1
    refine ⟨c', ?_, ?_⟩
    · rw [augment, (keyword_iff_documented k1 o).2 hd]
      simp only [setAttr, hf, Option.bind_some, h1, h2]
    · rw [List.cons_append, augment, (keyword_iff_documented k1 o).2 hd]
      simp only [setAttr, hf, Option.bind_some, h1, h3]

/-- **C31.** The order of the keywords does not matter. -/
theorem augment_order {conv : Kind → V → Option FieldVal} (ht : Typed conv) {kwargs kwargs' : List (String × V)} (hp : kwargs.Perm kwargs')
    (hk : (kwargs.map Prod.fst).Nodup) {c c' : Configuration} (h : augment conv c kwargs = (c', none)) :
    augment conv c kwargs' = (c', none) := by
  have hk' : (kwargs'.map Prod.fst).Nodup := (hp.map Prod.fst).nodup_iff.1 hk
  obtain ⟨a1, a2, a3⟩ := augment_spec hk h
  obtain ⟨d, hd⟩ := augment_accepts ht (kwargs := kwargs') (fun k v hm => by
    obtain ⟨o, x, y⟩ := a1 k v (hp.mem_iff.2 hm)
    exact ⟨o, x, by rw [y]; rfl⟩) c
  obtain ⟨b1, b2, b3⟩ := augment_spec hk' hd
  have : d = c' := by
    refine config_ext ?_ (b3.trans a3.symm)
    intro o
    obtain ⟨k, ho, _⟩ := option_has_keyword o
    have hdoc := (keyword_iff_documented k o).1 ho
    by_cases hm : k ∈ kwargs.map Prod.fst
    · obtain ⟨⟨k0, v⟩, hv, rfl⟩ := List.mem_map.1 hm
      obtain ⟨o1, x1, y1⟩ := a1 _ v hv
      obtain ⟨o2, x2, y2⟩ := b1 _ v (hp.mem_iff.1 hv)
      have e1 : o1 = o := by have := (keyword_iff_documented _ o1).2 x1; rw [ho] at this; simpa using this.symm
      have e2 : o2 = o := by have := (keyword_iff_documented _ o2).2 x2; rw [ho] at this; simpa using this.symm
      subst e1
      subst e2
      rw [y1] at y2
      simpa using y2.symm
    · rw [a2 k o hdoc hm, b2 k o hdoc (fun hx => hm ((hp.map Prod.fst).mem_iff.2 hx))]
  rw [hd, this]

/-- **C31, limit.** An exception does not undo what was done: the configuration object the caller passed keeps the options set before. -/
theorem augment_leaves_partial_changes :
    ∃ (conv : Kind → FieldVal → Option FieldVal) (c : Configuration), Typed conv ∧
      read (verifyConfig conv c (some c) [("parallel", .bool false), ("no_such_option", .bool true)]).1 .parallel ≠ read c .parallel ∧
      (verifyConfig conv c (some c) [("parallel", .bool false), ("no_such_option", .bool true)]).2 = some (.valueError "no_such_option") := by
  refine ⟨fun k f => if f.kind = k then some f else none, Configuration.default 8 0, ?_, by decide, by decide⟩
  intro k v f h
  dsimp only at h
  split at h
  · simp at h; subst h; assumption
  · cases h

/-! ## `verify_compilation` -/

/-- **C53.** The configuration used: every option has the value of its keyword or else of the given (or default) configuration, except that all
three application schemes are the gate-cost scheme and the profile is that of the optimisation level and ancilla mode. -/
theorem compilation_config {conv : Kind → V → Option FieldVal} {kwargs : List (String × V)} (hk : (kwargs.map Prod.fst).Nodup)
    {default : Configuration} {given : Option Configuration} {dir level : String} {mode : AncillaMode} {c' : Configuration}
    (h : compilationConfig conv default given kwargs dir level mode = (c', none)) :
    (∀ o, o = .constructionScheme ∨ o = .simulationScheme ∨ o = .alternatingScheme → read c' o = .scheme .gateCost) ∧
    read c' .profile = .str (dir ++ "qiskit_O" ++ level ++ "_" ++ mode.str ++ ".profile") ∧
    ∀ k o, (k, o) ∈ documented → o ≠ .constructionScheme → o ≠ .simulationScheme → o ≠ .alternatingScheme → o ≠ .profile →
      (∀ v, (k, v) ∈ kwargs → conv o.kind v = some (read c' o)) ∧ (k ∉ kwargs.map Prod.fst → read c' o = read (given.getD default) o) := by
  unfold compilationConfig at h
  split at h
  · simp at h
  · rename_i c hc
    simp only [verifyConfig, Option.getD_some, augment, Prod.mk.injEq, and_true] at h
    subst h
    obtain ⟨a1, a2, _⟩ := augment_spec hk hc
    have same : ∀ o : Opt, o ≠ .constructionScheme → o ≠ .simulationScheme → o ≠ .alternatingScheme → o ≠ .profile →
        read { c with application := { c.application with constructionScheme := .gateCost, simulationScheme := .gateCost, alternatingScheme := .gateCost,
                                                          profile := dir ++ profileName level mode } } o = read c o := by
      intro o h1 h2 h3 h4
      cases o <;> first | rfl | contradiction
    refine ⟨?_, ?_, ?_⟩
    · rintro o (rfl | rfl | rfl) <;> rfl
    · simp only [QCEC.Spec.Py.read, profileName, String.append_assoc]
    · intro k o hd h1 h2 h3 h4
      have e := same o h1 h2 h3 h4
      refine ⟨?_, ?_⟩
      · intro v hv
        obtain ⟨o', hd', hv'⟩ := a1 k v hv
        have : o' = o := by
          have x := (keyword_iff_documented _ o').2 hd'
          rw [(keyword_iff_documented _ o).2 hd] at x
          simpa using x.symm
        subst this
        rw [hv']
        exact congrArg some e.symm
      · intro hn
        exact e.trans (a2 k o hd hn)

/-- **C53.** The twelve shipped profiles have different names. -/
theorem profileName_inj : ∀ l ∈ ["0", "1", "2", "3"], ∀ m, ∀ l' ∈ ["0", "1", "2", "3"], ∀ m', profileName l m = profileName l' m' → l = l' ∧ m = m' := by
  intro l hl m l' hl' m'
  simp only [List.mem_cons, List.not_mem_nil, or_false] at hl hl'
  rcases hl with rfl | rfl | rfl | rfl <;> rcases hl' with rfl | rfl | rfl | rfl <;> cases m <;> cases m' <;> decide

/-- **C53.** The file names under `src/mqt/qcec/profiles` in the repository. -/
def shippedProfiles : List String :=
  ["qiskit_O0_noancilla.profile", "qiskit_O0_recursion.profile", "qiskit_O0_v-chain.profile",
   "qiskit_O1_noancilla.profile", "qiskit_O1_recursion.profile", "qiskit_O1_v-chain.profile",
   "qiskit_O2_noancilla.profile", "qiskit_O2_recursion.profile", "qiskit_O2_v-chain.profile",
   "qiskit_O3_noancilla.profile", "qiskit_O3_recursion.profile", "qiskit_O3_v-chain.profile"]

/-- **C53.** For every optimisation level 0 to 3 and every ancilla mode the profile asked for is shipped, and every shipped profile is asked
for by some level and mode (by exactly one: `profileName_inj`). -/
theorem profileName_shipped (f : String) : f ∈ shippedProfiles ↔ ∃ l ∈ ["0", "1", "2", "3"], ∃ m, profileName l m = f := by
  constructor
  · intro h
    simp only [shippedProfiles, List.mem_cons, List.not_mem_nil, or_false] at h
    rcases h with rfl | rfl | rfl | rfl | rfl | rfl | rfl | rfl | rfl | rfl | rfl | rfl
    · exact ⟨"0", by simp, .noAncilla, by decide⟩
    · exact ⟨"0", by simp, .recursion, by decide⟩
    · exact ⟨"0", by simp, .vChain, by decide⟩
    · exact ⟨"1", by simp, .noAncilla, by decide⟩
    · exact ⟨"1", by simp, .recursion, by decide⟩
    · exact ⟨"1", by simp, .vChain, by decide⟩
    · exact ⟨"2", by simp, .noAncilla, by decide⟩
    · exact ⟨"2", by simp, .recursion, by decide⟩
    · exact ⟨"2", by simp, .vChain, by decide⟩
    · exact ⟨"3", by simp, .noAncilla, by decide⟩
    · exact ⟨"3", by simp, .recursion, by decide⟩
    · exact ⟨"3", by simp, .vChain, by decide⟩
  · rintro ⟨l, hl, m, rfl⟩
    simp only [List.mem_cons, List.not_mem_nil, or_false] at hl
    rcases hl with rfl | rfl | rfl | rfl <;> cases m <;> decide

/-- **C53, limit.** Contrary to the documentation ("existing configuration is overridden by keyword arguments"), a scheme or profile given as a
keyword is ignored. -/
theorem compilation_ignores_scheme (conv : Kind → V → Option FieldVal) (v : V) {f : FieldVal} (hf : conv .scheme v = some f)
    (ht : f.kind = .scheme) (default : Configuration) (given : Option Configuration) (dir level : String) (mode : AncillaMode) :
    read (compilationConfig conv default given [("alternating_scheme", v)] dir level mode).1 .alternatingScheme = .scheme .gateCost := by
  have h1 : findAttr "alternating_scheme" = some .alternatingScheme := by decide
  cases f with
  | scheme s =>
    unfold compilationConfig
    simp only [augment, h1, setAttr]
    have : conv Opt.alternatingScheme.kind v = some (.scheme s) := hf
    simp only [this, Option.bind_some, setField]
    rfl
  | _ => cases ht

/-- The hypotheses are met: a call with three keywords. -/
example : (verifyConfig (fun k (f : FieldVal) => if f.kind = k then some f else none) (Configuration.default 8 0) none
    [("max_sims", .nat 3), ("state_type", .state .stabilizer), ("timeout", .rat 60)]).2 = none := by decide

end QCEC.Props
