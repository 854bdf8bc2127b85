import Verif.Spec.PythonVerify
import Verif.Props.Kwargs
import Verif.Props.VerifyDecides
import Verif.Props.VerifyPartialDecides
/-!
# Properties: what a call asks for does not change what is found (C84); verdicts form an equivalence relation (C85)
-/
namespace QCEC.Props
open QCEC QCEC.Py QCEC.Mgr QCEC.Prep QCEC.Spec QCEC.Spec.Py QCEC.Spec.Wide

variable {V : Type} {conv : Py.Kind → V → Option FieldVal} {default : Configuration} {w w' : Param.World} {i₁ i₂ : Param.Input} {cfg cfg' : Configuration}
  {res res' : Param.Res}

theorem opt_documented (o : Opt) : ∃ k, (k, o) ∈ documented := by
  have h : ∀ o : Opt, o ∈ documented.map Prod.snd := by intro o; cases o <;> decide
  obtain ⟨⟨k, _⟩, h, rfl⟩ := List.mem_map.1 (h o)
  exact ⟨k, h⟩

theorem asked_read {kwargs : List (String × V)} (hk : (kwargs.map Prod.fst).Nodup) {base c : Configuration} (h : augment conv base kwargs = (c, none))
    {k : String} {o : Opt} (hd : (k, o) ∈ documented) : Asked conv base kwargs k o (read c o) := by
  obtain ⟨a1, a2, _⟩ := augment_spec hk h
  by_cases hm : k ∈ kwargs.map Prod.fst
  · obtain ⟨⟨k', v⟩, hv, rfl⟩ := List.mem_map.1 hm
    obtain ⟨o', hd', hv'⟩ := a1 k' v hv
    have : o' = o := by
      have x := (keyword_iff_documented _ o').2 hd'
      rw [(keyword_iff_documented _ o).2 hd] at x
      simpa using x.symm
    subst this
    exact Or.inl ⟨v, hv, hv'⟩
  · exact Or.inr ⟨hm, (a2 k o hd hm).symm⟩

theorem asked_iff {kwargs : List (String × V)} (hk : (kwargs.map Prod.fst).Nodup) {base c : Configuration} (h : augment conv base kwargs = (c, none))
    {k : String} {o : Opt} (hd : (k, o) ∈ documented) (f : FieldVal) : read c o = f ↔ Asked conv base kwargs k o f := by
  refine ⟨fun e => e ▸ asked_read hk h hd, fun ha => ?_⟩
  have hb := asked_read hk h hd
  rcases ha with ⟨v, hv, e⟩ | ⟨hn, e⟩ <;> rcases hb with ⟨v', hv', e'⟩ | ⟨hn', e'⟩
  · have : v = v' := by
      have := List.inj_on_of_nodup_map hk hv hv' rfl
      exact (Prod.mk.inj this).2
    subst this
    rw [e] at e'
    exact (Option.some.inj e').symm
  · exact absurd (List.mem_map_of_mem (f := Prod.fst) hv) hn'
  · exact absurd (List.mem_map_of_mem (f := Prod.fst) hv') hn
  · rw [← e, ← e']

theorem checkWith_ok {p : Configuration × Option Py.Err} (h : checkWith w i₁ i₂ p = .ok res) : p.2 = none ∧ Param.verify w p.1 i₁ i₂ = .ok res := by
  rcases p with ⟨c, _ | e⟩
  · refine ⟨rfl, ?_⟩
    unfold checkWith at h
    simp only at h
    split at h
    · exact absurd h (by simp)
    · rename_i r hr
      rw [hr]
      cases h
      rfl
  · exact absurd h (by simp [checkWith])

theorem compilation_asked {kwargs : List (String × V)} (hk : (kwargs.map Prod.fst).Nodup) {given : Option Configuration} {dir level : String}
    {mode : AncillaMode} {c : Configuration} (h : compilationConfig conv default given kwargs dir level mode = (c, none)) {k : String} {o : Opt}
    (hd : (k, o) ∈ documented) (f : FieldVal) : read c o = f ↔ if o = .constructionScheme ∨ o = .simulationScheme ∨ o = .alternatingScheme then
      f = .scheme .gateCost else if o = .profile then f = .str (dir ++ "qiskit_O" ++ level ++ "_" ++ mode.str ++ ".profile")
      else Asked conv (given.getD default) kwargs k o f := by
  obtain ⟨a, b, _⟩ := compilation_config hk h
  by_cases hs : o = .constructionScheme ∨ o = .simulationScheme ∨ o = .alternatingScheme
  · rw [if_pos hs, a o hs]
    exact eq_comm
  · rw [if_neg hs]
    by_cases hp : o = .profile
    · rw [if_pos hp, hp, b]
      exact eq_comm
    · rw [if_neg hp]
      push Not at hs
      unfold compilationConfig at h
      split at h
      · simp at h
      · rename_i c' hc
        simp only [verifyConfig, Option.getD_some, augment, Prod.mk.injEq, and_true] at h
        subst h
        refine Iff.trans ?_ (asked_iff hk hc hd f)
        have e : ∀ p, read { c' with application := { c'.application with constructionScheme := .gateCost, simulationScheme := .gateCost, alternatingScheme := .gateCost, profile := p } } o = read c' o := by
          intro p
          cases o <;> first | rfl | simp at hs hp
        rw [e]

theorem compilation_cost {kwargs : List (String × V)} (hk : (kwargs.map Prod.fst).Nodup) {given : Option Configuration} {dir level : String}
    {mode : AncillaMode} {c : Configuration} (h : compilationConfig conv default given kwargs dir level mode = (c, none)) :
    c.application.costFunction = (given.getD default).application.costFunction := by
  unfold compilationConfig at h
  split at h
  · simp at h
  · rename_i c' hc
    simp only [verifyConfig, Option.getD_some, augment, Prod.mk.injEq, and_true] at h
    subst h
    exact (augment_spec hk hc).2.2

/-- **C84.** A call checks the circuits with the configuration that was asked for … -/
theorem call_verify (h : Call conv default w i₁ i₂ cfg res) : Param.verify w cfg i₁ i₂ = .ok res := by
  cases h with
  | verify given kwargs hk h hc hf =>
    obtain ⟨he, hv⟩ := checkWith_ok h
    obtain ⟨c, hcfg⟩ : ∃ c, augment conv (given.getD default) kwargs = (c, none) := ⟨_, Prod.ext rfl he⟩
    have : c = cfg := by
      refine config_ext (fun o => ?_) ?_
      · obtain ⟨k, hd⟩ := opt_documented o
        exact ((hc k o _ hd).2 (asked_read hk hcfg hd)).symm
      · rw [hf]
        exact (augment_spec hk hcfg).2.2
    rw [verifyConfig, hcfg, this] at hv
    exact hv
  | compilation dir level mode given kwargs hk h hc hf =>
    obtain ⟨he, hv⟩ := checkWith_ok h
    obtain ⟨c, hcfg⟩ : ∃ c, compilationConfig conv default given kwargs dir level mode = (c, none) := ⟨_, Prod.ext rfl he⟩
    have : c = cfg := by
      refine config_ext (fun o => ?_) ?_
      · obtain ⟨k, hd⟩ := opt_documented o
        exact ((hc k o _ hd).2 ((compilation_asked hk hcfg hd _).1 rfl)).symm
      · rw [hf]
        exact compilation_cost hk hcfg
    rw [hcfg, this] at hv
    exact hv

/-- … and every call of `verify` that returns is one. -/
theorem verify_call {given : Option Configuration} {kwargs : List (String × V)} (hk : (kwargs.map Prod.fst).Nodup)
    (h : verifyCall conv default w i₁ i₂ given kwargs = .ok res) : ∃ cfg, Call conv default w i₁ i₂ cfg res := by
  obtain ⟨he, _⟩ := checkWith_ok h
  obtain ⟨c, hcfg⟩ : ∃ c, augment conv (given.getD default) kwargs = (c, none) := ⟨_, Prod.ext rfl he⟩
  exact ⟨c, .verify given kwargs hk h (fun k o f hd => asked_iff hk hcfg hd f) (augment_spec hk hcfg).2.2⟩

/-- … and every call of `verify_compilation` that returns. -/
theorem compilation_call {dir level : String} {mode : AncillaMode} {given : Option Configuration} {kwargs : List (String × V)}
    (hk : (kwargs.map Prod.fst).Nodup) (h : verifyCompilationCall conv default w dir i₁ i₂ level mode given kwargs = .ok res) :
    ∃ cfg, Call conv default w i₁ i₂ cfg res := by
  obtain ⟨he, _⟩ := checkWith_ok h
  obtain ⟨c, hcfg⟩ : ∃ c, compilationConfig conv default given kwargs dir level mode = (c, none) := ⟨_, Prod.ext rfl he⟩
  exact ⟨c, .compilation dir level mode given kwargs hk h (fun k o f hd => compilation_asked hk hcfg hd f) (compilation_cost hk hcfg)⟩

/-! ## Verdicts about the circuits -/

variable {imp imp' : Param.Subject → Option (Circ WOp)} {c1 c2 c3 : Circ WOp} {j₁ j₂ : Param.Input}

/-- The verdict of a call is true of the circuits (C81, C53). -/
theorem call_verdict_true (hw : Realises lib imp w) (h : Call conv default w i₁ i₂ cfg res) (hp : cfg.functionality.checkPartialEquivalence = false)
    (hs1 : ¬ Spec.Param.Symbolic i₁) (hs2 : ¬ Spec.Param.Symbolic i₂) (h1 : imp (.given i₁) = some c1) (h2 : imp (.given i₂) = some c2)
    (r1 : Runnable c1) (r2 : Runnable c2) : Verdict lib c1 c2 cfg [] res.equivalence ∨ res.equivalence = .equivalent ∧ CrossedShortcut lib c1 c2 cfg ∨
      Misled lib c1 c2 cfg [] :=
  verify_verdict_true hw hp hs1 hs2 h1 h2 r1 r2 (call_verify h)

variable {V' V'' : Type} {conv' : Py.Kind → V' → Option FieldVal} {conv'' : Py.Kind → V'' → Option FieldVal} {cfg'' : Configuration} {v v' v'' : Criterion}

theorem fullyChecked_decides (h : FullyChecked lib conv c1 c2 cfg v) (r1 : Runnable c1) (r2 : Runnable c2) (ha : SameAncillas c1 c2) (hl : AncillasLast c1) :
    Decided c1 c2 v ∨ Excused lib c1 c2 cfg v := by
  obtain ⟨d, imp, w, hw, i₁, i₂, res, h, hp, hs1, hs2, h1, h2, hen, rfl⟩ := h
  exact verify_decides hw hp hs1 hs2 hen h1 h2 r1 r2 ha hl (call_verify h)

theorem decided_unique (h : Decided c1 c2 v) (h' : Decided c1 c2 v') : v = v' := by
  have up : Equal c1 c2 → EqualUpToPhase c1 c2 := fun h => ⟨1, by simp, h⟩
  by_cases he : Equal c1 c2
  · rw [h.equivalent.2 he, h'.equivalent.2 he]
  · by_cases hp : EqualUpToPhase c1 c2
    · rw [h.phase.2 ⟨hp, he⟩, h'.phase.2 ⟨hp, he⟩]
    · rw [h.notEquivalent.2 hp, h'.notEquivalent.2 hp]

/-- **C84.** Two uninterrupted calls for the same circuits have the same verdict, whatever options they ask for and however their threads are scheduled. -/
theorem same_verdict (h : FullyChecked lib conv c1 c2 cfg v) (h' : FullyChecked lib' conv' c1 c2 cfg' v') (r1 : Runnable c1) (r2 : Runnable c2)
    (ha : SameAncillas c1 c2) (hl : AncillasLast c1) : v = v' ∨ Excused lib c1 c2 cfg v ∨ Excused lib' c1 c2 cfg' v' := by
  rcases fullyChecked_decides h r1 r2 ha hl with hd | hd
  · rcases fullyChecked_decides h' r1 r2 ha hl with hd' | hd'
    · exact Or.inl (decided_unique hd hd')
    · exact Or.inr (Or.inr hd')
  · exact Or.inr (Or.inl hd)

/-! ## An equivalence relation -/

theorem equalUpTo_refl (c : Circ WOp) : EqualUpTo 1 c c := fun v _ x => by rw [one_mul]

theorem fixed_symm {q : Nat} : Fixed c1 c2 q ↔ Fixed c2 c1 q := by unfold Fixed; tauto

theorem zero_mono {F G : Nat → Prop} (h : ∀ q, F q → G q) {v : Bits → ℂ} (hv : Spec.Wide.Zero G v) : Spec.Wide.Zero F v :=
  fun x hx q hq => hv x hx q (h q hq)

theorem equalUpTo_symm {k : ℂ} (hk : k ≠ 0) (h : EqualUpTo k c1 c2) : EqualUpTo k⁻¹ c2 c1 := fun v hv x => by
  rw [h v (zero_mono (fun q => fixed_symm.1) hv) x, inv_mul_cancel_left₀ hk]

theorem equal_symm : Equal c1 c2 ↔ Equal c2 c1 := by
  constructor <;> intro h <;> simpa [Equal] using equalUpTo_symm one_ne_zero h

theorem equalUpToPhase_symm : EqualUpToPhase c1 c2 ↔ EqualUpToPhase c2 c1 := by
  constructor <;> rintro ⟨k, hk, h⟩ <;>
    exact ⟨k⁻¹, by rw [norm_inv, hk, inv_one], equalUpTo_symm (by rintro rfl; simp at hk) h⟩

/-- Qubits fixed when the first two circuits are compared are fixed when the first and the third are: the middle circuit has at least the qubits both others
have. -/
theorem fixed_left (ha : SameAncillas c1 c2) (hb : SameAncillas c2 c3) (hw : min c1.nqubits c3.nqubits ≤ c2.nqubits) {q : Nat} (h : Fixed c1 c2 q) :
    Fixed c1 c3 q := by
  by_cases h1 : c1.nqubits ≤ q
  · exact Or.inl h1
  by_cases h3 : c3.nqubits ≤ q
  · exact Or.inr (Or.inl h3)
  have h2 : ¬ c2.nqubits ≤ q := by omega
  have e := ha q (by omega) (by omega)
  rcases h with h | h | h | h
  · exact absurd h h1
  · exact absurd h h2
  · exact Or.inr (Or.inr (Or.inl h))
  · exact Or.inr (Or.inr (Or.inl (e.trans h)))

theorem sameAncillas_symm (ha : SameAncillas c1 c2) : SameAncillas c2 c1 := fun q a b => (ha q b a).symm

theorem sameAncillas_trans (ha : SameAncillas c1 c2) (hb : SameAncillas c2 c3) (hw : min c1.nqubits c3.nqubits ≤ c2.nqubits) : SameAncillas c1 c3 :=
  fun q a b => (ha q a (by omega)).trans (hb q (by omega) b)

theorem equalUpTo_trans (ha : SameAncillas c1 c2) (hb : SameAncillas c2 c3) (hw : min c1.nqubits c3.nqubits ≤ c2.nqubits) {k l : ℂ}
    (h : EqualUpTo k c1 c2) (h' : EqualUpTo l c2 c3) : EqualUpTo (k * l) c1 c3 := fun v hv x => by
  rw [h v (zero_mono (fun q hq => fixed_left ha hb hw hq) hv) x, h' v (zero_mono (fun q hq => ?_) hv) x, mul_assoc]
  exact fixed_symm.1 (fixed_left (sameAncillas_symm hb) (sameAncillas_symm ha) (by omega) (fixed_symm.1 hq))

theorem equal_trans (ha : SameAncillas c1 c2) (hb : SameAncillas c2 c3) (hw : min c1.nqubits c3.nqubits ≤ c2.nqubits) (h : Equal c1 c2) (h' : Equal c2 c3) :
    Equal c1 c3 := by simpa [Equal] using equalUpTo_trans ha hb hw h h'

theorem equalUpToPhase_trans (ha : SameAncillas c1 c2) (hb : SameAncillas c2 c3) (hw : min c1.nqubits c3.nqubits ≤ c2.nqubits)
    (h : EqualUpToPhase c1 c2) (h' : EqualUpToPhase c2 c3) : EqualUpToPhase c1 c3 := by
  obtain ⟨k, hk, h⟩ := h
  obtain ⟨l, hl, h'⟩ := h'
  exact ⟨k * l, by rw [norm_mul, hk, hl, one_mul], equalUpTo_trans ha hb hw h h'⟩

/-- **C85**, reflexive: an uninterrupted call for a circuit and itself reports `Equivalent` (or gives up, see C82) … -/
theorem self_equivalent (h : FullyChecked lib conv c1 c1 cfg v) (r1 : Runnable c1) (hl : AncillasLast c1) :
    v = .equivalent ∨ v = .noInformation ∧ ParallelWithBoth cfg ∨ Misled lib c1 c1 cfg [] := by
  rcases fullyChecked_decides h r1 r1 (fun _ _ _ => rfl) hl with hd | ⟨hd, _⟩ | hd
  · exact Or.inl (hd.equivalent.2 (equalUpTo_refl c1))
  · exact Or.inl hd
  · exact Or.inr hd

/-- … and no call, interrupted or not, ever reports that a circuit differs from itself, not even by a phase. -/
theorem self_never_refuted (h : Checked lib conv c1 c1 cfg v) (r1 : Runnable c1) (hl : AncillasLast c1) :
    (v ≠ .notEquivalent ∧ v ≠ .equivalentUpToGlobalPhase ∧ v ≠ .equivalentUpToPhase) ∨ Misled lib c1 c1 cfg [] := by
  obtain ⟨d, imp, w, hw, i₁, i₂, res, h, hp, hs1, hs2, h1, h2, rfl⟩ := h
  rcases call_verdict_true hw h hp hs1 hs2 h1 h2 r1 r1 with hv | ⟨hv, _⟩ | hv
  · have ht := verdict_same_ancillas r1 r1 (fun _ _ _ => rfl) hl hv
    exact Or.inl ⟨fun e => ht.notEquivalent e ⟨1, by simp, equalUpTo_refl c1⟩, fun e => (ht.phase e).2 (equalUpTo_refl c1), ht.never⟩
  · rw [hv]
    simp
  · exact Or.inr hv

/-- **C85**, symmetric: exchanging the circuits does not change the verdict of uninterrupted calls … -/
theorem exchange_verdict (h : FullyChecked lib conv c1 c2 cfg v) (h' : FullyChecked lib' conv' c2 c1 cfg' v') (r1 : Runnable c1) (r2 : Runnable c2)
    (ha : SameAncillas c1 c2) (hl1 : AncillasLast c1) (hl2 : AncillasLast c2) : v = v' ∨ Excused lib c1 c2 cfg v ∨ Excused lib' c2 c1 cfg' v' := by
  rcases fullyChecked_decides h r1 r2 ha hl1 with hd | hd
  · rcases fullyChecked_decides h' r2 r1 (sameAncillas_symm ha) hl2 with hd' | hd'
    · refine Or.inl (decided_unique hd ⟨?_, ?_, ?_⟩)
      · rw [hd'.equivalent, equal_symm]
      · rw [hd'.phase, equal_symm, equalUpToPhase_symm]
      · rw [hd'.notEquivalent, equalUpToPhase_symm]
    · exact Or.inr (Or.inr hd')
  · exact Or.inr (Or.inl hd)

/-- … and calls, interrupted or not, never contradict each other: not with the circuits exchanged … -/
theorem exchange_no_contradiction (h : Checked lib conv c1 c2 cfg v) (h' : Checked lib' conv' c2 c1 cfg' v') (r1 : Runnable c1) (r2 : Runnable c2)
    (ha : SameAncillas c1 c2) (hl1 : AncillasLast c1) (hl2 : AncillasLast c2) (hn : v = .notEquivalent) :
    (v' ≠ .equivalentUpToGlobalPhase ∧ (v' = .equivalent → CrossedShortcut lib' c2 c1 cfg')) ∨ Misled lib c1 c2 cfg [] ∨ Misled lib' c2 c1 cfg' [] := by
  by_cases hm : Misled lib c1 c2 cfg []
  · exact Or.inr (Or.inl hm)
  by_cases hm' : Misled lib' c2 c1 cfg' []
  · exact Or.inr (Or.inr hm')
  left
  obtain ⟨d, imp, w, hw, i₁, i₂, res, h, hp, hs1, hs2, h1, h2, rfl⟩ := h
  obtain ⟨d', imp', w', hw', j₁, j₂, res', h', hp', hs1', hs2', h1', h2', rfl⟩ := h'
  have hne : ¬ EqualUpToPhase c1 c2 := by
    rcases call_verdict_true hw h hp hs1 hs2 h1 h2 r1 r2 with hv | ⟨hv, _⟩ | hv
    · exact (verdict_same_ancillas r1 r2 ha hl1 hv).notEquivalent hn
    · rw [hn] at hv
      exact absurd hv (by simp)
    · exact absurd hv hm
  rcases call_verdict_true hw' h' hp' hs1' hs2' h1' h2' r2 r1 with hv | ⟨hv, hc⟩ | hv
  · have ht := verdict_same_ancillas r2 r1 (sameAncillas_symm ha) hl2 hv
    exact ⟨fun e => hne (equalUpToPhase_symm.1 (ht.phase e).1), fun e => absurd (equalUpToPhase_symm.1 ⟨1, by simp, ht.equivalent e⟩) hne⟩
  · exact ⟨by rw [hv]; simp, fun _ => hc⟩
  · exact absurd hv hm'

/-- … nor with other options or another schedule (C84). -/
theorem no_contradiction (h : Checked lib conv c1 c2 cfg v) (h' : Checked lib' conv' c1 c2 cfg' v') (r1 : Runnable c1) (r2 : Runnable c2)
    (ha : SameAncillas c1 c2) (hl : AncillasLast c1) :
    ((v = .notEquivalent → v' ≠ .equivalentUpToGlobalPhase ∧ (v' = .equivalent → CrossedShortcut lib' c1 c2 cfg')) ∧
      (v = .equivalent → v' = .equivalentUpToGlobalPhase → CrossedShortcut lib c1 c2 cfg)) ∨ Misled lib c1 c2 cfg [] ∨ Misled lib' c1 c2 cfg' [] := by
  by_cases hm : Misled lib c1 c2 cfg []
  · exact Or.inr (Or.inl hm)
  by_cases hm' : Misled lib' c1 c2 cfg' []
  · exact Or.inr (Or.inr hm')
  left
  obtain ⟨d, imp, w, hw, i₁, i₂, res, h, hp, hs1, hs2, h1, h2, rfl⟩ := h
  obtain ⟨d', imp', w', hw', j₁, j₂, res', h', hp', hs1', hs2', h1', h2', rfl⟩ := h'
  rcases call_verdict_true hw h hp hs1 hs2 h1 h2 r1 r2 with hv | ⟨hv, hc⟩ | hv
  · have ht := verdict_same_ancillas r1 r2 ha hl hv
    rcases call_verdict_true hw' h' hp' hs1' hs2' h1' h2' r1 r2 with hv' | ⟨hv', hc'⟩ | hv'
    · have ht' := verdict_same_ancillas r1 r2 ha hl hv'
      refine ⟨fun e => ⟨fun e' => ht.notEquivalent e (ht'.phase e').1, fun e' => absurd ⟨1, by simp, ht'.equivalent e'⟩ (ht.notEquivalent e)⟩,
        fun e e' => absurd (ht.equivalent e) (ht'.phase e').2⟩
    · refine ⟨fun _ => ⟨by rw [hv']; simp, fun _ => hc'⟩, fun _ e => ?_⟩
      rw [hv'] at e
      exact absurd e (by simp)
    · exact absurd hv' hm'
  · refine ⟨fun e => ?_, fun _ _ => hc⟩
    rw [hv] at e
    exact absurd e (by simp)
  · exact absurd hv hm

/-- **C85**, transitive: if two uninterrupted calls report `Equivalent`, so does a third one for the outer circuits, provided the middle circuit has at least
the qubits that both outer ones have. -/
theorem equivalent_trans (h : FullyChecked lib conv c1 c2 cfg .equivalent) (h' : FullyChecked lib' conv' c2 c3 cfg' .equivalent)
    (h'' : FullyChecked lib'' conv'' c1 c3 cfg'' v) (r1 : Runnable c1) (r2 : Runnable c2) (r3 : Runnable c3) (ha : SameAncillas c1 c2) (hb : SameAncillas c2 c3)
    (hl1 : AncillasLast c1) (hl2 : AncillasLast c2) (hw : min c1.nqubits c3.nqubits ≤ c2.nqubits) :
    v = .equivalent ∨ Excused lib c1 c2 cfg .equivalent ∨ Excused lib' c2 c3 cfg' .equivalent ∨ Excused lib'' c1 c3 cfg'' v := by
  rcases fullyChecked_decides h r1 r2 ha hl1 with hd | hd
  · rcases fullyChecked_decides h' r2 r3 hb hl2 with hd' | hd'
    · rcases fullyChecked_decides h'' r1 r3 (sameAncillas_trans ha hb hw) hl1 with hd'' | hd''
      · exact Or.inl (hd''.equivalent.2 (equal_trans ha hb hw (hd.equivalent.1 rfl) (hd'.equivalent.1 rfl)))
      · exact Or.inr (Or.inr (Or.inr hd''))
    · exact Or.inr (Or.inr (Or.inl hd'))
  · exact Or.inr (Or.inl hd)

/-- **C85**: a circuit may be replaced by one that was reported equivalent, for circuits with the same number of qubits. -/
theorem equivalent_congr (h : FullyChecked lib conv c2 c3 cfg .equivalent) (h' : FullyChecked lib' conv' c1 c2 cfg' v') (h'' : FullyChecked lib'' conv'' c1 c3 cfg'' v'')
    (r1 : Runnable c1) (r2 : Runnable c2) (r3 : Runnable c3) (ha : SameAncillas c1 c2) (hb : SameAncillas c2 c3) (hl1 : AncillasLast c1)
    (hl2 : AncillasLast c2) (hw : c1.nqubits = c2.nqubits) (hw' : c2.nqubits = c3.nqubits) :
    v' = v'' ∨ Excused lib c2 c3 cfg .equivalent ∨ Excused lib' c1 c2 cfg' v' ∨ Excused lib'' c1 c3 cfg'' v'' := by
  have w1 : min c1.nqubits c3.nqubits ≤ c2.nqubits := by omega
  have w2 : min c1.nqubits c2.nqubits ≤ c3.nqubits := by omega
  have hac := sameAncillas_trans ha hb w1
  rcases fullyChecked_decides h r2 r3 hb hl2 with hd | hd
  · rcases fullyChecked_decides h' r1 r2 ha hl1 with hd' | hd'
    · rcases fullyChecked_decides h'' r1 r3 hac hl1 with hd'' | hd''
      · have e := hd.equivalent.1 rfl
        have e' := equal_symm.1 e
        have x : Equal c1 c2 ↔ Equal c1 c3 := ⟨fun t => equal_trans ha hb w1 t e, fun t => equal_trans hac (sameAncillas_symm hb) w2 t e'⟩
        have y : EqualUpToPhase c1 c2 ↔ EqualUpToPhase c1 c3 := ⟨fun t => equalUpToPhase_trans ha hb w1 t ⟨1, by simp, e⟩,
          fun t => equalUpToPhase_trans hac (sameAncillas_symm hb) w2 t ⟨1, by simp, e'⟩⟩
        exact Or.inl (decided_unique hd' ⟨by rw [hd''.equivalent, x], by rw [hd''.phase, x, y], by rw [hd''.notEquivalent, y]⟩)
      · exact Or.inr (Or.inr (Or.inr hd''))
    · exact Or.inr (Or.inr (Or.inl hd'))
  · exact Or.inr (Or.inl hd)

end QCEC.Props
