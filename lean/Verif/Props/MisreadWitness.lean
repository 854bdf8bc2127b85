import Verif.Props.RoutingWitness
import Verif.Props.HandleWitness
import Verif.Props.AncillasOneSide
import Verif.Props.PreparationMixed
import Verif.Props.Accepted
/-!
# C36, C81, C82: common ancillary qubits that are read out elsewhere mislead the alternating checker
-/
namespace QCEC.Props.MisreadWitness
open QCEC QCEC.DD QCEC.Param QCEC.Py QCEC.Mgr QCEC.Prep QCEC.Gen QCEC.Spec QCEC.Spec.Wide QCEC.Spec.ZX QCEC.Wide QCEC.Sem QCEC.Spec.Param QCEC.Props
open QCEC.Spec.Py QCEC.Props.PreparationWitness QCEC.Props.VerifyPartialWitness QCEC.Props.VerifyDecidesWitness QCEC.Props.VerifyPartialDecidesWitness
open QCEC.Props.VerifyDisplacedWitness QCEC.Props.PythonVerifyWitness QCEC.Props.RoutingWitness
open scoped Matrix

/-- An uncontrolled rotation. -/
noncomputable def wR (p : Nat) : WOp := .simple (.gate { k := 1, u := fun x y => mR (x 0) (y 0), targets := fun _ => p, controls := [] })

theorem wR_proper (p : Nat) : ∀ s ∈ (wR p).parts, s.Proper := by
  intro s hs
  rw [wR, WOp.parts, List.mem_singleton] at hs
  subst hs
  exact ⟨fun _ _ _ => Subsingleton.elim _ _, by simp, (mR_valid' (n := 1) 0).unitary⟩

theorem wR_names {p q : Nat} : (wR p).Names q ↔ q = p := by
  constructor
  · rintro ⟨s, hs, hn⟩
    rw [wR, WOp.parts, List.mem_singleton] at hs
    subst hs
    rcases hn with ⟨_, h⟩ | ⟨_, h⟩
    · exact h.symm
    · exact absurd h (by simp)
  · rintro rfl
    exact ⟨_, List.mem_singleton_self _, Or.inl ⟨0, rfl⟩⟩

/-- A rotation of physical qubit 1; both qubits are ancillary and are read out exchanged. -/
noncomputable def moved : Circ WOp where
  ndata := 0
  nancillae := 2
  initialLayout := [(0, 0), (1, 1)]
  outputPermutation := [(0, 1), (1, 0)]
  ancillary := [true, true]
  garbage := [false, false]
  ops := [wR 1]

/-- The same rotation of physical qubit 0; both qubits are ancillary. -/
noncomputable def still : Circ WOp where
  ndata := 0
  nancillae := 2
  initialLayout := [(0, 0), (1, 1)]
  outputPermutation := [(0, 0), (1, 1)]
  ancillary := [true, true]
  garbage := [false, false]
  ops := [wR 0]

theorem runnable_of {o : Layout} {p : Nat} (hp : p < 2) (ho : o = [(0, 1), (1, 0)] ∨ o = [(0, 0), (1, 1)]) :
    Runnable { ndata := 0, nancillae := 2, initialLayout := [(0, 0), (1, 1)], outputPermutation := o, ancillary := [true, true], garbage := [false, false],
               ops := [wR p] } where
  ok := by
    refine ⟨by simp, by simp, ?_, by rcases ho with rfl | rfl <;> simp, by rcases ho with rfl | rfl <;> simp, ?_, ?_, rfl, rfl, rfl⟩
    · intro q
      show (∃ p, (p, q) ∈ [(0, 0), (1, 1)]) ↔ q < 2
      constructor
      · rintro ⟨p, hp⟩
        simp only [List.mem_cons, Prod.mk.injEq, List.not_mem_nil, or_false] at hp
        omega
      · intro hq
        exact ⟨q, by have : q = 0 ∨ q = 1 := by omega
                     rcases this with rfl | rfl <;> simp⟩
    · intro p q hp
      show q < 2
      rcases ho with rfl | rfl <;> simp only [List.mem_cons, Prod.mk.injEq, List.not_mem_nil, or_false] at hp <;> omega
    · intro p q hp
      rcases ho with rfl | rfl <;> simp only [List.mem_cons, Prod.mk.injEq, List.not_mem_nil, or_false] at hp <;>
        rcases hp with ⟨_, rfl⟩ | ⟨_, rfl⟩ <;> rfl
  proper := by
    intro o ho s hs
    simp only [List.mem_cons, List.not_mem_nil, or_false] at ho
    subst ho
    exact wR_proper _ s hs
  inside := by
    intro o ho q hq
    simp only [List.mem_cons, List.not_mem_nil, or_false] at ho
    subst ho
    rw [wR_names] at hq
    subst hq
    refine ⟨q, ?_⟩
    have : q = 0 ∨ q = 1 := by omega
    show (q, q) ∈ [(0, 0), (1, 1)]
    rcases this with rfl | rfl <;> simp
  outInside := by
    intro p q h
    show ∃ q', (p, q') ∈ [(0, 0), (1, 1)]
    refine ⟨p, ?_⟩
    rcases ho with rfl | rfl <;> simp only [List.mem_cons, Prod.mk.injEq, List.not_mem_nil, or_false] at h <;>
      rcases h with ⟨rfl, _⟩ | ⟨rfl, _⟩ <;> simp

theorem moved_runnable : Runnable moved := runnable_of (by omega) (Or.inl rfl)
theorem still_runnable : Runnable still := runnable_of (by omega) (Or.inr rfl)

theorem count_layout (p q : Nat) (h : (p, q) ∈ ([(0, 0), (1, 1)] : Layout)) : (p = 0 ∧ q = 0) ∨ (p = 1 ∧ q = 1) := by
  simpa using h

theorem numbered_of {c : Circ WOp} {qc : QC 2} (hl : c.initialLayout = [(0, 0), (1, 1)]) (hw : c.nqubits = 2) (hq : qc.initialLayout = 1)
    (ho : qc.ops = c.ops.map (WOp.on count)) (hop : qc.outputPermutation.map (fun t => (t.1, t.2.val)) = c.outputPermutation.map fun t => (count t.1, t.2))
    (ha : c.ancillary = [true, true]) (ha' : qc.ancillary = [true, true]) (hg : c.garbage = [false, false]) (hg' : qc.garbage = []) : Numbered count c qc := by
  refine ⟨hw, ?_, ho, ?_, hop, ?_, ?_⟩
  · intro p p' q q' h h' e
    rw [hl] at h h'
    rcases count_layout _ _ h with ⟨rfl, _⟩ | ⟨rfl, _⟩ <;> rcases count_layout _ _ h' with ⟨rfl, _⟩ | ⟨rfl, _⟩
    · rfl
    · exact absurd e (by decide)
    · exact absurd e (by decide)
    · rfl
  · intro p q h
    rw [hl] at h
    rw [hq]
    rcases count_layout _ _ h with ⟨rfl, rfl⟩ | ⟨rfl, rfl⟩ <;> rfl
  · intro q hq
    unfold Circ.isAncillary
    rw [ha, ha']
  · intro q hq
    unfold Circ.isGarbage
    rw [hg, hg']
    have : q = 0 ∨ q = 1 := by omega
    rcases this with rfl | rfl <;> rfl

theorem moved_numbered : Numbered count moved rotMoved := numbered_of rfl rfl rfl rfl rfl rfl rfl rfl rfl
theorem still_numbered : Numbered count still rotStill := numbered_of rfl rfl rfl rfl rfl rfl rfl rfl rfl

/-- What the checkers get; operations are compared exactly. -/
noncomputable def misreading : Mixed 0 2 :=
  { (setOf (Nat.le_refl 2) flip flip ⟨justX_wf.ops, justX_wf.out, justX_wf.labels⟩ ⟨justX_wf.ops, justX_wf.out, justX_wf.labels⟩ flags22 flags22).mixed with
    data := Nat.zero_le _
    qc1 := rotMoved, qc2 := rotStill, ω1 := Equiv.swap 0 1, ω2 := 1, wf1 := rotMoved_wf, wf2 := rotStill_wf,
    opEq := exactOpEq, schA := .counts oneToOneScheme, schC := oneToOneScheme, schS := oneToOneScheme,
    confA := .counts _ ⟨oneToOneConfigured _ _⟩, confC := ⟨oneToOneConfigured _ _⟩, confS := ⟨oneToOneConfigured _ _⟩ }

theorem misreading_made : Prep.construct named nothingToDo oneToOneCfg moved still = .made { qc1 := moved, qc2 := still, cfg := oneToOneCfg } := rfl

theorem wR_on_ne : (wR 1).on count ≠ (wR 0).on count := by
  intro h
  have h : Op.simple (.gate (gate1 mR (1 : Fin 2))) = .simple (.gate (gate1 mR 0)) := h
  injection h with h
  injection h with h
  have h := congrArg (fun g : Gate 2 => ∀ p : Fin 2, (∃ i, g.targets i = p) → p = 0) h
  have : ∀ p : Fin 2, (∃ i, (gate1 mR (1 : Fin 2)).targets i = p) → p = 0 := by
    rw [h]
    rintro p ⟨i, rfl⟩
    rfl
  exact absurd (this 1 ⟨(0 : Fin 1), rfl⟩) (by decide)

theorem misreading_compares : ∀ a ∈ moved.ops, ∀ b ∈ still.ops, exactOpEq (a.on count) (b.on count) = true → a = b := by
  intro a ha b hb h
  have h : a.on count = b.on count := exactOpEq_sound _ _ h
  have ha : a = wR 1 := by simpa [moved] using ha
  have hb : b = wR 0 := by simpa [still] using hb
  subst ha hb
  exact absurd h wR_on_ne

/-- The alternating checker accepts the circuits. -/
theorem misreading_handled : canHandle named moved still = true := by
  rfl

theorem leaves {c : Circ WOp} {p q : Nat} (hl : c.initialLayout = [(0, 0), (1, 1)]) (ho : c.ops = [wR p]) (hq : q ≠ p) : LeavesAlone c q := by
  intro r hr o hoo hn
  rw [hl] at hr
  rw [ho, List.mem_singleton] at hoo
  subst hoo
  rw [wR_names] at hn
  subst hn
  rcases count_layout _ _ hr with ⟨rfl, rfl⟩ | ⟨rfl, rfl⟩ <;> exact hq rfl

theorem acts {c : Circ WOp} {q : Nat} (hq : q < 2) (hl : c.initialLayout = [(0, 0), (1, 1)]) (ho : c.ops = [wR q]) : ¬ LeavesAlone c q := by
  intro h
  refine h q ?_ (wR q) (by rw [ho]; exact List.mem_singleton_self _) (wR_names.2 rfl)
  rw [hl]
  have : q = 0 ∨ q = 1 := by omega
  rcases this with rfl | rfl <;> simp

/-- The circuits are misread: neither keeps logical qubit 0 … -/
theorem misreading_misread : Misread moved still := by
  refine ⟨⟨0, by decide, rfl, rfl, fun h => ?_, fun h => acts (by omega) rfl rfl h.1⟩, ⟨1, by decide, rfl, rfl, acts (by omega) rfl rfl⟩,
    ⟨0, by decide, rfl, rfl, acts (by omega) rfl rfl⟩⟩
  exact absurd (h.2 0 (by show (0, 0) ∈ [(0, 0), (1, 1)]; simp)) (by decide)

/-- An uninterrupted run of a manager that is misled. -/
theorem misread_run : CalmManagerRun VerifyWitness.plain moved still oneToOneCfg [] .notEquivalent := by
  let env := testEnv (fun _ => some .noInformation) (.returns .notEquivalent) (.returns .noInformation) (.returns .noInformation)
  have hm : mode env oneToOneCfg = .sequential := rfl
  obtain ⟨s', hr, he⟩ : ∃ s', Mgr.run env 20 (State.fresh oneToOneCfg) = some (.returned s') ∧ s'.results.equivalence = .notEquivalent := ⟨_, rfl, rfl⟩
  refine ⟨fun _ _ _ hc => ⟨hc, rfl, fun _ => rfl, fun _ _ => rfl⟩, _, misreading_made, 0, 2, rfl, misreading, count, count, moved_numbered, still_numbered,
    ⟨fun _ => by decide, fun _ => trivial⟩, misreading_compares, ?_⟩
  · rw [← he]
    have h0 : ¬ oneToOneCfg.execution.timeout > 0 := fun h => absurd h (lt_irrefl (0 : ℚ))
    refine .sequential env 20 s' hm h0 hr ?_
    rintro ⟨k, v⟩ h hen
    cases k
    · cases hen
    · cases h
      obtain ⟨_, _, ⟨s, hs⟩, _⟩ := canHandle_ignores_output (fun _ _ d => d) (idealTests 2)
      exact .alternating (S := misreading) (fun _ => false) (fun _ _ _ h => h) (fun _ _ => rfl) _ (Nat.le_refl _)
        (accepted_of_canHandle named_reliable moved_runnable.wired still_runnable.wired moved_numbered still_numbered misreading_handled) _ s hs
    · cases hen
    · cases hen

theorem misread_equal : Equal moved still := by
  refine ((mixed_constructed named_reliable moved_runnable still_runnable (P := nothingToDo) (cfg := oneToOneCfg)
    (fun _ _ _ hc => ⟨hc, rfl, fun _ => rfl, fun _ _ => rfl⟩) misreading_made misreading moved_numbered still_numbered 1 false (by simp)).1).1 ?_
  have e : misreading.someAnc false = [true, true] := rfl
  rw [e]
  exact (canHandle_ignores_output (fun _ _ d => d) (idealTests 2)).1

/-- The third exception of `Misled` in **C81** and **C82** is needed: an uninterrupted call of `verify` reports `NotEquivalent` for two equivalent circuits,
which the alternating checker accepts because each of the two common ancillary qubits is left alone by one of them. -/
theorem misread_call : ∃ cfg, FullyChecked VerifyWitness.plain conv moved still cfg .notEquivalent ∧
    Runnable moved ∧ Runnable still ∧ Equal moved still ∧ AncillaMisread VerifyWitness.plain moved still cfg ∧
    Misled VerifyWitness.plain moved still cfg [] :=
  ⟨oneToOneCfg, fully misread_run rfl (Or.inl rfl), moved_runnable, still_runnable, misread_equal,
    ⟨_, fun _ _ _ hc => ⟨hc, rfl, fun _ => rfl, fun _ _ => rfl⟩, misreading_made, misreading_misread⟩,
    _, fun _ _ _ hc => ⟨hc, rfl, fun _ => rfl, fun _ _ => rfl⟩, misreading_made, rfl, Or.inr (Or.inr misreading_misread)⟩

end QCEC.Props.MisreadWitness
