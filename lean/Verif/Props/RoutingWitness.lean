import Verif.Props.Routing
import Verif.Props.PythonVerifyWitness
/-!
# C88: a compiled circuit that is accepted, and one the alternating checker rejects
-/
namespace QCEC.Props.RoutingWitness
open QCEC QCEC.DD QCEC.Param QCEC.Py QCEC.Mgr QCEC.Prep QCEC.Gen QCEC.Spec QCEC.Spec.Wide QCEC.Spec.ZX QCEC.Wide QCEC.Sem QCEC.Spec.Param QCEC.Props
open QCEC.Spec.Py QCEC.Props.PreparationWitness QCEC.Props.VerifyPartialWitness QCEC.Props.VerifyDecidesWitness QCEC.Props.VerifyPartialDecidesWitness
open QCEC.Props.VerifyDisplacedWitness QCEC.Props.PythonVerifyWitness
open scoped Matrix

/-- A compilation of `u1`, an X gate on one qubit, for a device with two qubits: the qubit starts on physical qubit 1 and is moved to physical qubit 0. -/
noncomputable def routed : Circ WOp where
  ndata := 2
  nancillae := 0
  initialLayout := [(0, 1), (1, 0)]
  outputPermutation := [(0, 0), (1, 1)]
  ancillary := [false, false]
  garbage := [false, false]
  ops := [.simple (.swap 0 1), wX 0]

/-- It after preparation. -/
noncomputable def routed' : Circ WOp := { routed with ndata := 1, nancillae := 1, ancillary := [false, true] }

/-- The circuit the checkers get. -/
noncomputable def routedQC : QC 2 where
  ops := [.simple (.swap 0 1), .simple (.gate (gX 0))]
  initialLayout := Equiv.swap 0 1
  outputPermutation := idOut2
  ancillary := [false, true]
  garbage := [false, false]

theorem routed_runnable : Runnable routed where
  ok := by
    refine ⟨by decide, by decide, ?_, by decide, by decide, ?_, ?_, rfl, rfl, rfl⟩
    · intro q
      show (∃ p, (p, q) ∈ [(0, 1), (1, 0)]) ↔ q < 2
      constructor
      · rintro ⟨p, hp⟩
        simp only [List.mem_cons, Prod.mk.injEq, List.not_mem_nil, or_false] at hp
        omega
      · intro hq
        have : q = 0 ∨ q = 1 := by omega
        rcases this with rfl | rfl
        · exact ⟨1, by simp⟩
        · exact ⟨0, by simp⟩
    · intro p q hp
      have hp : (p, q) ∈ [(0, 0), (1, 1)] := hp
      simp only [List.mem_cons, Prod.mk.injEq, List.not_mem_nil, or_false] at hp
      show q < 2
      omega
    · intro p q hp
      have hp : (p, q) ∈ [(0, 0), (1, 1)] := hp
      simp only [List.mem_cons, Prod.mk.injEq, List.not_mem_nil, or_false] at hp
      rcases hp with ⟨_, rfl⟩ | ⟨_, rfl⟩ <;> rfl
  proper := by
    intro o ho s hs
    simp only [routed, List.mem_cons, List.not_mem_nil, or_false] at ho
    rcases ho with rfl | rfl
    · rw [WOp.parts, List.mem_singleton] at hs
      subst hs
      trivial
    · exact wX_proper 0 s hs
  inside := by
    intro o ho p hp
    have : p = 0 ∨ p = 1 := by
      simp only [routed, List.mem_cons, List.not_mem_nil, or_false] at ho
      rcases ho with rfl | rfl
      · obtain ⟨s, hs, hn⟩ := hp
        rw [WOp.parts, List.mem_singleton] at hs
        subst hs
        rcases hn with h | h
        · exact Or.inl h.symm
        · exact Or.inr h.symm
      · exact Or.inl (wX_names hp)
    show ∃ q, (p, q) ∈ [(0, 1), (1, 0)]
    rcases this with rfl | rfl
    · exact ⟨1, by simp⟩
    · exact ⟨0, by simp⟩
  outInside := by
    intro p q hp
    have hp : (p, q) ∈ [(0, 0), (1, 1)] := hp
    simp only [List.mem_cons, Prod.mk.injEq, List.not_mem_nil, or_false] at hp
    show ∃ q, (p, q) ∈ [(0, 1), (1, 0)]
    rcases hp with ⟨rfl, _⟩ | ⟨rfl, _⟩
    · exact ⟨1, by simp⟩
    · exact ⟨0, by simp⟩

theorem routed_compiled : Compiled u1 routed where
  own q hq := by
    have : q = 0 := by have : q < 1 := hq; omega
    subst this
    show (0, 0) ∈ [(0, 0)]
    simp
  readOut q hq := by
    have : q = 0 := by have : q < 1 := hq; omega
    subst this
    refine ⟨0, ?_⟩
    show (0, 0) ∈ [(0, 0)]
    simp
  data q hq := by
    have : q = 0 := by have : q < 1 := hq; omega
    subst this
    exact ⟨rfl, rfl⟩
  wide := by decide
  routed := by
    refine ⟨fun _ => 1, fun _ => 0, ?_, ?_, ?_⟩
    · intro q hq
      have : q = 0 := by have : q < 1 := hq; omega
      subst this
      show (1, 0) ∈ [(0, 1), (1, 0)]
      simp
    · show Routes 1 (fun p => ∃ q, (p, q) ∈ [(0, 1), (1, 0)]) _ (WOp.parts (wX 0) ++ []) (.swap 0 1 :: (WOp.parts (wX 0) ++ [])) _
      refine .swap 0 1 ⟨1, by simp⟩ ⟨0, by simp⟩ ?_
      have e : (Equiv.swap 0 1 ∘ fun _ : Nat => 1) = fun _ : Nat => 0 := by
        funext q
        simp
      rw [e]
      exact .replace _ _ (fun w _ => rfl) (.done _)
    · intro q l h
      have h : (q, l) ∈ [(0, 0)] := h
      simp only [List.mem_cons, Prod.mk.injEq, List.not_mem_nil, or_false] at h
      obtain ⟨rfl, rfl⟩ := h
      show (0, 0) ∈ [(0, 0), (1, 1)]
      simp

theorem routedQC_wf : WellFormed routedQC 1 := by
  refine .of_total ?_ idOut2_valid idOut2_total idOut2_ext
  intro o ho
  simp only [routedQC, List.mem_cons, List.not_mem_nil, or_false] at ho
  rcases ho with rfl | rfl
  · trivial
  · exact gX_valid 0

theorem routed_numbered : Numbered count routed' routedQC := by
  refine ⟨rfl, ?_, rfl, ?_, rfl, ?_, ?_⟩
  · intro p p' q q' hp hp'
    have hp : (p, q) ∈ [(0, 1), (1, 0)] := hp
    have hp' : (p', q') ∈ [(0, 1), (1, 0)] := hp'
    simp only [List.mem_cons, Prod.mk.injEq, List.not_mem_nil, or_false] at hp hp'
    rcases hp with ⟨rfl, _⟩ | ⟨rfl, _⟩ <;> rcases hp' with ⟨rfl, _⟩ | ⟨rfl, _⟩ <;> simp [count]
  · intro p q hp
    have hp : (p, q) ∈ [(0, 1), (1, 0)] := hp
    simp only [List.mem_cons, Prod.mk.injEq, List.not_mem_nil, or_false] at hp
    rcases hp with ⟨rfl, rfl⟩ | ⟨rfl, rfl⟩ <;> rfl
  · intro q hq
    have : q = 0 ∨ q = 1 := by omega
    rcases this with rfl | rfl <;> rfl
  · intro q hq
    have : q = 0 ∨ q = 1 := by omega
    rcases this with rfl | rfl <;> rfl

theorem u1_none : ∀ q, u1.isAncillary q = false := by intro q; rcases q with _ | q <;> rfl

/-- **C88** is not vacuous: an uninterrupted call of `verify_compilation` for a circuit and a compilation of it, with another layout, another number of qubits
and an additional SWAP; it reports `Equivalent`. -/
theorem compiled_met : ∃ cfg, FullyChecked VerifyWitness.plain conv u1 routed cfg .equivalent ∧ cfg.application.alternatingScheme = .gateCost ∧ Runnable u1 ∧ Runnable routed ∧
    Compiled u1 routed := by
  let S := setOf (m := 1) (n := 2) (by omega) p1 routedQC p1_wf routedQC_wf flags12 flags12
  have made : Prep.construct named nothingToDo (acf (compiled "" "1" .noAncilla {}) {}) u1 routed =
    .made { qc1 := _, qc2 := routed', cfg := acf (compiled "" "1" .noAncilla {}) {} } := rfl
  obtain ⟨v, hv, hc⟩ := calm_alt (x := u1) (y := routed) (ry := routed') (compiled "" "1" .noAncilla {}) {} S
    (e1 := count) (e2 := count)
    (by intro q hq
        have : q = 1 := by omega
        subst this
        exact Or.inl p1_idle) rfl wNumbered1 routed_numbered made
  have h := fully_compiled hv
  have e : v = .equivalent := by
    have key := mixed_constructed named_reliable u1_runnable routed_runnable (fun p _ c hc => ⟨hc, rfl, fun _ => rfl, fun _ _ => rfl⟩) made S.mixed wNumbered1
      routed_numbered 1 false (by simp)
    have anc : S.mixed.someAnc false = flags 1 2 := rfl
    rw [anc] at key
    exact hc.equivalent.2 (key.1.2 (compiled_equal u1_runnable routed_runnable routed_compiled))
  subst e
  exact ⟨_, h, rfl, u1_runnable, routed_runnable, routed_compiled⟩

/-- The call of `compiled_met` is not misled, although the circuits have the X gate in common. -/
theorem routed_not_misled : ¬ Misled VerifyWitness.plain u1 routed (acf (compiled "" "1" .noAncilla {}) {}) [] := by
  rintro ⟨M, hP, hm, _, h⟩
  have hr := not_misread (lib := VerifyWitness.plain) u1_runnable routed_runnable (compiled_none routed_compiled) (acf (compiled "" "1" .noAncilla {}) {})
  have made : Prep.construct named nothingToDo (acf (compiled "" "1" .noAncilla {}) {}) u1 routed =
    .made { qc1 := w1, qc2 := routed', cfg := acf (compiled "" "1" .noAncilla {}) {} } := rfl
  have hm : Prep.construct named nothingToDo (acf (compiled "" "1" .noAncilla {}) {}) u1 routed = .made M := hm
  rw [made] at hm
  injection hm with hm
  subst hm
  rcases h with ⟨_, _, p1, p2, o, r1, r2, e1, e2, hs, _, h⟩ | ⟨h, _⟩ | h
  · have e1 : [wX 0] = p1 ++ o :: r1 := e1
    have e2 : [.simple (.swap 0 1), wX 0] = p2 ++ o :: r2 := e2
    obtain ⟨rfl, rfl⟩ : p1 = [] ∧ o = wX 0 := by
      cases p1 with
      | nil => exact ⟨rfl, (List.cons.inj e1).1.symm⟩
      | cons a t => exact absurd (congrArg List.length e1) (by simp)
    have : p2 = [.simple (.swap 0 1)] := by
      cases p2 with
      | nil => exact absurd (List.cons.inj e2).1 (by simp [wX])
      | cons a t =>
        obtain ⟨rfl, e2⟩ := List.cons.inj e2
        cases t with
        | nil => rfl
        | cons b t => exact absurd (congrArg List.length e2) (by simp)
    subst this
    rcases h with ⟨_, a, b, h⟩ | ⟨p, ⟨t, ht, hn, _⟩, hp⟩
    · exact absurd (List.mem_singleton.1 h) (by simp)
    · have : p = 0 := wX_names ⟨t, ht, hn⟩
      subst this
      exact hp rfl
  · cases h
  · exact hr ⟨_, hP, made, h⟩

/-- The compiled circuit of `compiled_met` uses the additional qubit: `compiled_wider_accepted` applies. -/
theorem routed_wider (cfg : Configuration) : SharedAncillaUsed VerifyWitness.plain u1 routed cfg := by
  refine ⟨u1, routed, 1, ?_, Or.inl (by decide), Or.inr fun h => ?_⟩
  · unfold Optimised
    rw [if_pos ⟨rfl, rfl⟩]
    simp [VerifyWitness.plain, Passes.run, nothingToDo, Passes.static, Passes.both]
  · have := (h 0 (by simp [routed])).1 (.simple (.swap 0 1)) (by simp [routed])
    simp [VerifyWitness.plain, named, WOp.parts, sNames] at this

/-! ## A correct compilation that is rejected -/

/-- X on the first of two qubits. -/
noncomputable def flip : QC 2 := { justX with ancillary := [false, false], garbage := [false, false] }

/-- The same, with the two qubits in exchanged places and X twice on the other one: X on physical qubit 0, 1 and again 0. -/
noncomputable def flipped : Circ WOp where
  ndata := 2
  nancillae := 0
  initialLayout := [(0, 1), (1, 0)]
  outputPermutation := [(0, 1), (1, 0)]
  ancillary := [false, false]
  garbage := [false, false]
  ops := [wX 0, wX 1, wX 0]

noncomputable def flippedQC : QC 2 where
  ops := [.simple (.gate (gX 0)), .simple (.gate (gX 1)), .simple (.gate (gX 0))]
  initialLayout := Equiv.swap 0 1
  outputPermutation := [(0, 1), (1, 0)]
  ancillary := [false, false]
  garbage := [false, false]

theorem wX_run (p : Nat) (w : Bits → ℂ) (x : Bits) : effect (WOp.parts (wX p)) w x = w (Function.update x p (!x p)) := by
  have e : ∀ y : Fin 1 → Bool, Function.extend (fun _ : Fin 1 => p) y x = Function.update x p (y 0) := by
    intro y
    funext q
    by_cases h : q = p
    · subst h
      rw [Function.update_self]
      exact Function.Injective.extend_apply (f := fun _ : Fin 1 => q) (fun _ _ _ => Subsingleton.elim _ _) y x 0
    · rw [Function.update_of_ne h, Function.extend_apply']
      rintro ⟨_, rfl⟩
      exact h rfl
  have t : Spec.Wide.effect (WOp.parts (wX p)) w x =
      ∑ y : Fin 1 → Bool, mX (x p) (y 0) * w (Function.extend (fun _ : Fin 1 => p) y x) := by
    show (if ∀ c ∈ ([] : List (Nat × Bool)), x c.1 = c.2 then ∑ y : Fin 1 → Bool, mX (x p) (y 0) * w (Function.extend (fun _ : Fin 1 => p) y x) else w x) = _
    rw [if_pos (by simp)]
  simp only [t, e]
  rw [Finset.sum_eq_single (fun _ => !x p)]
  · simp [mX]
  · intro y _ hy
    have : y 0 = x p := by
      by_contra h
      apply hy
      funext i
      have : i = 0 := Subsingleton.elim _ _
      subst this
      cases h1 : y 0 <;> cases h2 : x p <;> simp_all
    rw [this]
    simp [mX]
  · intro h
    exact absurd (Finset.mem_univ _) h

theorem flipped_block (w : Bits → ℂ) : effect ([wX 0, wX 1, wX 0].flatMap WOp.parts) w = effect (WOp.parts (wX 1)) w := by
  have e : [wX 0, wX 1, wX 0].flatMap WOp.parts = WOp.parts (wX 0) ++ (WOp.parts (wX 1) ++ WOp.parts (wX 0)) := rfl
  rw [e, effect_append, effect_append]
  funext x
  rw [wX_run, wX_run, wX_run, wX_run]
  congr 1
  funext q
  by_cases h0 : q = 0
  · subst h0; simp
  · by_cases h1 : q = 1
    · subst h1; simp
    · simp [h0, h1]

theorem flipped_runnable : Runnable flipped where
  ok := by
    refine ⟨by decide, by decide, routed_runnable.ok.onto, by decide, by decide, ?_, ?_, rfl, rfl, rfl⟩
    · intro p q hp
      have hp : (p, q) ∈ [(0, 1), (1, 0)] := hp
      simp only [List.mem_cons, Prod.mk.injEq, List.not_mem_nil, or_false] at hp
      show q < 2
      omega
    · intro p q hp
      have hp : (p, q) ∈ [(0, 1), (1, 0)] := hp
      simp only [List.mem_cons, Prod.mk.injEq, List.not_mem_nil, or_false] at hp
      rcases hp with ⟨_, rfl⟩ | ⟨_, rfl⟩ <;> rfl
  proper := by
    intro o ho s hs
    simp only [flipped, List.mem_cons, List.not_mem_nil, or_false] at ho
    rcases ho with rfl | rfl | rfl <;> exact wX_proper _ s hs
  inside := by
    intro o ho p hp
    have : p = 0 ∨ p = 1 := by
      simp only [flipped, List.mem_cons, List.not_mem_nil, or_false] at ho
      rcases ho with rfl | rfl | rfl
      · exact Or.inl (wX_names hp)
      · exact Or.inr (wX_names hp)
      · exact Or.inl (wX_names hp)
    show ∃ q, (p, q) ∈ [(0, 1), (1, 0)]
    rcases this with rfl | rfl
    · exact ⟨1, by simp⟩
    · exact ⟨0, by simp⟩
  outInside := fun p q hp => ⟨q, hp⟩

theorem flipped_compiled : Compiled u3 flipped where
  own q hq := by
    have : q = 0 ∨ q = 1 := by have : q < 2 := hq; omega
    show (q, q) ∈ [(0, 0), (1, 1)]
    rcases this with rfl | rfl <;> simp
  readOut q hq := by
    have : q = 0 ∨ q = 1 := by have : q < 2 := hq; omega
    show ∃ l, (q, l) ∈ [(0, 0), (1, 1)]
    exact ⟨q, by rcases this with rfl | rfl <;> simp⟩
  data q hq := by
    have : q = 0 ∨ q = 1 := by have : q < 2 := hq; omega
    rcases this with rfl | rfl <;> exact ⟨rfl, rfl⟩
  wide := by decide
  routed := by
    refine ⟨fun q => 1 - q, fun q => 1 - q, ?_, ?_, ?_⟩
    · intro q hq
      have : q = 0 ∨ q = 1 := by have : q < 2 := hq; omega
      show (1 - q, q) ∈ [(0, 1), (1, 0)]
      rcases this with rfl | rfl <;> simp
    · show Routes 2 _ _ (WOp.parts (wX 0) ++ []) ([wX 0, wX 1, wX 0].flatMap WOp.parts ++ []) _
      exact .replace _ _ (fun w _ => flipped_block w) (.done _)
    · intro q l h
      have h : (q, l) ∈ [(0, 0), (1, 1)] := h
      simp only [List.mem_cons, Prod.mk.injEq, List.not_mem_nil, or_false] at h
      show (1 - q, l) ∈ [(0, 1), (1, 0)]
      rcases h with ⟨rfl, rfl⟩ | ⟨rfl, rfl⟩ <;> simp

theorem flip_numbered : Numbered count u3 flip :=
  ⟨rfl, wNumbered1.inj, rfl, wNumbered1.initial, rfl, f2_numbered.ancillary, f2_numbered.garbage⟩

theorem flipped_numbered : Numbered count flipped flippedQC := by
  refine ⟨rfl, routed_numbered.inj, rfl, routed_numbered.initial, rfl, ?_, ?_⟩
  · intro q hq
    have : q = 0 ∨ q = 1 := by omega
    rcases this with rfl | rfl <;> rfl
  · intro q hq
    have : q = 0 ∨ q = 1 := by omega
    rcases this with rfl | rfl <;> rfl

/-- The manager gives the circuits to the checkers as they are. -/
theorem flip_prepared (A : Application) : Prep.construct named nothingToDo (acf A) u3 flipped = .made { qc1 := u3, qc2 := flipped, cfg := acf A } := rfl

/-- The alternating check of the two circuits (one-to-one scheme), with any test at the end. -/
theorem misled_check (garb) (isId : Mat 2 → Bool) (hid : isId 1 = true) (check : Mat 2 → Criterion) :
    ∃ s, runAlt (exactMatrix 2 garb) isId exactOpEq (.counts oneToOneScheme) check (fun _ => false)
      .noInformation flip flippedQC (altInit (exactMatrix 2 garb) 1 2 flip flippedQC)
      (flip.ops.length + flippedQC.ops.length + 2) = .ok (check (((gX 0).mat)ᴴ * ((gX 1).mat)ᴴ), s) := by
  have hi : altInit (exactMatrix 2 garb) 1 2 flip flippedQC = 1 := by
    have : altAncillary 2 flip.ancillary flippedQC.ancillary = [false, false] := rfl
    unfold altInit
    rw [this]
    simp only [exactMatrix, reduceAncillae, if_true, Matrix.one_mul]
    rw [← ancProj_nil]
    apply ancProj_congr
    intro q; fin_cases q <;> rfl
  have heq : exactOpEq (.simple (.gate (gX 0)) : Op 2) (.simple (.gate (gX 0))) = true := by
    unfold exactOpEq
    exact @decide_eq_true _ (Classical.propDecidable _) rfl
  rw [hi]
  have hx : ∀ p, (exactMatrix 2 garb).isSwap (.simple (.gate (gX p))) = false := fun _ => rfl
  have a1 : applySwaps (exactMatrix 2 garb) .left (Cur.start flip) 1 = (Cur.start flip, 1) := by
    show applySwapsAux (exactMatrix 2 garb) .left [.simple (.gate (gX 0))] 1 1 = _
    rw [applySwapsAux, hx]
    rfl
  have a2 : applySwaps (exactMatrix 2 garb) .right (Cur.start flippedQC) 1 = (Cur.start flippedQC, 1) := by
    show applySwapsAux (exactMatrix 2 garb) .right [.simple (.gate (gX 0)), .simple (.gate (gX 1)), .simple (.gate (gX 0))] (Equiv.swap 0 1) 1 = _
    rw [applySwapsAux, hx]
    rfl
  have h1 : altLoop (exactMatrix 2 garb) isId exactOpEq (.counts oneToOneScheme) (fun _ => false) 6
      { c1 := .start flip, c2 := .start flippedQC, d := 1, polls := 0 } =
      .ok { c1 := ⟨[], 1⟩, c2 := ⟨[.simple (.gate (gX 1)), .simple (.gate (gX 0))], Equiv.swap 0 1⟩, d := 1, polls := 2 } := by
    rw [altLoop]
    simp only [a1, a2]
    rw [if_neg (by simp [Cur.start, Cur.finished, flip, justX, flippedQC]), if_neg (by simp),
      if_neg (by simp [Cur.start, Cur.finished, flip, justX, flippedQC]),
      if_neg (by simp), if_pos (by rw [hid]; exact heq)]
    rfl
  have m1 : (gX (1 : Fin 2)).map (Equiv.swap 0 1) = gX 0 := by
    simp [gX, gate1, Gate.map, Function.comp_def]
  have m0 : (gX (0 : Fin 2)).map (Equiv.swap 0 1) = gX 1 := by
    simp [gX, gate1, Gate.map, Function.comp_def]
  have ap : ∀ p (d : Mat 2), (exactMatrix 2 garb).applyOp .right (.simple (.gate (gX p))) (Equiv.swap 0 1) d =
      (Equiv.swap 0 1, d * (((gX p).map (Equiv.swap 0 1)).mat)ᴴ) := fun _ _ => rfl
  have h2 : altFinish (exactMatrix 2 garb) (fun _ => false)
      { c1 := ⟨[], 1⟩, c2 := ⟨[.simple (.gate (gX 1)), .simple (.gate (gX 0))], Equiv.swap 0 1⟩, d := 1, polls := 2 } =
      { c1 := ⟨[], 1⟩, c2 := ⟨[], Equiv.swap 0 1⟩, d := ((gX 0).mat)ᴴ * ((gX 1).mat)ᴴ, polls := 3 } := by
    unfold altFinish
    have e : finishTask (exactMatrix 2 garb) .right ⟨[.simple (.gate (gX 1)), .simple (.gate (gX 0))], Equiv.swap 0 1⟩ 1 =
        (⟨[], Equiv.swap 0 1⟩, ((gX 0).mat)ᴴ * ((gX 1).mat)ᴴ) := by
      rw [finishTask, dif_pos (by simp [Cur.finished])]
      have k1 : advance (exactMatrix 2 garb) .right 1 ⟨[.simple (.gate (gX 1)), .simple (.gate (gX 0))], Equiv.swap 0 1⟩ 1 =
          (⟨[.simple (.gate (gX 0))], Equiv.swap 0 1⟩, ((gX 0).mat)ᴴ) := by
        rw [advance, if_neg (by simp [Cur.finished])]
        simp only [applyGate, ap, m1, Matrix.one_mul, applySwaps, applySwapsAux, hx, advance]
        rfl
      have k2 : advance (exactMatrix 2 garb) .right 1 ⟨[.simple (.gate (gX 0))], Equiv.swap 0 1⟩ ((gX 0).mat)ᴴ =
          (⟨[], Equiv.swap 0 1⟩, ((gX 0).mat)ᴴ * ((gX 1).mat)ᴴ) := by
        rw [advance, if_neg (by simp [Cur.finished])]
        simp only [applyGate, ap, m0, applySwaps, applySwapsAux, advance]
      rw [k1, finishTask, dif_pos (by simp [Cur.finished]), k2, finishTask, dif_neg (by simp [Cur.finished])]
    have e0 : finishTask (exactMatrix 2 garb) .left ⟨[], 1⟩ 1 = (⟨[], 1⟩, 1) := by
      rw [finishTask, dif_neg (by simp [Cur.finished])]
    simp only [e0, e]
    rfl
  have h3 : ∀ d, altPostprocess (exactMatrix 2 garb) (fun _ => false) flip flippedQC
      { c1 := ⟨[], 1⟩, c2 := ⟨[], Equiv.swap 0 1⟩, d := d, polls := 3 } = { c1 := ⟨[], 1⟩, c2 := ⟨[], Equiv.swap 0 1⟩, d := d, polls := 4 } := by
    intro d
    have e : ∀ reg d, (exactMatrix 2 garb).changePerm reg d 1 idOut2 = (d, 1) := by
      intro reg d
      simp [exactMatrix, changePerm, idOut2, changePermStep]
    have e' : ∀ reg d, (exactMatrix 2 garb).changePerm reg d (Equiv.swap 0 1) [(0, 1), (1, 0)] = (d, Equiv.swap 0 1) := by
      intro reg d
      simp [exactMatrix, changePerm, changePermStep]
    unfold altPostprocess
    simp only [flip, flippedQC, justX, e, e']
    rfl
  refine ⟨{ c1 := ⟨[], 1⟩, c2 := ⟨[], Equiv.swap 0 1⟩, d := ((gX 0).mat)ᴴ * ((gX 1).mat)ᴴ, polls := 4 }, ?_⟩
  unfold runAlt
  rw [show flip.ops.length + flippedQC.ops.length + 2 = 6 from rfl, h1]
  simp only [h2, h3]
  rfl

/-- **C88 fails for arbitrary compilations**: `flipped` is a compilation of an X gate, but the alternating check (one-to-one scheme, any package whose
identity test recognises the identity) rejects it: the X gates at the beginning of the two circuits look alike and are skipped, although they act on different
qubits. -/
theorem compiled_rejected (garb) (T : ExactTests 2) (hid : T.isId 1 = true) :
    (∃ s, runAlt (exactMatrix 2 garb) T.isId exactOpEq (.counts oneToOneScheme) (altVerdict T.close T.wOne) (fun _ => false)
      .noInformation flip flippedQC (altInit (exactMatrix 2 garb) 1 2 flip flippedQC)
      (flip.ops.length + flippedQC.ops.length + 2) = .ok (.notEquivalent, s)) ∧
    Numbered count u3 flip ∧ Numbered count flipped flippedQC ∧ Runnable u3 ∧ Runnable flipped ∧ Compiled u3 flipped := by
  refine ⟨?_, flip_numbered, flipped_numbered, u3_runnable, flipped_runnable, flipped_compiled⟩
  have hv : altVerdict T.close T.wOne (((gX 0).mat)ᴴ * ((gX 1).mat)ᴴ : Mat 2) = .notEquivalent := by
    unfold altVerdict
    rw [if_neg]
    intro h
    obtain ⟨c, S, _, _, e⟩ := T.close_sound _ h
    have e := congrArg Matrix.conjTranspose e
    rw [Matrix.conjTranspose_mul, Matrix.conjTranspose_conjTranspose, Matrix.conjTranspose_conjTranspose, Matrix.conjTranspose_smul,
      Matrix.diagonal_conjTranspose] at e
    have e := congrFun (congrArg (fun m : Mat 2 => m.mulVec ket00) e) (fun _ => true)
    simp only [← Matrix.mulVec_mulVec, gX_mulVec, Matrix.smul_mulVec, Pi.smul_apply, Matrix.mulVec_diagonal, ket00] at e
    rw [if_pos (by decide), if_neg (by decide), mul_zero, smul_zero] at e
    exact one_ne_zero e
  obtain ⟨s, hs⟩ := misled_check garb T.isId hid (altVerdict T.close T.wOne)
  rw [hv] at hs
  exact ⟨s, hs⟩

theorem flippedQC_wf : WellFormed flippedQC (Equiv.swap 0 1) := by
  refine .of_total ?_ ⟨by decide, by decide⟩ (by intro q; fin_cases q <;> simp [flippedQC]) (by
    intro t ht; simp [flippedQC] at ht; rcases ht with rfl | rfl <;> rfl)
  intro o ho
  simp only [flippedQC, List.mem_cons, List.not_mem_nil, or_false] at ho
  rcases ho with rfl | rfl | rfl
  · exact gX_valid 0
  · exact gX_valid 1
  · exact gX_valid 0

/-- What the checkers get; operations are compared exactly. -/
noncomputable def misleading : Mixed 2 2 :=
  { (setOf (Nat.le_refl 2) flip flip ⟨justX_wf.ops, justX_wf.out, justX_wf.labels⟩ ⟨justX_wf.ops, justX_wf.out, justX_wf.labels⟩ flags22 flags22).mixed with
    qc1 := flip, qc2 := flippedQC, ω1 := 1, ω2 := Equiv.swap 0 1, wf1 := ⟨justX_wf.ops, justX_wf.out, justX_wf.labels⟩, wf2 := flippedQC_wf,
    opEq := exactOpEq, schA := .counts oneToOneScheme, schC := oneToOneScheme, schS := oneToOneScheme,
    confA := .counts _ ⟨oneToOneConfigured _ _⟩, confC := ⟨oneToOneConfigured _ _⟩, confS := ⟨oneToOneConfigured _ _⟩ }

/-- The one-to-one scheme. -/
def oneToOneCfg : Configuration := acf { alternatingScheme := .oneToOne }

theorem wX_on_ne : (wX 0).on count ≠ (wX 1).on count := by
  intro h
  have h : Op.simple (.gate (gX (0 : Fin 2))) = .simple (.gate (gX 1)) := h
  injection h with h
  injection h with h
  have h := congrArg (fun g : Gate 2 => ∀ p : Fin 2, (∃ i, g.targets i = p) → p = 0) h
  have : ∀ p : Fin 2, (∃ i, (gX 1).targets i = p) → p = 0 := by
    rw [← h]
    rintro p ⟨i, rfl⟩
    rfl
  exact absurd (this 1 ⟨(0 : Fin 1), rfl⟩) (by decide)

theorem misleading_made : Prep.construct named nothingToDo oneToOneCfg u3 flipped = .made { qc1 := u3, qc2 := flipped, cfg := oneToOneCfg } := rfl

theorem misleading_compares : ∀ a ∈ u3.ops, ∀ b ∈ flipped.ops, exactOpEq (a.on count) (b.on count) = true → a = b := by
  intro a ha b hb h
  have h : a.on count = b.on count := exactOpEq_sound _ _ h
  have ha : a = wX 0 := by simpa [u3] using ha
  have hb : b = wX 0 ∨ b = wX 1 := by
    have : b = wX 0 ∨ b = wX 1 ∨ b = wX 0 := by simpa [flipped] using hb
    tauto
  subst ha
  rcases hb with rfl | rfl
  · rfl
  · exact absurd h wX_on_ne

/-- An uninterrupted run of a manager that is misled. -/
theorem misled_run : CalmManagerRun VerifyWitness.plain u3 flipped oneToOneCfg [] .notEquivalent := by
  let env := testEnv (fun _ => some .noInformation) (.returns .notEquivalent) (.returns .noInformation) (.returns .noInformation)
  have hm : mode env oneToOneCfg = .sequential := rfl
  obtain ⟨s', hr, he⟩ : ∃ s', Mgr.run env 20 (State.fresh oneToOneCfg) = some (.returned s') ∧ s'.results.equivalence = .notEquivalent := ⟨_, rfl, rfl⟩
  refine ⟨fun p _ c hc => ⟨hc, rfl, fun _ => rfl, fun _ _ => rfl⟩, _, misleading_made, 2, 2, rfl, misleading, count, count, flip_numbered, flipped_numbered,
    ⟨fun _ => by decide, fun _ => trivial⟩, misleading_compares, ?_⟩
  · rw [← he]
    have h0 : ¬ oneToOneCfg.execution.timeout > 0 := fun h => absurd h (lt_irrefl (0 : ℚ))
    refine .sequential env 20 s' hm h0 hr ?_
    rintro ⟨k, v⟩ h hen
    cases k
    · cases hen
    · cases h
      obtain ⟨⟨s, hs⟩, _⟩ := compiled_rejected (fun _ _ d => d) (idealTests 2) (by simp only [idealTests, decide_eq_true_iff]; exact ⟨1, (one_smul _ _).symm⟩)
      exact .alternating (fun _ => false) (fun _ _ _ h => h) (fun _ _ => rfl) _ (Nat.le_refl _) (fun q hq => by
        have : ∀ q : Fin 2, flip.ancillary.getD q.val false = false := by decide
        exact absurd ((this q).symm.trans hq.1) (by simp)) _ s hs
    · cases hen
    · cases hen

theorem upTo_nothing {c : Circ WOp} (h : ∀ q, wire (upTo c []) q = q) (v : Bits → ℂ) (x : Bits) : Wide.output (upTo c []) v x = v x := by
  rw [output_no_ops rfl, show wire (upTo c []) = id from funext h]
  rfl

/-- The exception `Misled` of **C81**, **C82** and **C88** is needed: an uninterrupted call of `verify` reports `NotEquivalent` for a circuit and a correct
compilation of it. -/
theorem misled_call : ∃ cfg, FullyChecked VerifyWitness.plain conv u3 flipped cfg .notEquivalent ∧ cfg.application.alternatingScheme = .oneToOne ∧
    Runnable u3 ∧ Runnable flipped ∧ Compiled u3 flipped ∧ Equal u3 flipped ∧ Misled VerifyWitness.plain u3 flipped cfg [] := by
  refine ⟨oneToOneCfg, fully misled_run rfl (Or.inl rfl), rfl, u3_runnable, flipped_runnable, flipped_compiled,
    compiled_equal u3_runnable flipped_runnable flipped_compiled, _, fun p _ c hc => ⟨hc, rfl, fun _ => rfl, fun _ _ => rfl⟩, misleading_made, rfl,
    Or.inl ⟨by decide, by decide, [], [], wX 0, [], [wX 1, wX 0], rfl, rfl, rfl, ⟨1, by simp, ?_⟩, Or.inr ⟨0, ⟨_, List.mem_singleton_self _, Or.inl ⟨0, rfl⟩, by simp⟩, ?_⟩⟩⟩
  · intro v _ x
    have w : ∀ c : Circ WOp, (c = u3 ∨ c = flipped) → ∀ q, wire (upTo c []) q = q := by
      intro c hc q
      unfold wire
      split
      · rename_i h
        obtain ⟨p, hp⟩ := h
        have : q = 0 ∨ q = 1 := by
          rcases hc with rfl | rfl
          · have hp : (p, q) ∈ [(0, 0), (1, 1)] := hp
            simp only [List.mem_cons, Prod.mk.injEq, List.not_mem_nil, or_false] at hp
            omega
          · have hp : (p, q) ∈ [(0, 1), (1, 0)] := hp
            simp only [List.mem_cons, Prod.mk.injEq, List.not_mem_nil, or_false] at hp
            omega
        rcases hc with rfl | rfl <;> rcases this with rfl | rfl <;> rfl
      · rfl
    rw [upTo_nothing (w _ (Or.inl rfl)), upTo_nothing (w _ (Or.inr rfl)), one_mul]
  · show (0 : Nat) ≠ 1
    decide

/-! ## With partial equivalence -/

/-- As `oneToOneCfg`, with partial equivalence. -/
def partialCfg : Configuration := { oneToOneCfg with functionality := { oneToOneCfg.functionality with checkPartialEquivalence := true } }

noncomputable def misleadingPartial : PBase 2 2 := { misleading with G := idealGarbageTest 2 }

theorem partial_made : Prep.construct named nothingToDo partialCfg u3 flipped = .made { qc1 := u3, qc2 := flipped, cfg := partialCfg } := rfl

/-- An uninterrupted run with partial equivalence of a manager that is misled. -/
theorem misled_partial_run : CalmPManagerRun VerifyWitness.plain u3 flipped partialCfg [] .notEquivalent := by
  let env := testEnv (fun _ => some .noInformation) (.returns .notEquivalent) (.returns .noInformation) (.returns .noInformation)
  have hm : mode env partialCfg = .sequential := rfl
  obtain ⟨s', hr, he⟩ : ∃ s', Mgr.run env 20 (State.fresh partialCfg) = some (.returned s') ∧ s'.results.equivalence = .notEquivalent := ⟨_, rfl, rfl⟩
  refine ⟨VerifyPartialWitness.nothing_faithful _, _, partial_made, 2, 2, rfl, misleadingPartial, count, count, flip_numbered, flipped_numbered,
    ⟨fun _ => by decide, fun _ => trivial⟩, misleading_compares, ?_⟩
  rw [← he]
  have h0 : ¬ partialCfg.execution.timeout > 0 := fun h => absurd h (lt_irrefl (0 : ℚ))
  refine .sequential env 20 s' hm h0 hr ?_
  rintro ⟨k, v⟩ h hen
  cases k
  · cases hen
  · cases h
    have hv : altCheck true (idealGarbageTest 2).closeG (idealTests 2).close (idealTests 2).wOne 2 flip flippedQC (((gX 0).mat)ᴴ * ((gX 1).mat)ᴴ : Mat 2) =
        .notEquivalent := by
      unfold altCheck altVerdict
      rw [if_neg]
      intro h
      rw [if_pos rfl, (idealGarbageTest 2).closeG_iff] at h
      have e : ((((gX 0).mat)ᴴ * ((gX 1).mat)ᴴ : Mat 2)ᴴ).mulVec ket00 (fun _ => true) = 1 := by
        rw [Matrix.conjTranspose_mul, Matrix.conjTranspose_conjTranspose, Matrix.conjTranspose_conjTranspose]
        simp only [← Matrix.mulVec_mulVec, gX_mulVec, ket00]
        rw [if_pos (by decide)]
      have z : ((((gX 0).mat)ᴴ * ((gX 1).mat)ᴴ : Mat 2)ᴴ).mulVec ket00 (fun _ => true) = 0 := by
        unfold Matrix.mulVec dotProduct
        refine Finset.sum_eq_zero fun x _ => ?_
        by_cases hx : ket00 x = 0
        · rw [hx, mul_zero]
        · have hx0 : x = fun _ => false := by
            by_contra hn
            exact hx (by rw [ket00, if_neg hn])
          show star ((((gX 0).mat)ᴴ * ((gX 1).mat)ᴴ : Mat 2) x (fun _ => true)) * _ = 0
          by_contra hn
          have hn' : (((gX 0).mat)ᴴ * ((gX 1).mat)ᴴ : Mat 2) x (fun _ => true) ≠ 0 := fun h0 => hn (by rw [h0, star_zero, zero_mul])
          have := h _ _ hn' 0 rfl
          rw [hx0] at this
          exact absurd this (by simp)
      exact one_ne_zero (e.symm.trans z)
    obtain ⟨s, hs⟩ := misled_check reduceGarbageMat (idealTests 2).isId (by simp only [idealTests, decide_eq_true_iff]; exact ⟨1, (one_smul _ _).symm⟩)
      (altCheck true (idealGarbageTest 2).closeG (idealTests 2).close (idealTests 2).wOne 2 flip flippedQC)
    rw [hv] at hs
    exact .alternating (S := misleadingPartial) (fun _ => false) (fun _ _ _ h => h) (fun _ _ => rfl) _ (Nat.le_refl _) _ s hs
  · cases hen
  · cases hen

/-- The exception `Misled` is also needed with partial equivalence (**C74**, **C81**, **C82**). -/
theorem misled_partial_call : ∃ w res, CalmPRealises VerifyWitness.plain (VerifyPartialWitness.imp u3 flipped) w ∧
    Param.verify w partialCfg VerifyWitness.a VerifyWitness.b = .ok res ∧ res.equivalence = .notEquivalent ∧ Runnable u3 ∧ Runnable flipped ∧
    SameGarbage u3 flipped ∧ PartiallyEqual u3 flipped ∧ (∀ q, u3.isAncillary q = false) ∧ ∀ q, flipped.isAncillary q = false := by
  refine ⟨_, { equivalence := .notEquivalent }, VerifyPartialDecidesWitness.knowing_calm_partial misled_partial_run, VerifyPartialWitness.knowing_verify _ _, rfl,
    u3_runnable, flipped_runnable, ?_, partiallyEqual_of_equal ⟨1, by simp, compiled_equal u3_runnable flipped_runnable flipped_compiled⟩, ?_, ?_⟩
  · intro q h _
    have : q = 0 ∨ q = 1 := by have : q < 2 := h; omega
    rcases this with rfl | rfl <;> rfl
  · intro q
    rcases q with _ | _ | q <;> rfl
  · intro q
    rcases q with _ | _ | q <;> rfl

end QCEC.Props.RoutingWitness
