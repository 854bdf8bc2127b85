import Verif.Props.VerifyEndToEnd
import Verif.Props.PreparationWitness
import Verif.Props.ParamWitness
import Verif.Props.Empty
/-!
# C81: worlds that meet the hypotheses, and the limit: a SWAP and nothing are reported equivalent
-/
namespace QCEC.Props.VerifyWitness
open QCEC QCEC.Param QCEC.Mgr QCEC.Prep QCEC.Spec QCEC.Spec.Wide QCEC.Spec.ZX QCEC.Wide QCEC.Sem QCEC.Spec.Param QCEC.Props QCEC.Props.PreparationWitness

theorem quiet_answer {m n : Nat} {S : Setting m n} {k : Kind} {c : Criterion} (h : Answer S true k c) : Answer S false k c := by
  have sim : ∀ p c, SimRun S true p c → SimRun S false p c := by
    rintro p c ⟨R, g, g', st, x, stop, fuel, s, h1, h2, h3, _, h5⟩
    exact ⟨R, g, g', st, x, stop, fuel, s, h1, h2, h3, by simp, h5⟩
  induction h with
  | alternating stop hm hq fuel hf handled c s h => exact .alternating stop hm (by simp) fuel hf handled c s h
  | construction stop hm hq fuel hf c s h => exact .construction stop hm (by simp) fuel hf c s h
  | simulation c h => exact .simulation c (sim _ _ h)
  | simulationAgain p c hp h ih => exact .simulationAgain p c ih (sim _ _ h)
  | zx hr1 hr2 hc1 hc2 outs1 outs2 ho1 ho2 M g θ hR hg done hq c h =>
    exact .zx hr1 hr2 hc1 hc2 outs1 outs2 ho1 ho2 M g θ hR hg done (by simp) c h

/-- The configuration the user passes. -/
def cfg : Configuration := testCfg true true true false 16 0

/-- `X(0)` on three qubits: does something else than `c1`. -/
noncomputable def c3 : Circ WOp := { c1 with ops := [wX 0] }
/-- It after the preparation. -/
noncomputable def r3 : Circ WOp := { r1 with ops := c3.ops }

theorem runnable3' : Runnable c3 := by
  refine runnable3 _ ?_ ?_
  · intro o ho s hs
    simp only [List.mem_cons, List.not_mem_nil, or_false] at ho
    subst ho
    exact wX_proper 0 s hs
  · intro o ho p hn
    simp only [List.mem_cons, List.not_mem_nil, or_false] at ho
    subst ho
    have := wX_names hn; omega

theorem numbered3 : Numbered count r3 justX := by
  refine ⟨rfl, numbered1.inj, rfl, ?_, rfl, ?_, ?_⟩
  · intro p q hp
    exact numbered1.initial p q hp
  · intro q hq
    exact numbered1.ancillary q hq
  · intro q hq
    exact numbered1.garbage q hq

/-- A library whose passes do nothing. -/
def plain : Library := ⟨named, nothingToDo, named_reliable⟩

/-- A manager run exists for two prepared circuits; its verdict decides their equivalence. -/
theorem run_exists {a b ra rb : Circ WOp} {qa qb : QC 2} (ha : Runnable a) (hb : Runnable b) (wa : WellFormed qa 1) (wb : WellFormed qb 1)
    (aa : qa.ancillary = []) (ab : qb.ancillary = []) (na : Numbered count ra qa) (nb : Numbered count rb qb) (hd : ra.ndata = 2)
    (h : Prep.construct named nothingToDo cfg a b = .made { qc1 := ra, qc2 := rb, cfg := testCfg true true true false 4 0 })
    (setters : List Param.Setter) (hs : setters = [] ∨ setters = [.zx false]) :
    ∃ v, ManagerRun plain a b cfg setters v ∧ Correct v (flags 2 2) qa 1 qb 1 := by
  obtain ⟨env, hm, hans, s', hr, hc⟩ := sequential_run_exists 4 (by decide) (settingOf qa qb wa wb aa ab) rfl (fun q hq => absurd q.isLt (by omega))
  refine ⟨s'.results.equivalence, ⟨fun p _ c hc => ⟨hc, rfl, fun _ => rfl, fun _ _ => rfl⟩, _, h, 2, 2, hd,
    (settingOf qa qb wa wb aa ab).mixed, count, count, na, nb, ⟨fun _ => by simp [testCfg], fun _ => trivial⟩, fun _ _ _ _ h => Bool.noConfusion h, ?_⟩, hc⟩
  have hset : afterSetters (testCfg true true true false 4 0) setters = testCfg true true true false 4 0 := by
    rcases hs with rfl | rfl <;> rfl
  rw [hset]
  refine .sequential env 20 s' hm hr fun e he hen => answer_mixed _ (quiet_answer (hans e he ?_))
  intro hk
  rw [hk] at hen
  exact absurd hen (by simp [Enabled, testCfg])

/-- Two files. -/
def a : Param.Input := .file "a.qasm"
/-- See `a`. -/
def b : Param.Input := .file "b.qasm"

/-- Importing the two files. -/
noncomputable def imp : Param.Subject → Option (Circ WOp)
  | .given (.file "a.qasm") => some c1
  | .given (.file "b.qasm") => some c2
  | _ => none

/-- **C81** is not vacuous: there are managers as QCEC's for which `verify` on two (different) files with circuits returns a verdict. -/
theorem verify_runs : ∃ w res, Realises plain imp w ∧ Param.verify w cfg a b = .ok res ∧ res.equivalence = .equivalent := by
  classical
  obtain ⟨v, hv, hc⟩ := run_exists runnable1 runnable2 swapXswap_wf justX1_wf rfl rfl numbered1 numbered2 rfl rfl [] (Or.inl rfl)
  have he : v = .equivalent := hc.equivalent.2 fun x _ => swapXswap_same_justX1 x (fun _ _ q hq => by simp at hq)
  subst he
  refine ⟨{ manager := fun _ c s x y => if c = cfg ∧ s = [] ∧ x = .given a ∧ y = .given b then .ok { equivalence := .equivalent } else .error .attribute,
            pinv := fun _ _ _ => 0, choice := fun _ _ => 0, uniform := fun _ => 0, clock := fun _ => 0 }, { equivalence := .equivalent }, ?_, ?_, rfl⟩
  · intro k c s x y r d1 d2 hp h1 h2 h
    dsimp only at h
    split at h
    · rename_i hh
      obtain ⟨rfl, rfl, rfl, rfl⟩ := hh
      simp only [imp, a, b, Option.some.injEq] at h1 h2
      subst h1 h2
      cases h
      exact hv
    · exact absurd h (by simp)
  · rw [verify_choice.1 (by simp [Verifiable, a]) (by simp [Verifiable, b]) (by simp [Symbolic, a]) (by simp [Symbolic, b])]
    simp

/-- Two circuits with the same symbolic parameter. -/
noncomputable def p1 : Param.Circuit := [{ label := "p", params := [.var { name := "x" }] }]
/-- See `p1`. -/
noncomputable def p2 : Param.Circuit := [{ label := "q", params := [.var { name := "x" }] }]

open Classical in
/-- Importing instantiated circuits: those that begin with a gate `p` become `c1`, all others `c3`. -/
noncomputable def impBound : Param.Subject → Option (Circ WOp)
  | .bound l => if l.head?.map (·.label) = some "p" then some c1 else some c3
  | _ => none

theorem impBound_imports : Imports impBound := by
  have no1 : ∀ q, c1.isAncillary q = false := fun q => by
    match q with
    | 0 => rfl
    | 1 => rfl
    | 2 => rfl
    | _ + 3 => rfl
  have no3 : ∀ q, c3.isAncillary q = false := fun q => by
    match q with
    | 0 => rfl
    | 1 => rfl
    | 2 => rfl
    | _ + 3 => rfl
  have hcase : ∀ l, impBound (.bound l) = some c1 ∨ impBound (.bound l) = some c3 := fun l => by
    by_cases h : l.head?.map (·.label) = some "p"
    · exact Or.inl (by simp only [impBound, if_pos h])
    · exact Or.inr (by simp only [impBound, if_neg h])
  constructor
  · intro l
    rcases hcase l with h | h
    · exact ⟨c1, h, runnable1, last_of_none no1⟩
    · exact ⟨c3, h, runnable3', last_of_none no3⟩
  · intro l l' d d' h h' q _ _
    have hd : d.isAncillary q = false := by
      rcases hcase l with hh | hh <;> (rw [hh] at h; cases h; first | exact no1 q | exact no3 q)
    have hd' : d'.isAncillary q = false := by
      rcases hcase l' with hh | hh <;> (rw [hh] at h'; cases h'; first | exact no1 q | exact no3 q)
    rw [hd, hd']

open Classical in
/-- Managers that find `c1` and `c3` not equivalent and give no information on circuits with symbolic parameters. -/
noncomputable def refuting : World where
  manager := fun _ c s x y =>
    if c = cfg ∧ s = [.zx false] ∧ impBound x = some c1 ∧ impBound y = some c3 then .ok { equivalence := .notEquivalent }
    else if impBound x = none then .ok {} else .error .attribute
  pinv := fun _ _ _ => 0
  choice := fun _ _ => 0
  uniform := fun _ => 0
  clock := fun _ => 0

/-- **C81** is not vacuous for circuits with parameters: `verify` finds two of them not equivalent. -/
theorem verify_refutes : ∃ w res, Realises plain impBound w ∧ Param.verify w cfg (.circuit p1) (.circuit p2) = .ok res ∧ res.equivalence = .notEquivalent := by
  classical
  obtain ⟨v, hv, hc⟩ := run_exists runnable1 runnable3' swapXswap_wf justX_wf rfl rfl numbered1 numbered3 rfl rfl [.zx false] (Or.inr rfl)
  have he : v = .notEquivalent := by
    rw [hc.notEquivalent]
    rintro ⟨c, h1, h2⟩
    exact swapXswap_ne_justX ⟨c, h1, fun x _ => h2 x (fun _ _ q hq => by
      have : q.val = 0 ∨ q.val = 1 := by omega
      rcases this with e | e <;> simp [flags, e] at hq)⟩
  subst he
  refine ⟨refuting, (Stats.update (Stats.update {} {}) { equivalence := .notEquivalent }).write 1 { equivalence := .notEquivalent }, ?_, ?_, rfl⟩
  · intro k c s x y r d1 d2 hp h1 h2 h
    simp only [refuting] at h
    split at h
    · rename_i hh
      obtain ⟨rfl, rfl, g1, g2⟩ := hh
      rw [g1] at h1
      rw [g2] at h2
      cases h1
      cases h2
      cases h
      exact hv
    · split at h
      · rename_i hz
        rw [hz] at h1
        exact absurd h1 (by simp)
      · exact absurd h (by simp)
  · have hpar : ∀ q, q ∈ Circuit.parameters p1 ↔ q ∈ Circuit.parameters p2 := by
      intro q
      simp [Circuit.parameters, p1, p2, Expr.parameters]
    have hsym : Symbolic (.circuit p1) := ⟨_, by simp [p1]; rfl, _, by simp; rfl, _, .var⟩
    rw [verify_choice.2.1 (by simp [Verifiable]) (Or.inl hsym)]
    have h0 : refuting.manager 0 cfg [.disableAll, .zx true] (.given (.circuit p1)) (.given (.circuit p2)) = .ok {} := by
      simp [refuting, impBound]
    have h1 : ∀ v w, refuting.manager 1 cfg [.zx false] (.bound (rounded ((cfg.parameterized.parameterizedTol : ℚ) : ℝ) (at_ p1 v)))
        (.bound (rounded ((cfg.parameterized.parameterizedTol : ℚ) : ℝ) (at_ p2 w))) = .ok { equivalence := .notEquivalent } := by
      intro v w
      have e1 : impBound (.bound (rounded ((cfg.parameterized.parameterizedTol : ℚ) : ℝ) (at_ p1 v))) = some c1 := by
        simp [impBound, rounded, at_, p1]
      have e2 : impBound (.bound (rounded ((cfg.parameterized.parameterizedTol : ℚ) : ℝ) (at_ p2 w))) = some c3 := by
        simp [impBound, rounded, at_, p2]
      simp only [refuting, e1, e2, and_self, if_true]
    have h2 := instantiate_symb (w := refuting) (tol := ((cfg.parameterized.parameterizedTol : ℚ) : ℝ)) (mat := (extractParams p1 p2).2.1)
      (b := (extractParams p1 p2).2.2) hpar
    have ht : cfg.execution.timeout = 0 := rfl
    simp only [checkParameterized, h0, Criterion.consideredEquivalent, Bool.false_eq_true, if_false, instantiated, Ctx.tol, Ctx.params, Ctx.mat, Ctx.offsets]
    rw [show (extractParams p1 p2).1 = symbParams p1 p2 from rfl, h2]
    simp [adjust, ht, checkInstantiated, h1]

/-! ## A SWAP and nothing -/

/-- `SWAP(0,1)` on two qubits. -/
def sw : Circ WOp where
  ndata := 2
  nancillae := 0
  initialLayout := [(0, 0), (1, 1)]
  outputPermutation := [(0, 0), (1, 1)]
  ancillary := [false, false]
  garbage := [false, false]
  ops := [.simple (.swap 0 1)]

/-- Two qubits, no operation. -/
def idle : Circ WOp := { sw with ops := [] }
/-- `sw` after the SWAP has been moved into the output permutation. -/
def elided : Circ WOp := { sw with ops := [], outputPermutation := [(0, 1), (1, 0)] }

theorem ok2 (ops : List WOp) (out : Layout) (ho : out = [(0, 0), (1, 1)] ∨ out = [(0, 1), (1, 0)]) : CircOk { sw with ops := ops, outputPermutation := out } := by
  have k1 : (([(0, 0), (1, 1)] : Layout).map Prod.fst).Pairwise (· < ·) := by decide
  have k2 : (([(0, 0), (1, 1)] : Layout).map Prod.snd).Nodup := by decide
  refine ⟨k1, k2, ?_, ?_, ?_, ?_, ?_, rfl, rfl, rfl⟩
  · intro q
    show (∃ p, (p, q) ∈ [(0, 0), (1, 1)]) ↔ q < 2
    constructor
    · rintro ⟨p, hp⟩
      simp only [List.mem_cons, Prod.mk.injEq, List.not_mem_nil, or_false] at hp
      omega
    · intro hq
      have : q = 0 ∨ q = 1 := by omega
      rcases this with rfl | rfl
      · exact ⟨0, by simp⟩
      · exact ⟨1, by simp⟩
  · show (out.map Prod.fst).Pairwise (· < ·)
    rcases ho with rfl | rfl
    · exact k1
    · decide
  · show (out.map Prod.snd).Nodup
    rcases ho with rfl | rfl
    · exact k2
    · decide
  · intro p q hp
    show q < 2
    rcases ho with rfl | rfl <;>
    · simp only [List.mem_cons, Prod.mk.injEq, List.not_mem_nil, or_false] at hp
      omega
  · intro p q hp
    have : q = 0 ∨ q = 1 := by
      rcases ho with rfl | rfl <;>
      · simp only [List.mem_cons, Prod.mk.injEq, List.not_mem_nil, or_false] at hp
        omega
    rcases this with rfl | rfl <;> rfl

theorem runnable_two (ops : List WOp) (out : Layout) (ho : out = [(0, 0), (1, 1)] ∨ out = [(0, 1), (1, 0)])
    (hops : ∀ o ∈ ops, o = .simple (.swap 0 1)) : Runnable { sw with ops := ops, outputPermutation := out } where
  ok := ok2 ops out ho
  proper := by
    intro o hm s hs
    rw [hops o hm, WOp.parts, List.mem_singleton] at hs
    subst hs
    trivial
  inside := by
    rintro o hm p ⟨s, hs, hn⟩
    rw [hops o hm, WOp.parts, List.mem_singleton] at hs
    subst hs
    refine ⟨p, ?_⟩
    show (p, p) ∈ [(0, 0), (1, 1)]
    rcases hn with h | h <;> subst h <;> simp
  outInside := by
    intro p q hp
    refine ⟨p, ?_⟩
    show (p, p) ∈ [(0, 0), (1, 1)]
    rcases ho with rfl | rfl <;>
    · simp only [List.mem_cons, Prod.mk.injEq, List.not_mem_nil, or_false] at hp
      rcases hp with ⟨rfl, _⟩ | ⟨rfl, _⟩ <;> simp

theorem sw_runnable : Runnable sw := runnable_two _ _ (Or.inl rfl) (by simp)
theorem idle_runnable : Runnable idle := runnable_two [] _ (Or.inl rfl) (by simp)
theorem elided_runnable : Runnable elided := runnable_two [] _ (Or.inr rfl) (by simp)

theorem two_output {c : Circ WOp} (hl : c.initialLayout = [(0, 0), (1, 1)]) (v : Bits → ℂ) (x : Bits) (s : Nat → Nat)
    (hrun : ∀ u y, Wide.run c.ops u y = u (y ∘ s)) (h0 : endLabel c (s 0) = 1) (h1 : endLabel c (s 1) = 0) :
    Wide.output c v x = v (x ∘ Equiv.swap 0 1) := by
  unfold Wide.output
  rw [hrun]
  congr 1
  funext q
  have hc : c.initialLayout.keyOf 0 = some 0 ∧ c.initialLayout.keyOf 1 = some 1 := by rw [hl]; exact ⟨rfl, rfl⟩
  by_cases q0 : q = 0
  · subst q0
    rw [if_pos ⟨0, by rw [hl]; simp⟩, carrier, hc.1]
    simp [h0]
  · by_cases q1 : q = 1
    · subst q1
      rw [if_pos ⟨1, by rw [hl]; simp⟩, carrier, hc.2]
      simp [h1]
    · rw [if_neg]
      · simp [Equiv.swap_apply_of_ne_of_ne q0 q1]
      · rintro ⟨p, hp⟩
        rw [hl] at hp
        simp only [List.mem_cons, Prod.mk.injEq, List.not_mem_nil, or_false] at hp
        omega

theorem sw_output (v : Bits → ℂ) (x : Bits) : Wide.output sw v x = v (x ∘ Equiv.swap 0 1) :=
  two_output rfl v x (Equiv.swap 0 1) (fun _ _ => rfl) (by decide) (by decide)

theorem elided_output (v : Bits → ℂ) (x : Bits) : Wide.output elided v x = v (x ∘ Equiv.swap 0 1) :=
  two_output rfl v x id (fun _ _ => rfl) (by decide) (by decide)

theorem idle_output (v : Bits → ℂ) (x : Bits) : Wide.output idle v x = v x := by
  unfold Wide.output
  show v _ = v x
  congr 1
  funext q
  have hc : idle.initialLayout.keyOf 0 = some 0 ∧ idle.initialLayout.keyOf 1 = some 1 := ⟨rfl, rfl⟩
  have e0 : endLabel idle 0 = 0 := by decide
  have e1 : endLabel idle 1 = 1 := by decide
  split
  · rename_i hq
    obtain ⟨p, hp⟩ := hq
    have hp : (p, q) ∈ [(0, 0), (1, 1)] := hp
    simp only [List.mem_cons, Prod.mk.injEq, List.not_mem_nil, or_false] at hp
    rcases hp with ⟨_, rfl⟩ | ⟨_, rfl⟩
    · rw [carrier, hc.1]; simp [e0]
    · rw [carrier, hc.2]; simp [e1]
  · rfl

open Classical in
/-- Optimization passes that elide the SWAP of `sw` (and leave all other circuits alone). -/
noncomputable def eliding : Passes (Circ WOp) where
  apply p c := if p = .elidePermutations ∧ c = sw then elided else c
  empty c := c.ops.isEmpty
  dynamic _ := false
  variableFree _ := true

/-- A library with this pass. -/
noncomputable def elider : Library := ⟨named, eliding, named_reliable⟩

theorem eliding_faithful (p : Pass) : Faithful eliding p := by
  intro c hc
  by_cases h : p = .elidePermutations ∧ c = sw
  · obtain ⟨rfl, rfl⟩ := h
    have e : eliding.apply .elidePermutations sw = elided := by simp [eliding]
    rw [e]
    exact ⟨elided_runnable, rfl, fun _ => rfl, fun v x => by rw [elided_output, sw_output]⟩
  · have e : eliding.apply p c = c := by simp only [eliding, if_neg h]
    rw [e]
    exact ⟨hc, rfl, fun _ => rfl, fun _ _ => rfl⟩

/-- The default configuration. -/
def d : Configuration := Configuration.default 8 0
/-- What the constructor of the manager makes of it: at most four simulations on two qubits. -/
def d' : Configuration := { d with simulation := { d.simulation with maxSims := 4 } }

theorem elided_ne : elided ≠ sw := fun h => by
  have : elided.ops = sw.ops := by rw [h]
  exact absurd this (by simp [elided, sw])

theorem idle_ne : idle ≠ sw := fun h => by
  have : idle.ops = sw.ops := by rw [h]
  exact absurd this (by simp [idle, sw])

/-- With the default configuration, no operation of `sw` is left in the manager. -/
theorem elided_made : Prep.construct named eliding d sw idle = .made { qc1 := elided, qc2 := idle, cfg := d' } := by
  have hp : planned d.optimizations false = [.swapReconstruction, .elidePermutations, .singleQubitGateFusion, .reorderOperations, .removeFinalMeasurements] := rfl
  have a1 : ∀ p, eliding.apply p idle = idle := fun p => by simp only [eliding, if_neg (fun h : p = .elidePermutations ∧ idle = sw => idle_ne h.2)]
  have a2 : ∀ p, eliding.apply p elided = elided := fun p => by simp only [eliding, if_neg (fun h : p = .elidePermutations ∧ elided = sw => elided_ne h.2)]
  have a3 : eliding.apply .elidePermutations sw = elided := by simp [eliding]
  have a4 : eliding.apply .swapReconstruction sw = sw := by simp [eliding]
  have hr : eliding.run d.optimizations (sw, idle) = .ok (elided, idle) := by
    rw [passes_exact]
    have e1 : eliding.empty sw = false := rfl
    have e2 : ∀ c, eliding.dynamic c = false := fun _ => rfl
    simp only [e1, e2, Bool.false_eq_true, false_and, if_false, or_self, hp, List.foldl_cons, List.foldl_nil, a1, a2, a3, a4]
  have hv : (eliding.variableFree sw && eliding.variableFree idle) = true := rfl
  unfold Prep.construct
  rw [if_pos hv, hr]
  rfl

theorem count_inj (p p' q q' : Nat) (hp : (p, q) ∈ [(0, 0), (1, 1)]) (hp' : (p', q') ∈ [(0, 0), (1, 1)]) (he : count p = count p') : p = p' := by
  simp only [List.mem_cons, Prod.mk.injEq, List.not_mem_nil, or_false] at hp hp'
  rcases hp with ⟨rfl, _⟩ | ⟨rfl, _⟩ <;> rcases hp' with ⟨rfl, _⟩ | ⟨rfl, _⟩
  · rfl
  · exact absurd he (by decide)
  · exact absurd he (by decide)
  · rfl

theorem count_val (p q : Nat) (hp : (p, q) ∈ [(0, 0), (1, 1)]) : (count p).val = q := by
  simp only [List.mem_cons, Prod.mk.injEq, List.not_mem_nil, or_false] at hp
  rcases hp with ⟨rfl, rfl⟩ | ⟨rfl, rfl⟩ <;> rfl

theorem crossed_numbered : Numbered count elided crossed := by
  refine ⟨rfl, count_inj, rfl, ?_, rfl, ?_, ?_⟩
  · intro p q hp
    exact count_val p q hp
  · intro q hq
    have : q = 0 ∨ q = 1 := by omega
    rcases this with rfl | rfl <;> rfl
  · intro q hq
    have : q = 0 ∨ q = 1 := by omega
    rcases this with rfl | rfl <;> rfl

theorem straight_numbered : Numbered count idle straight := by
  refine ⟨rfl, count_inj, rfl, ?_, rfl, ?_, ?_⟩
  · intro p q hp
    exact count_val p q hp
  · intro q hq
    have : q = 0 ∨ q = 1 := by omega
    rcases this with rfl | rfl <;> rfl
  · intro q hq
    have : q = 0 ∨ q = 1 := by omega
    rcases this with rfl | rfl <;> rfl

/-- The two circuits, after the preparation. -/
noncomputable def shortcut : Setting 2 2 :=
  { settingOf justX1 justX1 justX1_wf justX1_wf rfl rfl with
    qc1 := crossed, qc2 := straight, ω1 := Equiv.swap 0 1, ω2 := 1, wf1 := crossed_wf, wf2 := straight_wf, anc1 := by decide, anc2 := by decide,
    cancel := fun _ => .disjoint fun _ _ _ _ => rfl
    schA := .counts DD.oneToOneScheme, schC := DD.oneToOneScheme, schS := DD.oneToOneScheme,
    confA := .counts _ ⟨oneToOneConfigured _ _⟩, confC := ⟨oneToOneConfigured _ _⟩, confS := ⟨oneToOneConfigured _ _⟩ }

/-- The limit of **C81**: with the default configuration, and passes that preserve what circuits do, a manager for a SWAP and an empty circuit reports
`Equivalent`, although the two do not do the same. -/
theorem swap_reported_equivalent : Runnable sw ∧ Runnable idle ∧ ManagerRun elider sw idle d [] .equivalent ∧ ¬ EqualUpToPhase sw idle ∧ CrossedShortcut elider sw idle d := by
  refine ⟨sw_runnable, idle_runnable, ?_, ?_, ?_⟩
  · refine ⟨fun p _ => eliding_faithful p, _, elided_made, 2, 2, rfl, shortcut.mixed, count, count, crossed_numbered, straight_numbered,
      ⟨fun _ => by decide, fun _ => trivial⟩, fun _ _ _ _ h => Bool.noConfusion h, ?_⟩
    have hr : ∃ s', run { passing with bothEmpty := true } 0 (State.fresh (afterSetters d' [])) = some (.returned s') ∧
        s'.results.equivalence = .equivalent := ⟨_, rfl, rfl⟩
    obtain ⟨s', h, hs⟩ := hr
    rw [← hs]
    exact Runs.empty { passing with bothEmpty := true } 0 s' ⟨rfl, rfl⟩ rfl h
  · classical
    rintro ⟨c, hc, h⟩
    let x : Bits := fun q => decide (q = 0)
    have hz : Spec.Wide.Zero (Fixed sw idle) (fun y => if y = x then 1 else 0) := by
      intro y hy q hq
      have hy : y = x := by
        by_contra hn
        exact hy (if_neg hn)
      subst hy
      show decide (q = 0) = false
      rw [decide_eq_false_iff_not]
      rintro rfl
      rcases hq with h | h | h | h
      · exact absurd h (by decide)
      · exact absurd h (by decide)
      · exact absurd h (by decide)
      · exact absurd h (by decide)
    have := h _ hz x
    rw [sw_output, idle_output] at this
    have hne : x ∘ Equiv.swap 0 1 ≠ x := fun e => by
      have := congrFun e 0
      simp [x] at this
    rw [if_neg hne, if_pos rfl, mul_one] at this
    rw [← this] at hc
    simp at hc
  · refine ⟨_, fun p _ => eliding_faithful p, elided_made, rfl, rfl, 0, ?_⟩
    have e1 : wire elided 0 = 1 := by
      rw [wire, if_pos ⟨0, by simp [elided, sw]⟩]; decide
    have e2 : wire idle 0 = 0 := by
      rw [wire, if_pos ⟨0, by simp [idle, sw]⟩]; decide
    show wire elided 0 ≠ wire idle 0
    rw [e1, e2]
    decide

end QCEC.Props.VerifyWitness
