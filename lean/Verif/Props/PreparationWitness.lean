import Verif.Props.Preparation
import Verif.Props.EndToEndWitness
/-!
# Examples for C64
-/
namespace QCEC.Props.PreparationWitness
open QCEC QCEC.Prep QCEC.Spec QCEC.Spec.Wide QCEC.Spec.ZX QCEC.Wide QCEC.Mgr QCEC.Sem QCEC.Props

/-- An elementary operation names a qubit. -/
def sNames : WSOp → Nat → Bool
  | .gate g, p => (List.finRange g.k).any (fun i => g.targets i == p) || g.controls.any fun c => c.1 == p
  | .swap a b, p => a == p || b == p
  | .barrier qs, p => qs.contains p

/-- `Operation::actsOn`. -/
def named (o : WOp) (p : Nat) : Bool := o.parts.any fun s => sNames s p

theorem named_reliable : Reliable named := by
  rintro o p h ⟨s, hs, hn⟩
  have : sNames s p = true := by
    cases s with
    | gate g =>
      simp only [sNames, Bool.or_eq_true, List.any_eq_true, List.mem_finRange, true_and, beq_iff_eq]
      rcases hn with ⟨i, hi⟩ | ⟨b, hb⟩
      · exact Or.inl ⟨i, hi⟩
      · exact Or.inr ⟨_, hb, rfl⟩
    | swap a b =>
      simp only [sNames, Bool.or_eq_true, beq_iff_eq]
      exact hn
    | barrier qs =>
      simp only [sNames, List.contains_iff_mem]
      exact hn
  unfold named at h
  rw [List.any_eq_false] at h
  exact absurd this (by simpa using h s hs)

/-- An uncontrolled X gate. -/
noncomputable def wX (p : Nat) : WOp := .simple (.gate { k := 1, u := fun x y => mX (x 0) (y 0), targets := fun _ => p, controls := [] })

theorem wX_proper (p : Nat) : ∀ s ∈ (wX p).parts, s.Proper := by
  intro s hs
  rw [wX, WOp.parts, List.mem_singleton] at hs
  subst hs
  exact ⟨fun _ _ _ => Subsingleton.elim _ _, by simp, (gX_valid (n := 1) 0).unitary⟩

/-- Three qubits; logical qubit 1 is idle: `SWAP(0,2); X(0); SWAP(0,2)`. -/
noncomputable def c1 : Circ WOp where
  ndata := 3
  nancillae := 0
  initialLayout := [(0, 0), (1, 1), (2, 2)]
  outputPermutation := [(0, 0), (1, 1), (2, 2)]
  ancillary := [false, false, false]
  garbage := [false, false, false]
  ops := [.simple (.swap 0 2), wX 0, .simple (.swap 0 2)]

/-- `X(2)`. -/
noncomputable def c2 : Circ WOp := { c1 with ops := [wX 2] }

/-- The first circuit after preparation. -/
noncomputable def r1 : Circ WOp where
  ndata := 2
  nancillae := 0
  initialLayout := [(0, 0), (2, 1)]
  outputPermutation := [(0, 0), (2, 1)]
  ancillary := [false, false]
  garbage := [false, false]
  ops := c1.ops

/-- The second circuit after preparation. -/
noncomputable def r2 : Circ WOp := { r1 with ops := c2.ops }

theorem ok3 (ops : List WOp) : CircOk { c1 with ops := ops } := by
  have k1 : (([(0, 0), (1, 1), (2, 2)] : Layout).map Prod.fst).Pairwise (· < ·) := by decide
  have k2 : (([(0, 0), (1, 1), (2, 2)] : Layout).map Prod.snd).Nodup := by decide
  refine ⟨k1, k2, ?_, k1, k2, ?_, ?_, rfl, rfl, rfl⟩
  · intro q
    show (∃ p, (p, q) ∈ [(0, 0), (1, 1), (2, 2)]) ↔ q < 3
    constructor
    · rintro ⟨p, hp⟩
      simp only [List.mem_cons, Prod.mk.injEq, List.not_mem_nil, or_false] at hp
      omega
    · intro hq
      have : q = 0 ∨ q = 1 ∨ q = 2 := by omega
      rcases this with rfl | rfl | rfl
      · exact ⟨0, by simp⟩
      · exact ⟨1, by simp⟩
      · exact ⟨2, by simp⟩
  · intro p q hp
    have hp : (p, q) ∈ [(0, 0), (1, 1), (2, 2)] := hp
    simp only [List.mem_cons, Prod.mk.injEq, List.not_mem_nil, or_false] at hp
    show q < 3
    omega
  · intro p q hp
    have hp : (p, q) ∈ [(0, 0), (1, 1), (2, 2)] := hp
    simp only [List.mem_cons, Prod.mk.injEq, List.not_mem_nil, or_false] at hp
    rcases hp with ⟨_, rfl⟩ | ⟨_, rfl⟩ | ⟨_, rfl⟩ <;> rfl

theorem runnable3 (ops : List WOp) (hp : ∀ o ∈ ops, ∀ s ∈ o.parts, s.Proper) (hn : ∀ o ∈ ops, ∀ p, o.Names p → p < 3) :
    Runnable { c1 with ops := ops } where
  ok := ok3 ops
  proper := hp
  inside := fun o ho p h => ⟨p, by
    have := hn o ho p h
    show (p, p) ∈ [(0, 0), (1, 1), (2, 2)]
    simp only [List.mem_cons, Prod.mk.injEq, List.not_mem_nil, or_false]
    omega⟩
  outInside := fun p q h => ⟨q, h⟩

theorem wX_names {p q : Nat} (h : (wX p).Names q) : q = p := by
  obtain ⟨s, hs, hn⟩ := h
  rw [wX, WOp.parts, List.mem_singleton] at hs
  subst hs
  rcases hn with ⟨_, h⟩ | ⟨_, h⟩
  · exact h.symm
  · exact absurd h (by simp)

theorem runnable1 : Runnable c1 := by
  refine runnable3 _ ?_ ?_
  · intro o ho s hs
    simp only [List.mem_cons, List.not_mem_nil, or_false] at ho
    rcases ho with rfl | rfl | rfl
    · rw [WOp.parts, List.mem_singleton] at hs; subst hs; trivial
    · exact wX_proper 0 s hs
    · rw [WOp.parts, List.mem_singleton] at hs; subst hs; trivial
  · intro o ho p hn
    simp only [List.mem_cons, List.not_mem_nil, or_false] at ho
    have sw : (WOp.simple (.swap 0 2)).Names p → p < 3 := by
      rintro ⟨s, hs, hn⟩
      rw [WOp.parts, List.mem_singleton] at hs
      subst hs
      rcases hn with h | h <;> omega
    rcases ho with rfl | rfl | rfl
    · exact sw hn
    · have := wX_names hn; omega
    · exact sw hn

theorem runnable2 : Runnable c2 := by
  refine runnable3 _ ?_ ?_
  · intro o ho s hs
    simp only [List.mem_cons, List.not_mem_nil, or_false] at ho
    subst ho
    exact wX_proper 2 s hs
  · intro o ho p hn
    simp only [List.mem_cons, List.not_mem_nil, or_false] at ho
    subst ho
    have := wX_names hn; omega

/-- The preparation removes the idle qubit. -/
theorem prepared : prepare named (testCfg true true true false 16 0) (c1, c2) =
    .made { qc1 := r1, qc2 := r2, cfg := testCfg true true true false 4 0 } := by
  rfl

/-- Physical qubits 0 and 2 are counted as 0 and 1. -/
def count (p : Nat) : Fin 2 := if p = 0 then 0 else 1

theorem numbered1 : Numbered count r1 swapXswap := by
  refine ⟨rfl, ?_, ?_, ?_, ?_, ?_, ?_⟩
  · intro p p' q q' hp hp' he
    simp only [r1, List.mem_cons, Prod.mk.injEq, List.not_mem_nil, or_false] at hp hp'
    rcases hp with ⟨rfl, _⟩ | ⟨rfl, _⟩ <;> rcases hp' with ⟨rfl, _⟩ | ⟨rfl, _⟩
    · rfl
    · exact absurd he (by decide)
    · exact absurd he (by decide)
    · rfl
  · rfl
  · intro p q hp
    simp only [r1, List.mem_cons, Prod.mk.injEq, List.not_mem_nil, or_false] at hp
    rcases hp with ⟨rfl, rfl⟩ | ⟨rfl, rfl⟩ <;> rfl
  · rfl
  · intro q hq
    have : q = 0 ∨ q = 1 := by omega
    rcases this with rfl | rfl <;> rfl
  · intro q hq
    have : q = 0 ∨ q = 1 := by omega
    rcases this with rfl | rfl <;> rfl

theorem numbered2 : Numbered count r2 justX1 := by
  refine ⟨rfl, numbered1.inj, rfl, ?_, rfl, ?_, ?_⟩
  · intro p q hp
    exact numbered1.initial p q hp
  · intro q hq
    exact numbered1.ancillary q hq
  · intro q hq
    exact numbered1.garbage q hq

/-- **C64** is not vacuous: a run of the manager on the two three-qubit circuits, prepared to two qubits, returns a verdict that decides
their equivalence. -/
theorem prepared_run : ∃ (env : Env) (s' : State), run env 20 (State.fresh (testCfg true true true false 4 0)) = some (.returned s') ∧
    Decided c1 c2 s'.results.equivalence ∧ s'.results.equivalence = .equivalent := by
  obtain ⟨env, _, s', hr, hc⟩ := decided_run_exists 4 (by decide) (settingOf swapXswap justX1 swapXswap_wf justX1_wf rfl rfl) rfl
    (fun q hq => absurd q.isLt (by omega))
  exact ⟨env, s', hr, prepared_verdict_decides named_reliable runnable1 runnable2 prepared
    (settingOf swapXswap justX1 swapXswap_wf justX1_wf rfl rfl) numbered1 numbered2 hc,
    hc.equivalent.2 fun v _ => swapXswap_same_justX1 v (fun x _ q hq => by simp at hq)⟩

/-- The two circuits are equal, on all their three qubits. -/
theorem c1_equal_c2 : Equal c1 c2 := by
  obtain ⟨_, _, _, h1, h2⟩ := prepared_run
  exact h1.equivalent.1 h2

/-- Passes that find nothing to do are faithful. -/
def nothingToDo : Passes (Circ WOp) where
  apply _ c := c
  empty _ := false
  dynamic _ := false
  variableFree _ := true

/-- `construct_preserves` applies. -/
theorem constructed : ∃ m, Prep.construct named nothingToDo (testCfg true true true false 16 0) c1 c2 = .made m ∧ m.qc1.nqubits = 2 ∧
    ∀ k, EqualUpTo k m.qc1 m.qc2 ↔ EqualUpTo k c1 c2 := by
  refine ⟨{ qc1 := r1, qc2 := r2, cfg := testCfg true true true false 4 0 }, rfl, rfl, ?_⟩
  exact (construct_preserves named_reliable runnable1 runnable2 (P := nothingToDo) (cfg := testCfg true true true false 16 0)
    (fun p _ c hc => ⟨hc, rfl, fun _ => rfl, fun _ _ => rfl⟩) rfl).2.2.2

end QCEC.Props.PreparationWitness
