import Verif.Props.VerifyEndToEndPartial
import Verif.Props.VerifyDecides
import Verif.Props.VerifyEndToEndWitness
import Verif.Props.EndToEndPartialWitness
/-!
# C81 with partial equivalence: worlds that meet the hypotheses, and the limit: the construction checker
-/
namespace QCEC.Props.VerifyPartialWitness
open QCEC QCEC.Param QCEC.Mgr QCEC.Prep QCEC.Spec QCEC.Spec.Wide QCEC.Spec.ZX QCEC.Wide QCEC.Sem QCEC.Spec.Param QCEC.Props QCEC.Props.PreparationWitness

theorem quiet_panswer {m n : Nat} {S : PBase m n} {k : Kind} {c : Criterion} (h : PAnswer S true k c) : PAnswer S false k c := by
  have sim : ∀ p c, PSimRun S true p c → PSimRun S false p c := by
    rintro p c ⟨R, g, g', st, x, stop, fuel, s, h1, h2, h3, _, h5⟩
    exact ⟨R, g, g', st, x, stop, fuel, s, h1, h2, h3, by simp, h5⟩
  induction h with
  | alternating stop hm hq fuel hf c s h => exact .alternating stop hm (by simp) fuel hf c s h
  | construction stop hm hq fuel hf c s h => exact .construction stop hm (by simp) fuel hf c s h
  | simulation c h => exact .simulation c (sim _ _ h)
  | simulationAgain p c hp h ih => exact .simulationAgain p c ih (sim _ _ h)
  | zx c h => exact .zx c (manswer_any _ h)

/-- The configuration the user passes: partial equivalence, without the construction checker. -/
def pcfg (sims : Nat) : Configuration :=
  { testCfg true true false false sims 0 with functionality := { (testCfg true true false false sims 0).functionality with checkPartialEquivalence := true } }

/-- Three qubits, logical qubit 1 is idle, qubit 2 is not measured: `X(0)`. -/
noncomputable def g1 : Circ WOp where
  ndata := 3
  nancillae := 0
  initialLayout := [(0, 0), (1, 1), (2, 2)]
  outputPermutation := [(0, 0), (1, 1)]
  ancillary := [false, false, false]
  garbage := [false, false, true]
  ops := [wX 0]

/-- `X(0) X(2)`. -/
noncomputable def g2 : Circ WOp := { g1 with ops := [wX 0, wX 2] }
/-- `X(2)`. -/
noncomputable def g3 : Circ WOp := { g1 with ops := [wX 2] }

/-- The first circuit after preparation. -/
noncomputable def h1 : Circ WOp where
  ndata := 2
  nancillae := 0
  initialLayout := [(0, 0), (2, 1)]
  outputPermutation := [(0, 0)]
  ancillary := [false, false]
  garbage := [false, true]
  ops := g1.ops

/-- The second circuit after preparation. -/
noncomputable def h2 : Circ WOp := { h1 with ops := g2.ops }
/-- The third circuit after preparation. -/
noncomputable def h3 : Circ WOp := { h1 with ops := g3.ops }

theorem gOk (ops : List WOp) : CircOk { g1 with ops := ops } := by
  have k1 : (([(0, 0), (1, 1), (2, 2)] : Layout).map Prod.fst).Pairwise (· < ·) := by decide
  have k2 : (([(0, 0), (1, 1), (2, 2)] : Layout).map Prod.snd).Nodup := by decide
  have k3 : (([(0, 0), (1, 1)] : Layout).map Prod.fst).Pairwise (· < ·) := by decide
  have k4 : (([(0, 0), (1, 1)] : Layout).map Prod.snd).Nodup := by decide
  refine ⟨k1, k2, ?_, k3, k4, ?_, ?_, rfl, rfl, rfl⟩
  · intro q
    exact (ok3 ops).onto q
  · intro p q hp
    have hp : (p, q) ∈ [(0, 0), (1, 1)] := hp
    simp only [List.mem_cons, Prod.mk.injEq, List.not_mem_nil, or_false] at hp
    show q < 3
    omega
  · intro p q hp
    have hp : (p, q) ∈ [(0, 0), (1, 1)] := hp
    simp only [List.mem_cons, Prod.mk.injEq, List.not_mem_nil, or_false] at hp
    rcases hp with ⟨_, rfl⟩ | ⟨_, rfl⟩ <;> rfl

theorem gRunnable (ops : List WOp) (h : ∀ o ∈ ops, o = wX 0 ∨ o = wX 2) : Runnable { g1 with ops := ops } where
  ok := gOk ops
  proper := fun o ho => by
    rcases h o ho with rfl | rfl
    · exact wX_proper 0
    · exact wX_proper 2
  inside := fun o ho p hn => ⟨p, by
    show (p, p) ∈ [(0, 0), (1, 1), (2, 2)]
    rcases h o ho with rfl | rfl <;> have := wX_names hn <;> subst this <;> simp⟩
  outInside := fun p q hp => ⟨q, by
    have hp : (p, q) ∈ [(0, 0), (1, 1)] := hp
    show (p, q) ∈ [(0, 0), (1, 1), (2, 2)]
    simp only [List.mem_cons, Prod.mk.injEq, List.not_mem_nil, or_false] at hp ⊢
    omega⟩

theorem gr1 : Runnable g1 := gRunnable _ (by simp)
theorem gr2 : Runnable g2 := gRunnable _ (by simp)
theorem gr3 : Runnable g3 := gRunnable _ (by simp)

theorem gNumbered1 : Numbered count h1 keepX := by
  refine ⟨rfl, ?_, rfl, ?_, rfl, ?_, ?_⟩
  · intro p p' q q' hp hp' he
    exact numbered1.inj p p' q q' hp hp' he
  · intro p q hp
    exact numbered1.initial p q hp
  · intro q hq
    exact numbered1.ancillary q hq
  · intro q hq
    have : q = 0 ∨ q = 1 := by omega
    rcases this with rfl | rfl <;> rfl

theorem gNumbered2 : Numbered count h2 bothX := ⟨rfl, gNumbered1.inj, rfl, gNumbered1.initial, rfl, gNumbered1.ancillary, gNumbered1.garbage⟩
theorem gNumbered3 : Numbered count h3 garbageX := ⟨rfl, gNumbered1.inj, rfl, gNumbered1.initial, rfl, gNumbered1.ancillary, gNumbered1.garbage⟩

theorem nothing_faithful (cfg : Configuration) : PassesFaithful nothingToDo cfg :=
  fun _ _ => ⟨fun _ hc => ⟨hc, rfl, fun _ => rfl, fun _ _ => rfl⟩, fun _ _ _ => ⟨rfl, Iff.rfl⟩⟩

/-- A manager run exists for two prepared circuits; its verdict decides their partial equivalence. -/
theorem prun_exists {a b ra rb : Circ WOp} {qa qb : QC 2} (wa : WellFormed qa 1) (wb : WellFormed qb 1)
    (aa : qa.ancillary = []) (ab : qb.ancillary = []) (hg : qa.garbage = qb.garbage) (hd : ra.ndata = 2) (na : Numbered count ra qa) (nb : Numbered count rb qb)
    (h : Prep.construct named nothingToDo (pcfg 16) a b = .made { qc1 := ra, qc2 := rb, cfg := pcfg 4 }) :
    ∃ v, PManagerRun VerifyWitness.plain a b (pcfg 16) [] v ∧ (v = .notEquivalent ↔ ¬ PartiallyEquivalent qa.garbage (flags 2 2) qa 1 qb 1) ∧
      (v = .equivalent ∨ v = .equivalentUpToGlobalPhase ↔ PartiallyEquivalent qa.garbage (flags 2 2) qa 1 qb 1) := by
  let S := psettingOf qa qb wa wb hg
  have hS : S.Partially (flags 2 2) ↔ PartiallyEquivalent qa.garbage (flags 2 2) qa 1 qb 1 := partially_congr (unread_same S hg) (fun _ => rfl) _ _ _ _
  rw [← hS]
  obtain ⟨ca, ha⟩ := exists_partial_alternating S true
  obtain ⟨cs, hs⟩ := exists_partial_simulation S true rfl
  let env := testEnv (fun _ => some cs) (.returns ca) (.returns .noInformation) (.returns .noInformation)
  have hfrom : ∀ e, FromEnv env e → (e.kind = .simulation ∨ e.kind = .alternating) → PAnswer S.toPBase true e.kind e.verdict := by
    rintro ⟨k, v⟩ h hk
    cases k
    · obtain ⟨_, h⟩ := h
      cases h; exact hs
    · cases h; exact ha
    · simp at hk
    · simp at hk
  have hans : ∀ e, FromEnv env e → Enabled (pcfg 4) e.kind → PAnswer S.toPBase true e.kind e.verdict := by
    intro e he hen
    refine hfrom e he ?_
    rcases e with ⟨k, v⟩
    cases k
    · exact Or.inl rfl
    · exact Or.inr rfl
    · cases hen
    · cases hen
  have hm : mode env (pcfg 4) = .sequential := by simp [mode, env, testEnv, pcfg, testCfg, Configuration.anythingToExecute]
  obtain ⟨s', hr, h1, h2⟩ : ∃ s', Mgr.run env 20 (State.fresh (pcfg 4)) = some (.returned s') ∧
      (s'.results.equivalence = .notEquivalent ↔ ¬ S.Partially (flags 2 2)) ∧
      (s'.results.equivalence = .equivalent ∨ s'.results.equivalence = .equivalentUpToGlobalPhase ↔ S.Partially (flags 2 2)) := by
    refine partial_sequential_decides S hm ?_ ?_ ?_ rfl ?_ (psetting_plain aa ab) (psetting_idle aa) ?_ hans
    · simp [CountersOk, State.fresh]
    · simp [State.fresh, pcfg, testCfg]
    · simp [State.fresh, pcfg, testCfg]
    · simp [State.fresh, pcfg, testCfg, Enabled]
    · rintro (⟨_, h | ⟨k, h⟩⟩ | ⟨_, h | h⟩ | ⟨h, _⟩ | ⟨h, _⟩)
      · cases h
      · cases h
      · cases h
      · cases h
      · cases h
      · cases h
  exact ⟨s'.results.equivalence, ⟨nothing_faithful _, _, h, 2, 2, hd, S.toPBase, count, count, na, nb,
    ⟨fun _ => by show SchemeType.proportional ≠ _; decide, fun _ => trivial⟩, fun _ _ _ _ h => absurd h Bool.false_ne_true,
    .sequential env 20 s' hm hr fun e he hen => quiet_panswer (hans e he hen)⟩, h1, h2⟩

open Classical in
/-- Managers that know one verdict. -/
noncomputable def knowing (cfg : Configuration) (r : Param.Res) : World where
  manager := fun _ c s x y => if c = cfg ∧ s = [] ∧ x = .given VerifyWitness.a ∧ y = .given VerifyWitness.b then .ok r else .error .attribute
  pinv := fun _ _ _ => 0
  choice := fun _ _ => 0
  uniform := fun _ => 0
  clock := fun _ => 0

/-- Importing the two files. -/
noncomputable def imp (x y : Circ WOp) : Param.Subject → Option (Circ WOp)
  | .given (.file "a.qasm") => some x
  | .given (.file "b.qasm") => some y
  | _ => none

theorem knowing_realises {x y : Circ WOp} {cfg : Configuration} {r : Param.Res} (h : PManagerRun lib x y cfg [] r.equivalence) :
    PRealises lib (imp x y) (knowing cfg r) := by
  intro k c s x' y' r' d1 d2 hp h1 h2 hk
  simp only [knowing] at hk
  split at hk
  · rename_i hh
    obtain ⟨rfl, rfl, rfl, rfl⟩ := hh
    simp only [imp, VerifyWitness.a, VerifyWitness.b, Option.some.injEq] at h1 h2
    subst h1 h2
    cases hk
    exact h
  · exact absurd hk (by simp)

theorem knowing_verify (cfg : Configuration) (r : Param.Res) : Param.verify (knowing cfg r) cfg VerifyWitness.a VerifyWitness.b = .ok r := by
  rw [verify_choice.1 (by simp [Verifiable, VerifyWitness.a]) (by simp [Verifiable, VerifyWitness.b]) (by simp [Symbolic, VerifyWitness.a])
    (by simp [Symbolic, VerifyWitness.b])]
  simp [knowing]

/-- **C81** is not vacuous with partial equivalence: `verify` finds the circuits `X(0)` and `X(0) X(2)`, of which qubit 2 is not measured, equivalent … -/
theorem partial_verify_runs : ∃ w res, PRealises VerifyWitness.plain (imp g1 g2) w ∧ Param.verify w (pcfg 16) VerifyWitness.a VerifyWitness.b = .ok res ∧
    (res.equivalence = .equivalent ∨ res.equivalence = .equivalentUpToGlobalPhase) := by
  obtain ⟨v, hv, _, hp⟩ := prun_exists keepX_wf bothX_wf rfl rfl rfl rfl gNumbered1 gNumbered2 (a := g1) (b := g2) rfl
  exact ⟨knowing (pcfg 16) { equivalence := v }, { equivalence := v }, knowing_realises hv, knowing_verify _ _, hp.2 (keepX_partially_bothX _)⟩

/-- … and `X(0)` and `X(2)` not. -/
theorem partial_verify_refutes : ∃ w res, PRealises VerifyWitness.plain (imp g1 g3) w ∧ Param.verify w (pcfg 16) VerifyWitness.a VerifyWitness.b = .ok res ∧
    res.equivalence = .notEquivalent := by
  obtain ⟨v, hv, hn, _⟩ := prun_exists keepX_wf garbageX_wf rfl rfl rfl rfl gNumbered1 gNumbered3 (a := g1) (b := g3) rfl
  exact ⟨knowing (pcfg 16) { equivalence := v }, { equivalence := v }, knowing_realises hv, knowing_verify _ _, hn.2 keepX_not_partially_garbageX⟩

theorem some_none {n : Nat} {S : Mixed n n} (h1 : S.qc1.ancillary = []) (h2 : S.qc2.ancillary = []) (q : Fin n) :
    (S.someAnc false).getD q.val false = (flags n n).getD q.val false := by
  rw [Mixed.someAnc, marks_get, h1, h2, flags_get n n (Nat.le_refl _)]
  simp

/-- Consequence: the circuits are partially equivalent, on all their qubits … -/
theorem g1_partially_g2 : PartiallyEqual g1 g2 :=
  (constructed_partially named_reliable gr1 gr2 (nothing_faithful _) (cfg := pcfg 16) (M := { qc1 := h1, qc2 := h2, cfg := pcfg 4 }) rfl
    (psettingOf keepX bothX keepX_wf bothX_wf rfl) gNumbered1 gNumbered2 false (by simp)).1.1
      ((partially_congr (unread_same _ rfl) (some_none rfl rfl) _ _ _ _).2 (keepX_partially_bothX _))

/-- … and the other ones are not. -/
theorem g1_not_partially_g3 : ¬ PartiallyEqual g1 g3 := fun h =>
  keepX_not_partially_garbageX ((partially_congr (unread_same _ rfl) (some_none rfl rfl) _ _ _ _).1 ((constructed_partially named_reliable gr1 gr3 (nothing_faithful _) (cfg := pcfg 16)
    (M := { qc1 := h1, qc2 := h3, cfg := pcfg 4 }) rfl (psettingOf keepX garbageX keepX_wf garbageX_wf rfl) gNumbered1 gNumbered3 false (by simp)).1.2 h))

/-! ## The construction checker -/

/-- Only the construction checker, with partial equivalence. -/
def ccfg : Configuration :=
  { testCfg false false true false 0 0 with functionality := { (testCfg false false true false 0 0).functionality with checkPartialEquivalence := true } }

/-- A gate on qubit 0. -/
noncomputable def wGate (m : Bool → Bool → ℂ) : WOp := .simple (.gate { k := 1, u := fun x y => m (x 0) (y 0), targets := fun _ => 0, controls := [] })

/-- A rotation. -/
noncomputable def k1 : Circ WOp where
  ndata := 1
  nancillae := 0
  initialLayout := [(0, 0)]
  outputPermutation := [(0, 0)]
  ancillary := [false]
  garbage := [false]
  ops := [wGate mR]

/-- The same after a Z gate. -/
noncomputable def k2 : Circ WOp := { k1 with ops := [wGate mZ, wGate mR] }

theorem kOk (ops : List WOp) : CircOk { k1 with ops := ops } := by
  have e1 : (([(0, 0)] : Layout).map Prod.fst).Pairwise (· < ·) := by decide
  have e2 : (([(0, 0)] : Layout).map Prod.snd).Nodup := by decide
  refine ⟨e1, e2, ?_, e1, e2, ?_, ?_, rfl, rfl, rfl⟩
  · intro q
    show (∃ p, (p, q) ∈ [(0, 0)]) ↔ q < 1
    constructor
    · rintro ⟨p, hp⟩
      simp only [List.mem_singleton, Prod.mk.injEq] at hp
      omega
    · intro hq
      have : q = 0 := by omega
      subst this
      exact ⟨0, by simp⟩
  · intro p q hp
    have hp : (p, q) ∈ [(0, 0)] := hp
    simp only [List.mem_singleton, Prod.mk.injEq] at hp
    show q < 1
    omega
  · intro p q hp
    have hp : (p, q) ∈ [(0, 0)] := hp
    simp only [List.mem_singleton, Prod.mk.injEq] at hp
    obtain ⟨_, rfl⟩ := hp
    rfl

theorem kRunnable (ops : List WOp) (h : ∀ o ∈ ops, o = wGate mR ∨ o = wGate mZ) : Runnable { k1 with ops := ops } where
  ok := kOk ops
  proper := fun o ho s hs => by
    rcases h o ho with rfl | rfl <;> rw [wGate, WOp.parts, List.mem_singleton] at hs <;> subst hs
    · exact ⟨fun _ _ _ => Subsingleton.elim _ _, by simp, mR_valid.unitary⟩
    · exact ⟨fun _ _ _ => Subsingleton.elim _ _, by simp, mZ_valid.unitary⟩
  inside := fun o ho p hn => ⟨0, by
    have e : ∀ m, (wGate m).Names p → p = 0 := by
      rintro m ⟨s, hs, hn⟩
      rw [wGate, WOp.parts, List.mem_singleton] at hs
      subst hs
      rcases hn with ⟨_, h⟩ | ⟨_, h⟩
      · exact h.symm
      · exact absurd h (by simp)
    have : p = 0 := by rcases h o ho with rfl | rfl <;> exact e _ hn
    subst this
    exact List.mem_singleton.2 rfl⟩
  outInside := fun p q hp => ⟨q, hp⟩

theorem kNumbered (ops : List WOp) : Numbered (fun _ => (0 : Fin 1)) { k1 with ops := ops }
    { ops := ops.map (WOp.on fun _ => 0), initialLayout := 1, outputPermutation := [(0, 0)] } := by
  refine ⟨rfl, ?_, rfl, ?_, rfl, ?_, ?_⟩
  · intro p p' q q' hp hp' _
    have hp : (p, q) ∈ [(0, 0)] := hp
    have hp' : (p', q') ∈ [(0, 0)] := hp'
    simp only [List.mem_singleton, Prod.mk.injEq] at hp hp'
    rw [hp.1, hp'.1]
  · intro p q hp
    have hp : (p, q) ∈ [(0, 0)] := hp
    simp only [List.mem_singleton, Prod.mk.injEq] at hp
    rw [hp.2]
    rfl
  · intro q hq
    have : q = 0 := by omega
    subst this
    rfl
  · intro q hq
    have : q = 0 := by omega
    subst this
    rfl

/-- **C81**, the restriction on the construction checker is needed: with it, `verify` with partial equivalence reports `Equivalent` for two circuits
that are not partially equivalent. -/
theorem construction_reported_equivalent : ∃ w res, PRealises VerifyWitness.plain (imp k1 k2) w ∧ Param.verify w ccfg VerifyWitness.a VerifyWitness.b = .ok res ∧
    res.equivalence = .equivalent ∧ Runnable k1 ∧ Runnable k2 ∧ ¬ PartiallyEqual k1 k2 := by
  have r1 : Runnable k1 := kRunnable _ (by simp)
  have r2 : Runnable k2 := kRunnable _ (by simp)
  let env := testEnv (fun _ => some .notEquivalent) (.returns .notEquivalent) (.returns .equivalent) (.returns .noInformation)
  have hm : mode env ccfg = .sequential := rfl
  obtain ⟨s', hr, he⟩ : ∃ s', Mgr.run env 20 (State.fresh ccfg) = some (.returned s') ∧ s'.results.equivalence = .equivalent := ⟨_, rfl, rfl⟩
  have hc : Prep.construct named nothingToDo ccfg k1 k2 = .made { qc1 := k1, qc2 := k2, cfg := ccfg } := rfl
  have hrun : PManagerRun VerifyWitness.plain k1 k2 ccfg [] .equivalent := by
    refine ⟨nothing_faithful _, _, hc, 1, 1, rfl, rotPair.toPBase, _, _, kNumbered _, kNumbered _, ⟨fun _ => by decide, fun _ => trivial⟩,
      fun _ _ _ _ h => absurd h Bool.false_ne_true, ?_⟩
    rw [← he]
    refine .sequential env 20 s' hm hr ?_
    rintro ⟨k, v⟩ h hen
    cases k
    · cases hen
    · cases hen
    · cases h
      exact quiet_panswer rotPair_construction
    · cases hen
  refine ⟨knowing ccfg { equivalence := .equivalent }, { equivalence := .equivalent }, knowing_realises hrun, knowing_verify _ _, rfl, r1, r2, fun hp => ?_⟩
  exact rotPair_not_partially (fun q => by rw [some_none rfl rfl, flags_get 1 1 (Nat.le_refl _)]; simp)
    ((constructed_partially named_reliable r1 r2 (nothing_faithful _) hc rotPair (kNumbered _) (kNumbered _) false (by simp)).1.2 hp)

end QCEC.Props.VerifyPartialWitness
