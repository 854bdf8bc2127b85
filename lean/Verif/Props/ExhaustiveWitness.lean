import Verif.Props.Exhaustive
import Verif.Props.EndToEndWitness
import Verif.Props.PartialWitness
/-!
# C79: the hypotheses can be met, and what agreement on all classical inputs does not mean
-/
namespace QCEC.Props
open QCEC QCEC.DD QCEC.Sem QCEC.Gen QCEC.ZX QCEC.Spec QCEC.Spec.ZX QCEC.Mgr QCEC.Prep Matrix

variable {m n : Nat}

theorem history_take {R : Rng} {r : Req} {g' : Generator R} : ∀ {K : Nat} {g : Generator R} {sts : List Stim} (k : Nat), k ≤ K →
    History g (List.replicate K (.request r)) sts g' → ∃ g'' : Generator R, History g (List.replicate k (.request r)) (sts.take k) g'' := by
  intro K
  induction K with
  | zero =>
    intro g sts k hk h
    rw [Nat.le_zero.mp hk]
    exact ⟨g, .nil g⟩
  | succ K ih =>
    intro g sts k hk h
    rw [List.replicate_succ] at h
    cases h with
    | request _ g1 _ r st evs sts hg hrest =>
      cases k with
      | zero => exact ⟨g, .nil g⟩
      | succ k =>
        obtain ⟨g'', h⟩ := ih k (by omega) hrest
        exact ⟨g'', .request _ _ _ _ _ _ _ hg h⟩

/-- A generator with a fair source delivers all classical stimuli. -/
theorem full_history (hd : m ≤ n) (h63 : m ≤ 63) : ∀ k, k ≤ 2 ^ m → ∃ (sts : List Stim) (g' : Generator counter),
    History (Generator.new counter 1 []) (List.replicate k (.request (checkerReq n m .computationalBasis))) sts g' := by
  intro k
  induction k with
  | zero => intro _; exact ⟨[], _, .nil _⟩
  | succ k ih =>
    intro hk
    obtain ⟨sts, g', h⟩ := ih (by omega)
    obtain ⟨st, g'', hg⟩ := (request_returns_iff counter_fair hd h63 rfl h).2 (by omega)
    refine ⟨sts ++ [st], g'', ?_⟩
    rw [List.replicate_succ']
    exact History.append h (.request _ _ _ _ _ _ _ hg (.nil _))

/-- The configuration: `K` simulations and nothing else. -/
abbrev simOnly (K : Nat) : State := State.fresh (testCfg true false false false K 0)

/-- Every generated stimulus has a state vector. -/
theorem denotes_exists (hd : m ≤ n) {t : StateType} {R : Rng} {g g' : Generator R} {st : Stim} (h : Generate g (checkerReq n m t) st g')
    (cliff : (k seed : Nat) → Basis k → ℂ) : ∃ x : Basis n → ℂ, Denotes cliff st x := by
  cases h with
  | narrow => exact ⟨_, .basis _⟩
  | wide => exact ⟨_, .basis _⟩
  | product => exact ⟨_, .product _⟩
  | stabilizer => exact ⟨_, .stabilizer _ _ _ (by simp [checkerReq, Req.random])⟩

/-- Whatever the stimuli are, there are answers of the simulation checker to them, with which a run returns. -/
theorem simulation_run_exists (S : Setting m n) {R : Rng} {K : Nat} (hK : 0 < K) {g g' : Generator R}
    {sts : List Stim} (hh : History g (List.replicate K (.request (checkerReq n m S.stateType))) sts g') :
    ∃ (env : Env) (s' : State), mode env (simOnly K).cfg = .sequential ∧
      run env (K + 1) (simOnly K) = some (.returned s') ∧ SimulatesFrom S env s'.results.performedSimulations R g ∧
      ∀ e : Event, FromEnv env e → e.kind = .simulation := by
  obtain ⟨hs⟩ := S.confS
  have hone : ∀ st ∈ sts, ∃ c : Criterion, ∃ (x : Basis n → ℂ) (s : _), Denotes S.cliff st x ∧
      runTwo (exactVector n S.garbV) S.schS false (equalsVector S.V.ptrEq S.V.wEq S.V.realClose S.V.fidClose) (fun _ => false)
        .noInformation S.qc1 S.qc2 x x (S.qc1.ops.length + S.qc2.ops.length + 2) = .ok (c, s) ∧ c ≠ .noInformation := by
    intro st hst
    obtain ⟨_, hgen⟩ := history_length (g := g) hh
    obtain ⟨g1, g2, hg⟩ := hgen st hst
    obtain ⟨x, hden⟩ := denotes_exists S.data hg S.cliff
    obtain ⟨hnorm, _⟩ := stimulus_state S.data hg S.cliff_normalised hden
    obtain ⟨s, hr, _, _⟩ := simulation_true_output S.garbV S.qc1 S.qc2 S.ω1 S.ω2 S.wf1 S.wf2 S.schS hs
      (equalsVector S.V.ptrEq S.V.wEq S.V.realClose S.V.fidClose) .noInformation x
    exact ⟨_, _, s, hden, hr, (simulation_agrees S hnorm (Nat.le_refl _) hr).1⟩
  classical
  let ans : Nat → Option Criterion := fun k => if h : ∃ st, sts[k]? = some st then
    some (hone _ (List.mem_of_getElem? h.choose_spec)).choose else some .equivalent
  have hans : ∀ k st (h : sts[k]? = some st), ans k = some (hone st (List.mem_of_getElem? h)).choose := by
    intro k st h
    have hex : ∃ st, sts[k]? = some st := ⟨st, h⟩
    have heq : hex.choose = st := Option.some.inj (hex.choose_spec.symm.trans h)
    simp only [ans, dif_pos hex]
    congr 1
    simp only [heq]
  have hne : ∀ k, ∃ c, ans k = some c ∧ c ≠ .noInformation := by
    intro k
    by_cases hk : ∃ st, sts[k]? = some st
    · obtain ⟨st, hst⟩ := hk
      exact ⟨_, hans k st hst, by obtain ⟨_, _, _, _, h⟩ := (hone st (List.mem_of_getElem? hst)).choose_spec; exact h⟩
    · exact ⟨.equivalent, by simp only [ans, dif_neg hk], by simp⟩
  let env := testEnv ans .runThrows .runThrows .runThrows
  have hmode : mode env (simOnly K).cfg = .sequential := by
    simp [mode, env, testEnv, simOnly, testCfg, State.fresh, Configuration.anythingToExecute]
    omega
  obtain ⟨s', hrun⟩ := sequential_returns_partial env (simOnly K) hmode (by simp [CountersOk, State.fresh]) (by
    rintro (⟨_, h | ⟨k, h⟩⟩ | ⟨h, _⟩ | ⟨h, _⟩ | ⟨h, _⟩)
    · cases h
    · obtain ⟨c, hc, _⟩ := hne k
      rw [show env.sim k = ans k from rfl, hc] at h; cases h
    · cases h
    · cases h
    · cases h) (by
    rintro ⟨_, k, h⟩
    obtain ⟨c, hc, hcn⟩ := hne k
    rw [show env.sim k = ans k from rfl, hc] at h
    cases h
    exact hcn rfl) (K + 1) (Nat.lt_succ_self _)
  refine ⟨env, s', hmode, hrun, ?_, fun e he => by
    obtain ⟨k, v⟩ := e
    cases k
    · rfl
    all_goals cases he⟩
  obtain ⟨_, _, hle, _⟩ := sequential_counters hmode rfl rfl hrun
  obtain ⟨g'', htake⟩ := history_take s'.results.performedSimulations hle hh
  refine ⟨g'', _, htake, ?_⟩
  intro k st hst
  have hst' : sts[k]? = some st := by
    rw [List.getElem?_take] at hst
    split at hst
    · exact hst
    · cases hst
  obtain ⟨x, s, hden, hr, _⟩ := (hone st (List.mem_of_getElem? hst')).choose_spec
  exact ⟨x, .noInformation, _, _, s, hden, Nat.le_refl _, hr, hans k st hst'⟩

/-- **C79** is not vacuous: for every two circuits there are answers of the simulation checker as in `exhaustive_simulation`, with which a
run returns. -/
theorem exhaustive_run_exists (S : Setting m n) (ht : S.stateType = .computationalBasis) (h63 : m ≤ 63) :
    ∃ (env : Env) (s' : State), mode env (simOnly (2 ^ m)).cfg = .sequential ∧
      run env (2 ^ m + 1) (simOnly (2 ^ m)) = some (.returned s') ∧ Simulates S env s'.results.performedSimulations := by
  obtain ⟨sts, g', hh⟩ := full_history (n := n) S.data h63 (2 ^ m) (Nat.le_refl _)
  obtain ⟨env, s', h1, h2, h3, _⟩ := simulation_run_exists S (Nat.two_pow_pos m) (by rw [ht]; exact hh)
  exact ⟨env, s', h1, h2, _, _, h3⟩

/-- The two circuits of `settingOf`, simulated with classical inputs. -/
noncomputable def classicalSetting (qc1 qc2 : QC 2) (h1 : WellFormed qc1 1) (h2 : WellFormed qc2 1) (ha1 : qc1.ancillary = [])
    (ha2 : qc2.ancillary = []) : Setting 2 2 := { settingOf qc1 qc2 h1 h2 ha1 ha2 with stateType := .computationalBasis }

theorem exhaustive_decided (S : Setting m n) (ht : S.stateType = .computationalBasis) (h63 : m ≤ 63) :
    ∃ (env : Env) (s' : State), run env (2 ^ m + 1) (simOnly (2 ^ m)) = some (.returned s') ∧
      Simulates S env s'.results.performedSimulations ∧
      (s'.results.equivalence = .probablyEquivalent ↔ AllInputsAgree S) ∧ (s'.results.equivalence = .notEquivalent ↔ ¬ AllInputsAgree S) := by
  obtain ⟨env, s', hm, hr, hsim⟩ := exhaustive_run_exists S ht h63
  refine ⟨env, s', hr, hsim, exhaustive_simulation S ht h63 hm rfl rfl rfl rfl ?_ ?_ hr hsim⟩
  · intro k hk
    cases k
    · rfl
    · cases hk
    · cases hk
    · cases hk
  · simp [State.fresh, testCfg]

/-- A Z gate on the first of two qubits. -/
noncomputable def justZ : QC 2 where
  ops := [.simple (.gate (gate1 mZ 0))]
  initialLayout := 1
  outputPermutation := idOut2

/-- No gate at all. -/
noncomputable def nothing2 : QC 2 where
  ops := []
  initialLayout := 1
  outputPermutation := idOut2

theorem justZ_wf : WellFormed justZ 1 := by
  refine .of_total ?_ idOut2_valid idOut2_total idOut2_ext
  intro o ho
  simp only [justZ, List.mem_cons, List.not_mem_nil, or_false] at ho
  subst ho
  exact gate1_valid mZ 0 (by intro a b; cases a <;> cases b <;> simp [mZ])

theorem nothing2_wf : WellFormed nothing2 1 := by
  refine .of_total ?_ idOut2_valid idOut2_total idOut2_ext
  intro o ho
  simp [nothing2] at ho

theorem gZ_mulVec (p : Fin n) (w : Basis n → ℂ) (x : Basis n) :
    ((gate1 mZ p).mat.mulVec w) x = (if x p then -1 else 1) * w x := by
  have key : ∀ y, (gate1 mZ p).mat x y = if y = x then (if x p then -1 else 1) else 0 := by
    intro y
    rw [gate1_mat]
    by_cases h : y = x
    · rw [if_pos h, h, if_pos fun _ _ => rfl]
      cases x p <;> simp [mZ]
    · rw [if_neg h]
      split
      · rename_i hall
        have h0 : x p ≠ y p := by
          intro h0
          apply h
          funext q
          by_cases hq : q = p
          · rw [hq]; exact h0.symm
          · exact (hall q hq).symm
        cases h1 : x p <;> cases h2 : y p <;> simp_all [mZ]
      · rfl
  simp [Matrix.mulVec, dotProduct, key]

theorem justZ_output (v : Basis 2 → ℂ) (z : Basis 2) : output justZ 1 v z = (if z 0 then -1 else 1) * v z := by
  simp only [output, readOut, execute, justZ, Op.phys, SOp.phys, gZ_mulVec, load]
  rfl

theorem nothing2_output (v : Basis 2 → ℂ) (z : Basis 2) : output nothing2 1 v z = v z := by
  simp only [output, readOut, execute, nothing2, load]
  simp

/-- **C79**: what exhaustive simulation with classical inputs does not see.  A Z gate and no gate at all differ by more than a global
phase, and all simulations pass: the verdict is `ProbablyEquivalent` although every classical input was tried. -/
theorem exhaustive_misses_phases : ∃ (S : Setting 2 2) (env : Env) (s' : State),
    run env 5 (simOnly 4) = some (.returned s') ∧ Simulates S env s'.results.performedSimulations ∧
    s'.results.equivalence = .probablyEquivalent ∧ ¬ SameUpToPhase (flags 2 2) S.qc1 S.ω1 S.qc2 S.ω2 := by
  let S := classicalSetting justZ nothing2 justZ_wf nothing2_wf rfl rfl
  obtain ⟨env, s', hr, hsim, hp, _⟩ := exhaustive_decided S rfl (by decide)
  refine ⟨S, env, s', hr, hsim, hp.2 ?_, ?_⟩
  · intro b _
    right
    have : Spec.inner (output S.qc1 S.ω1 (basisState b)) (output S.qc2 S.ω2 (basisState b)) = if b 0 then -1 else 1 := by
      unfold Spec.inner
      show ∑ x, star (output justZ 1 (basisState b) x) * output nothing2 1 (basisState b) x = _
      simp only [justZ_output, nothing2_output]
      rw [Finset.sum_eq_single b]
      · cases b 0 <;> simp [basisState]
      · intro z _ hz; simp [basisState, hz]
      · intro h; exact absurd (Finset.mem_univ _) h
    rw [this]
    show |_| < (1 / 100 : ℝ)
    cases b 0 <;> norm_num
  · rintro ⟨c, _, h⟩
    have hz : AncillasZero (flags 2 2) (fun _ : Basis 2 => (1 : ℂ)) := by
      intro x _ q hq
      have : ∀ q : Fin 2, (flags 2 2).getD q.val false = false := by decide
      rw [this q] at hq
      cases hq
    have h1 : output justZ 1 (fun _ => 1) = c • output nothing2 1 (fun _ => 1) := h _ hz
    have ha := congrFun h1 (fun _ => false)
    have hb := congrFun h1 (fun _ => true)
    simp only [justZ_output, nothing2_output, Pi.smul_apply, smul_eq_mul] at ha hb
    rw [mul_one] at ha hb
    norm_num at ha hb
    rw [← ha] at hb
    norm_num at hb

theorem swapXswap_reversible : Reversible swapXswap 1 := by
  intro b
  refine ⟨Function.update b 1 (!b 1), ?_⟩
  funext z
  have h : output swapXswap 1 (basisState b) z = basisState b (Function.update z 1 (!z 1)) := by
    simp only [output, readOut, execute, swapXswap, Op.phys, SOp.phys, swapMat_mulVec, gX_mulVec, load]
    congr 1
    revert z
    decide
  rw [h]
  unfold basisState
  have : (Function.update z 1 (!z 1) = b) ↔ (z = Function.update b 1 (!b 1)) := by
    clear h
    revert z b
    decide
  simp only [this]

theorem justX_reversible : Reversible justX 1 := by
  intro b
  refine ⟨Function.update b 0 (!b 0), ?_⟩
  funext z
  have h : output justX 1 (basisState b) z = basisState b (Function.update z 0 (!z 0)) := by
    simp only [output, readOut, execute, justX, Op.phys, SOp.phys, gX_mulVec, load]
    congr 1
  rw [h]
  unfold basisState
  have : (Function.update z 0 (!z 0) = b) ↔ (z = Function.update b 0 (!b 0)) := by
    clear h
    revert z b
    decide
  simp only [this]

/-- **C79**: two reversible circuits that differ are told apart. -/
theorem exhaustive_finds_difference : ∃ (S : Setting 2 2) (env : Env) (s' : State), Reversible S.qc1 S.ω1 ∧ Reversible S.qc2 S.ω2 ∧
    run env 5 (simOnly 4) = some (.returned s') ∧ Simulates S env s'.results.performedSimulations ∧
    s'.results.equivalence = .notEquivalent := by
  let S := classicalSetting swapXswap justX swapXswap_wf justX_wf rfl rfl
  obtain ⟨env, s', hr, hsim, _, hn⟩ := exhaustive_decided S rfl (by decide)
  refine ⟨S, env, s', swapXswap_reversible, justX_reversible, hr, hsim, hn.2 fun hA => ?_⟩
  have hs := (reversible_agree_iff S swapXswap_reversible justX_reversible (by
    show (1 / 100 : ℝ) ≤ 1
    norm_num)).1 hA
  refine swapXswap_ne_justX ⟨1, by simp, fun v _ => hs v ?_⟩
  intro x _ q hq
  have : ∀ q : Fin 2, (flags 2 2).getD q.val false = false := by decide
  rw [this q] at hq
  cases hq

end QCEC.Props
